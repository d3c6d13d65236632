import Verif.Model.LP
import Verif.Spec.LocalPolytope

/-!
# The constraint system built by `lp_general_graph`
-/

namespace Verif.LP

open Finset Verif.Common

variable {n S : ℕ} {edges : Edges}

/-- triples of constraint `k < 2S-1` of edge `e`, put into row `r`. -/
def block (n S : ℕ) (edges : Edges) (e k r : ℕ) : List Trip :=
  if k < S then
    ⟨-1, r, (edge edges e).1 * S + k⟩ ::
      (List.range S).map fun j => ⟨1, r, n * S + e * S ^ 2 + k * S + j⟩
  else
    ⟨-1, r, (edge edges e).2 * S + (k - S)⟩ ::
      (List.range S).map fun j => ⟨1, r, n * S + e * S ^ 2 + j * S + (k - S)⟩

/-- row of constraint `k` of edge `e`. -/
def rowOf (n S e k : ℕ) : ℕ := n + e * (2 * S - 1) + k

theorem edgeStep_block (hS : 1 ≤ S) {e k : ℕ} (hk : k < 2 * S - 1) (l : List Trip) (r : ℕ) :
    edgeStep n S edges (l, r) (e * (2 * S) + k) = (l ++ block n S edges e k r, r + 1) := by
  have hk2 : k < 2 * S := by omega
  have hdiv : (e * (2 * S) + k) / (2 * S) = e := flat_div hk2
  have hmod : (e * (2 * S) + k) % (2 * S) = k := flat_mod hk2
  have hmod' : (e * (2 * S) + k) % S = k % S := by
    rw [show e * (2 * S) + k = S * (2 * e) + k by ring, Nat.mul_add_mod]
  unfold edgeStep block
  simp only [hdiv, hmod, hmod']
  by_cases hkS : k < S
  · rw [Nat.div_eq_of_lt hkS, Nat.mod_eq_of_lt hkS]
    simp [hkS]
  · have h1 : k / S = 1 := Nat.div_eq_of_lt_le (by omega) (by omega)
    have h2 : k % S = k - S := by
      rw [Nat.mod_eq_sub_mod (by omega), Nat.mod_eq_of_lt (by omega)]
    rw [h1, h2]
    have h3 : ¬ (k - S = S - 1) := by omega
    simp [hkS, h3]

theorem edgeStep_skip (hS : 1 ≤ S) {e : ℕ} (st : List Trip × ℕ) :
    edgeStep n S edges st (e * (2 * S) + (2 * S - 1)) = st := by
  have hk2 : 2 * S - 1 < 2 * S := by omega
  have hmod : (e * (2 * S) + (2 * S - 1)) % (2 * S) = 2 * S - 1 := flat_mod hk2
  have hmod' : (e * (2 * S) + (2 * S - 1)) % S = S - 1 := by
    rw [show e * (2 * S) + (2 * S - 1) = S * (2 * e) + (2 * S - 1) by ring, Nat.mul_add_mod,
      Nat.mod_eq_sub_mod (by omega), Nat.mod_eq_of_lt (by omega)]
    omega
  have h1 : (2 * S - 1) / S = 1 := Nat.div_eq_of_lt_le (by omega) (by omega)
  unfold edgeStep
  simp only [hmod, hmod', h1]
  simp

/-- processing (a prefix of) the constraints of one edge. -/
theorem edge_fold_aux (hS : 1 ≤ S) (e : ℕ) (l : List Trip) (r : ℕ) (m : ℕ)
    (hm : m ≤ 2 * S - 1) :
    (List.range m).foldl (fun st k => edgeStep n S edges st (e * (2 * S) + k)) (l, r) =
      (l ++ (List.range m).flatMap (fun k => block n S edges e k (r + k)), r + m) := by
  induction m with
  | zero => simp
  | succ m ih =>
    rw [List.range_succ, List.foldl_append, ih (by omega)]
    simp only [List.foldl_cons, List.foldl_nil]
    rw [edgeStep_block hS (by omega)]
    simp [List.flatMap_append, add_assoc]

theorem edge_fold (hS : 1 ≤ S) (e : ℕ) (l : List Trip) (r : ℕ) :
    (List.range (2 * S)).foldl (fun st k => edgeStep n S edges st (e * (2 * S) + k)) (l, r) =
      (l ++ (List.range (2 * S - 1)).flatMap (fun k => block n S edges e k (r + k)),
        r + (2 * S - 1)) := by
  have h : 2 * S = (2 * S - 1) + 1 := by omega
  conv_lhs => rw [h, List.range_succ, List.foldl_append]
  have h2 := edge_fold_aux (n := n) (edges := edges) hS e l r (2 * S - 1) le_rfl
  have h3 : ∀ st k, edgeStep n S edges st (e * (2 * S - 1 + 1) + k) =
      edgeStep n S edges st (e * (2 * S) + k) := by
    intro st k; rw [← h]
  simp only [h3]
  rw [h2]
  simp only [List.foldl_cons, List.foldl_nil]
  rw [edgeStep_skip hS]

theorem all_fold (hS : 1 ≤ S) (l : List Trip) (E : ℕ) :
    (List.range (E * (2 * S))).foldl (edgeStep n S edges) (l, n) =
      (l ++ (List.range E).flatMap (fun e =>
        (List.range (2 * S - 1)).flatMap fun k => block n S edges e k (rowOf n S e k)),
        n + E * (2 * S - 1)) := by
  induction E with
  | zero => simp
  | succ E ih =>
    rw [Nat.succ_mul, List.range_add, List.foldl_append, ih, List.foldl_map, edge_fold hS]
    simp only [List.range_succ, List.flatMap_append, List.flatMap_cons, List.flatMap_nil,
      List.append_nil, List.append_assoc, rowOf]
    congr 1
    ring

theorem triples_eq (hS : 1 ≤ S) : triples n S edges =
    summationTriples n S ++ (List.range edges.length).flatMap (fun e =>
        (List.range (2 * S - 1)).flatMap fun k => block n S edges e k (rowOf n S e k)) := by
  unfold triples
  rw [show 2 * edges.length * S = edges.length * (2 * S) by ring, all_fold hS]

/-! ### rows -/

theorem rowDot_append (A B : List Trip) (x : ℕ → ℚ) (r : ℕ) :
    rowDot (A ++ B) x r = rowDot A x r + rowDot B x r := by
  simp [rowDot]

theorem rowDot_flatMap (l : List ℕ) (f : ℕ → List Trip) (x : ℕ → ℚ) (r : ℕ) :
    rowDot (l.flatMap f) x r = (l.map fun i => rowDot (f i) x r).sum := by
  induction l with
  | nil => simp [rowDot]
  | cons a l ih => rw [List.flatMap_cons, rowDot_append, ih]; simp

theorem list_sum_range' (m : ℕ) (f : ℕ → ℚ) :
    ((List.range m).map f).sum = ∑ i ∈ range m, f i := by
  induction m with
  | zero => simp
  | succ m ih => rw [List.range_succ, List.map_append, List.sum_append, ih, sum_range_succ]; simp

theorem rowDot_summation (x : ℕ → ℚ) (r : ℕ) :
    rowDot (summationTriples n S) x r =
      if r < n then ∑ s ∈ range S, x (r * S + s) else 0 := by
  unfold summationTriples
  rw [rowDot_flatMap, list_sum_range']
  have : ∀ i ∈ range n, rowDot ((List.range S).map fun j => (⟨1, i, i * S + j⟩ : Trip)) x r =
      if i = r then ∑ s ∈ range S, x (r * S + s) else 0 := by
    intro i _
    unfold rowDot
    rw [List.map_map, list_sum_range']
    simp only [Function.comp]
    split
    · rename_i h; subst h; simp
    · simp
  rw [sum_congr rfl this]
  simp

theorem rowDot_block_other {e k r r' : ℕ} (x : ℕ → ℚ) (h : r ≠ r') :
    rowDot (block n S edges e k r) x r' = 0 := by
  unfold rowDot block
  split <;> simp [h, Function.comp_def]

theorem rowDot_block_first {e k r : ℕ} (x : ℕ → ℚ) (hk : k < S) :
    rowDot (block n S edges e k r) x r =
      ∑ t ∈ range S, x (n * S + e * S ^ 2 + k * S + t) - x ((edge edges e).1 * S + k) := by
  unfold rowDot block
  rw [if_pos hk]
  simp only [List.map_cons, List.map_map, Function.comp_def, if_true, List.sum_cons,
    list_sum_range', one_mul]
  ring

theorem rowDot_block_second {e k r : ℕ} (x : ℕ → ℚ) (hk : ¬ k < S) :
    rowDot (block n S edges e k r) x r =
      ∑ s ∈ range S, x (n * S + e * S ^ 2 + s * S + (k - S)) -
        x ((edge edges e).2 * S + (k - S)) := by
  unfold rowDot block
  rw [if_neg hk]
  simp only [List.map_cons, List.map_map, Function.comp_def, if_true, List.sum_cons,
    list_sum_range', one_mul]
  ring

theorem rowOf_inj {e k e' k' : ℕ} (hk : k < 2 * S - 1) (hk' : k' < 2 * S - 1)
    (h : rowOf n S e k = rowOf n S e' k') : e = e' ∧ k = k' := by
  unfold rowOf at h
  have h' : e * (2 * S - 1) + k = e' * (2 * S - 1) + k' := by omega
  constructor
  · rw [← flat_div hk (i := e), h', flat_div hk']
  · rw [← flat_mod hk (i := e), h', flat_mod hk']

theorem rowDot_blocks {E e k : ℕ} (x : ℕ → ℚ) (he : e < E) (hk : k < 2 * S - 1) :
    rowDot ((List.range E).flatMap (fun e =>
        (List.range (2 * S - 1)).flatMap fun k => block n S edges e k (rowOf n S e k))) x
        (rowOf n S e k) = rowDot (block n S edges e k (rowOf n S e k)) x (rowOf n S e k) := by
  rw [rowDot_flatMap, list_sum_range', sum_eq_single e]
  · rw [rowDot_flatMap, list_sum_range', sum_eq_single k]
    · intro k' hk' hne
      apply rowDot_block_other
      intro h
      exact hne (rowOf_inj (mem_range.mp hk') hk h).2
    · intro h; exact absurd (mem_range.mpr hk) h
  · intro e' _ hne
    rw [rowDot_flatMap, list_sum_range']
    apply sum_eq_zero
    intro k' hk'
    apply rowDot_block_other
    intro h
    exact hne (rowOf_inj (mem_range.mp hk') hk h).1
  · intro h; exact absurd (mem_range.mpr he) h

theorem rowDot_blocks_low {E r : ℕ} (x : ℕ → ℚ) (hr : r < n) :
    rowDot ((List.range E).flatMap (fun e =>
        (List.range (2 * S - 1)).flatMap fun k => block n S edges e k (rowOf n S e k))) x r = 0 := by
  rw [rowDot_flatMap, list_sum_range']
  apply sum_eq_zero
  intro e _
  rw [rowDot_flatMap, list_sum_range']
  apply sum_eq_zero
  intro k _
  apply rowDot_block_other
  unfold rowOf
  omega

/-- the normalisation rows. -/
theorem rowDot_low (hS : 1 ≤ S) (x : ℕ → ℚ) {r : ℕ} (hr : r < n) :
    rowDot (triples n S edges) x r = ∑ s ∈ range S, x (r * S + s) := by
  rw [triples_eq hS, rowDot_append, rowDot_summation, if_pos hr, rowDot_blocks_low x hr, add_zero]

/-- the edge rows. -/
theorem rowDot_edge (hS : 1 ≤ S) (x : ℕ → ℚ) {e k : ℕ} (he : e < edges.length)
    (hk : k < 2 * S - 1) :
    rowDot (triples n S edges) x (rowOf n S e k) =
      rowDot (block n S edges e k (rowOf n S e k)) x (rowOf n S e k) := by
  rw [triples_eq hS, rowDot_append, rowDot_summation, if_neg (by unfold rowOf; omega),
    rowDot_blocks x he hk, zero_add]

/-! ### sizes -/

theorem foldl_max_spec (l : List ℕ) (a : ℕ) : a ≤ l.foldl max a ∧ (∀ b ∈ l, b ≤ l.foldl max a) ∧
    (l.foldl max a = a ∨ l.foldl max a ∈ l) := by
  induction l generalizing a with
  | nil => simp
  | cons b l ih =>
    obtain ⟨h1, h2, h3⟩ := ih (max a b)
    simp only [List.foldl_cons]
    refine ⟨le_trans (le_max_left _ _) h1, ?_, ?_⟩
    · intro c hc
      rcases List.mem_cons.mp hc with rfl | hc
      · exact le_trans (le_max_right _ _) h1
      · exact h2 c hc
    · rcases h3 with h | h
      · rw [h]
        rcases max_choice a b with h' | h'
        · left; exact h'
        · right; rw [h']; simp
      · right; simp [h]

theorem foldl_max_eq {l : List ℕ} {m : ℕ} (hle : ∀ b ∈ l, b ≤ m) (hm : m ∈ l) :
    l.foldl max 0 = m := by
  obtain ⟨h1, h2, h3⟩ := foldl_max_spec l 0
  have := h2 m hm
  rcases h3 with h | h
  · omega
  · have := hle _ h
    omega

theorem mem_triples (hS : 1 ≤ S) {t : Trip} : t ∈ triples n S edges ↔
    (∃ i < n, ∃ j < S, t = ⟨1, i, i * S + j⟩) ∨
    (∃ e < edges.length, ∃ k < 2 * S - 1, t ∈ block n S edges e k (rowOf n S e k)) := by
  rw [triples_eq hS]
  simp only [List.mem_append, summationTriples, List.mem_flatMap, List.mem_range, List.mem_map]
  constructor
  · rintro (⟨i, hi, j, hj, rfl⟩ | h)
    · exact Or.inl ⟨i, hi, j, hj, rfl⟩
    · exact Or.inr h
  · rintro (⟨i, hi, j, hj, rfl⟩ | h)
    · exact Or.inl ⟨i, hi, j, hj, rfl⟩
    · exact Or.inr h

theorem block_row {e k r : ℕ} {t : Trip} (h : t ∈ block n S edges e k r) : t.row = r := by
  unfold block at h
  split at h <;>
  · simp only [List.mem_cons, List.mem_map, List.mem_range] at h
    rcases h with rfl | ⟨j, _, rfl⟩ <;> rfl

/-- `A.size[0]`, the number of rows. -/
theorem rows_eq (hn : 1 ≤ n) (hS : 1 ≤ S) :
    ((triples n S edges).map Trip.row).foldl max 0 + 1 = n + edges.length * (2 * S - 1) := by
  have hmax : ((triples n S edges).map Trip.row).foldl max 0 =
      n + edges.length * (2 * S - 1) - 1 := by
    apply foldl_max_eq
    · intro b hb
      obtain ⟨t, ht, rfl⟩ := List.mem_map.mp hb
      rcases (mem_triples hS).mp ht with ⟨i, hi, j, hj, rfl⟩ | ⟨e, he, k, hk, hb⟩
      · simp only; omega
      · rw [block_row hb]
        unfold rowOf
        have := flat_lt he hk
        omega
    · rw [List.mem_map]
      rcases Nat.eq_zero_or_pos edges.length with h0 | hE
      · refine ⟨⟨1, n - 1, (n - 1) * S + 0⟩, (mem_triples hS).mpr
          (Or.inl ⟨n - 1, by omega, 0, by omega, rfl⟩), ?_⟩
        simp [h0]
      · refine ⟨⟨-1, rowOf n S (edges.length - 1) (2 * S - 2), if 2 * S - 2 < S then
          (edge edges (edges.length - 1)).1 * S + (2 * S - 2) else
          (edge edges (edges.length - 1)).2 * S + (2 * S - 2 - S)⟩, (mem_triples hS).mpr
          (Or.inr ⟨edges.length - 1, by omega, 2 * S - 2, by omega, ?_⟩), ?_⟩
        · unfold block
          split <;> simp
        · simp only [rowOf]
          have : edges.length * (2 * S - 1) = (edges.length - 1) * (2 * S - 1) + (2 * S - 1) := by
            conv_lhs => rw [show edges.length = (edges.length - 1) + 1 by omega]
            ring
          omega
  rw [hmax]
  omega

/-- `A.size[1]` is the number of variables (so the program is well-formed). -/
theorem cols_eq (hn : 1 ≤ n) (hS : 1 ≤ S) (hE : ∀ e ∈ edges, e.1 < n ∧ e.2 < n) :
    ((triples n S edges).map Trip.col).foldl max 0 + 1 = n * S + edges.length * S ^ 2 := by
  have hpos : 1 ≤ n * S := Nat.mul_pos hn hS
  have hmax : ((triples n S edges).map Trip.col).foldl max 0 =
      n * S + edges.length * S ^ 2 - 1 := by
    apply foldl_max_eq
    · intro b hb
      obtain ⟨t, ht, rfl⟩ := List.mem_map.mp hb
      rcases (mem_triples hS).mp ht with ⟨i, hi, j, hj, rfl⟩ | ⟨e, he, k, hk, hb⟩
      · simp only
        have := flat_lt hi hj
        omega
      · have hedge : edge edges e ∈ edges := by
          unfold edge
          rw [List.getD_eq_getElem _ _ he]
          exact List.getElem_mem _
        have hr := hE _ hedge
        have hin : ∀ a b, a < S → b < S → e * S ^ 2 + (a * S + b) < edges.length * S ^ 2 := by
          intro a b ha hb
          apply flat_lt he
          rw [pow_two]
          exact flat_lt ha hb
        unfold block at hb
        split at hb
        · rename_i hkS
          simp only [List.mem_cons, List.mem_map, List.mem_range] at hb
          rcases hb with rfl | ⟨j, hj, rfl⟩
          · simp only
            have := flat_lt hr.1 hkS
            omega
          · simp only
            have := hin k j hkS hj
            omega
        · rename_i hkS
          simp only [List.mem_cons, List.mem_map, List.mem_range] at hb
          rcases hb with rfl | ⟨j, hj, rfl⟩
          · simp only
            have := flat_lt hr.2 (show k - S < S by omega)
            omega
          · simp only
            have := hin j (k - S) hj (by omega)
            omega
    · rw [List.mem_map]
      rcases Nat.eq_zero_or_pos edges.length with h0 | hE'
      · refine ⟨⟨1, n - 1, (n - 1) * S + (S - 1)⟩, (mem_triples hS).mpr
          (Or.inl ⟨n - 1, by omega, S - 1, by omega, rfl⟩), ?_⟩
        simp only [h0]
        have : n * S = (n - 1) * S + S := by
          conv_lhs => rw [show n = (n - 1) + 1 by omega]
          ring
        omega
      · refine ⟨⟨1, rowOf n S (edges.length - 1) (S - 1),
          n * S + (edges.length - 1) * S ^ 2 + (S - 1) * S + (S - 1)⟩, (mem_triples hS).mpr
          (Or.inr ⟨edges.length - 1, by omega, S - 1, by omega, ?_⟩), ?_⟩
        · unfold block
          rw [if_pos (by omega)]
          simp only [List.mem_cons, List.mem_map, List.mem_range]
          exact Or.inr ⟨S - 1, by omega, rfl⟩
        · simp only
          have h1 : edges.length * S ^ 2 = (edges.length - 1) * S ^ 2 + S ^ 2 := by
            conv_lhs => rw [show edges.length = (edges.length - 1) + 1 by omega]
            ring
          have h2 : S ^ 2 = (S - 1) * S + S := by
            conv_lhs => rw [show S = (S - 1) + 1 by omega]
            rw [show S - 1 + 1 = S by omega, pow_two]
            conv_lhs => rw [show S * S = (S - 1 + 1) * S by rw [show S - 1 + 1 = S by omega]]
            ring
          omega
  rw [hmax]
  omega

end Verif.LP
