import Verif.Lemmas.QPExists
import Verif.Props.C07

/-!
# The linear programs of `lp_general_graph` have optimal solutions
-/

namespace Verif.LP

open Finset Verif.Common Verif.Spec Verif.Props

theorem polytope_congr {n S : ℕ} {edges : Edges} (hE : EdgesIn n edges) {μ μ' : ℕ → ℕ → ℚ} {ν ν' : ℕ → ℕ → ℕ → ℚ}
    (h1 : ∀ i < n, ∀ s < S, μ i s = μ' i s) (h2 : ∀ e < edges.length, ∀ s < S, ∀ t < S, ν e s t = ν' e s t)
    (h : LocalPolytope n S edges μ ν) : LocalPolytope n S edges μ' ν' := by
  refine ⟨?_, ?_, ?_, ?_, ?_⟩
  · intro i hi s hs
    rw [← h1 i hi s hs]; exact h.nonneg i hi s hs
  · intro e he s hs t ht
    rw [← h2 e he s hs t ht]; exact h.nonneg_edge e he s hs t ht
  · intro i hi
    rw [← sum_congr rfl fun s hs => h1 i hi s (mem_range.mp hs)]; exact h.normalised i hi
  · intro e he s hs
    rw [← sum_congr rfl fun t ht => h2 e he s hs t (mem_range.mp ht), ← h1 _ (hE _ (getD_mem he)).1 s hs]
    exact h.first e he s hs
  · intro e he t ht
    rw [← sum_congr rfl fun s hs => h2 e he s (mem_range.mp hs) t ht, ← h1 _ (hE _ (getD_mem he)).2 t ht]
    exact h.second e he t ht

/-- Coordinate `k`, or 0 beyond the end. -/
noncomputable def coord (N k : ℕ) : (Fin N → ℚ) →ₗ[ℚ] ℚ := if h : k < N then LinearMap.proj ⟨k, h⟩ else 0

theorem coord_lt {N k : ℕ} (h : k < N) (v : Fin N → ℚ) : coord N k v = v ⟨k, h⟩ := by
  unfold coord
  rw [dif_pos h]
  rfl

/-- The inequalities of the local polytope. -/
noncomputable def polytopeRows (n S : ℕ) (edges : Edges) (N : ℕ) : List (((Fin N → ℚ) →ₗ[ℚ] ℚ) × ℚ) :=
  (List.range N).map (fun k => (-coord N k, 0)) ++
  (List.range n).flatMap (fun i => [(∑ s ∈ range S, coord N (i * S + s), 1), (-∑ s ∈ range S, coord N (i * S + s), -1)]) ++
  (List.range edges.length).flatMap (fun e => (List.range S).flatMap fun s =>
    [(∑ t ∈ range S, coord N (n * S + e * S ^ 2 + s * S + t) - coord N ((edges.getD e (0, 0)).1 * S + s), 0),
     (coord N ((edges.getD e (0, 0)).1 * S + s) - ∑ t ∈ range S, coord N (n * S + e * S ^ 2 + s * S + t), 0),
     (∑ t ∈ range S, coord N (n * S + e * S ^ 2 + t * S + s) - coord N ((edges.getD e (0, 0)).2 * S + s), 0),
     (coord N ((edges.getD e (0, 0)).2 * S + s) - ∑ t ∈ range S, coord N (n * S + e * S ^ 2 + t * S + s), 0)])

theorem sat_polytopeRows (n S : ℕ) (edges : Edges) (v : Fin (n * S + edges.length * S ^ 2) → ℚ) :
    QP.Sat (polytopeRows n S edges _) v ↔
      LocalPolytope n S edges (nodeVars S fun k => coord (n * S + edges.length * S ^ 2) k v)
        (edgeVars n S fun k => coord (n * S + edges.length * S ^ 2) k v) := by
  unfold QP.Sat polytopeRows nodeVars edgeVars
  simp only [List.mem_append, List.mem_map, List.mem_flatMap, List.mem_range, List.mem_cons, List.not_mem_nil, or_false]
  constructor
  · intro h
    have hk : ∀ k < n * S + edges.length * S ^ 2, 0 ≤ coord (n * S + edges.length * S ^ 2) k v := by
      intro k hk
      have := h _ (.inl (.inl ⟨k, hk, rfl⟩))
      rw [LinearMap.neg_apply] at this
      linarith
    refine ⟨?_, ?_, ?_, ?_, ?_⟩
    · intro i hi s hs
      exact hk _ (lt_of_lt_of_le (flat_lt hi hs) (Nat.le_add_right _ _))
    · intro e he s hs t ht
      refine hk _ ?_
      have h1 : s * S + t < S ^ 2 := by rw [pow_two]; exact flat_lt hs ht
      have h2 : e * S ^ 2 + (s * S + t) < edges.length * S ^ 2 := flat_lt he h1
      omega
    · intro i hi
      have h1 := h _ (.inl (.inr ⟨i, hi, .inl rfl⟩))
      have h2 := h _ (.inl (.inr ⟨i, hi, .inr rfl⟩))
      simp only [LinearMap.neg_apply, LinearMap.sum_apply] at h1 h2
      linarith
    · intro e he s hs
      have h1 := h _ (.inr ⟨e, he, s, hs, .inl rfl⟩)
      have h2 := h _ (.inr ⟨e, he, s, hs, .inr (.inl rfl)⟩)
      simp only [LinearMap.sub_apply, LinearMap.sum_apply] at h1 h2
      linarith
    · intro e he t ht
      have h1 := h _ (.inr ⟨e, he, t, ht, .inr (.inr (.inl rfl))⟩)
      have h2 := h _ (.inr ⟨e, he, t, ht, .inr (.inr (.inr rfl))⟩)
      simp only [LinearMap.sub_apply, LinearMap.sum_apply] at h1 h2
      linarith
  · intro h l hl
    rcases hl with (⟨k, hk, rfl⟩ | ⟨i, hi, rfl | rfl⟩) | ⟨e, he, s, hs, rfl | rfl | rfl | rfl⟩
    · rw [LinearMap.neg_apply]
      have : 0 ≤ coord (n * S + edges.length * S ^ 2) k v := by
        have hSpos : 0 < S := by
          rcases Nat.eq_zero_or_pos S with h0 | h0
          · rw [h0] at hk; simp at hk
          · exact h0
        by_cases hlt : k < n * S
        · have h1 := h.nonneg (k / S) (Nat.div_lt_of_lt_mul (by rw [mul_comm]; exact hlt)) (k % S) (Nat.mod_lt _ hSpos)
          have e : k / S * S + k % S = k := by rw [mul_comm]; exact Nat.div_add_mod k S
          rw [e] at h1
          exact h1
        · have hS2 : 0 < S ^ 2 := by positivity
          set k' := k - n * S with hk'
          have hk'lt : k' < S ^ 2 * edges.length := by rw [mul_comm]; omega
          have hm : k' % S ^ 2 < S * S := by rw [← pow_two]; exact Nat.mod_lt _ hS2
          have h1 := h.nonneg_edge (k' / S ^ 2) (Nat.div_lt_of_lt_mul hk'lt) (k' % S ^ 2 / S)
            (Nat.div_lt_of_lt_mul hm) (k' % S ^ 2 % S) (Nat.mod_lt _ hSpos)
          have e : n * S + k' / S ^ 2 * S ^ 2 + k' % S ^ 2 / S * S + k' % S ^ 2 % S = k := by
            have e1 := Nat.div_add_mod k' (S ^ 2)
            have e2 := Nat.div_add_mod (k' % S ^ 2) S
            rw [mul_comm] at e1 e2
            omega
          rw [e] at h1
          exact h1
      linarith
    · simp only [LinearMap.sum_apply]
      exact (h.normalised i hi).le
    · simp only [LinearMap.neg_apply, LinearMap.sum_apply]
      exact neg_le_neg (h.normalised i hi).ge
    · simp only [LinearMap.sub_apply, LinearMap.sum_apply]
      exact sub_nonpos.mpr (h.first e he s hs).le
    · simp only [LinearMap.sub_apply, LinearMap.sum_apply]
      exact sub_nonpos.mpr (h.first e he s hs).ge
    · simp only [LinearMap.sub_apply, LinearMap.sum_apply]
      exact sub_nonpos.mpr (h.second e he s hs).le
    · simp only [LinearMap.sub_apply, LinearMap.sum_apply]
      exact sub_nonpos.mpr (h.second e he s hs).ge

/-- **Existence.** The program that `lp_general_graph` builds has an optimal solution, whatever the potentials. -/
theorem exists_optimal (unaries : Mat) (edges : Edges) (ew : Ten) (hn : 1 ≤ unaries.rows) (hS : 1 ≤ unaries.cols)
    (h0 : ew.d0 = edges.length) (h1 : ew.d1 = unaries.cols) (h2 : ew.d2 = unaries.cols)
    (hE : EdgesIn unaries.rows edges) (p : Program) (hp : build unaries edges ew = .ok p) : ∃ x, p.Optimal x := by
  obtain ⟨p', hp', hfeas⟩ := C09_local_polytope unaries edges ew hn hS h0 h1 h2 hE
  rw [hp] at hp'
  injection hp' with hp'
  subst hp'
  have hN : p.nVars = unaries.rows * unaries.cols + edges.length * unaries.cols ^ 2 := by
    rw [build_ok hn hS h0 h1 h2] at hp
    injection hp with hp
    rw [← hp]
  set n := unaries.rows
  set S := unaries.cols
  set N := n * S + edges.length * S ^ 2 with hNdef
  -- indices of the variables
  have hnode : ∀ i < n, ∀ s < S, i * S + s < N := fun i hi s hs => lt_of_lt_of_le (flat_lt hi hs) (Nat.le_add_right _ _)
  have hedge : ∀ e < edges.length, ∀ s < S, ∀ t < S, n * S + e * S ^ 2 + s * S + t < N := by
    intro e he s hs t ht
    have h1 : s * S + t < S ^ 2 := by rw [pow_two]; exact flat_lt hs ht
    have h2 : e * S ^ 2 + (s * S + t) < edges.length * S ^ 2 := flat_lt he h1
    omega
  let q : (Fin N → ℚ) →ₗ[ℚ] ℚ := ∑ k ∈ range N, p.c.get k • coord N k
  have hq : ∀ v, QP.quad 0 q v = dot N p.c.get fun k => coord N k v := by
    intro v
    unfold QP.quad dot
    simp only [LinearMap.zero_apply, zero_div, zero_add, q, LinearMap.sum_apply, LinearMap.smul_apply, smul_eq_mul]
  have hx0 : QP.Sat (polytopeRows n S edges N) (fun k => encode n S edges (fun _ => 0) k) := by
    rw [sat_polytopeRows]
    have hv : Valid n S (fun _ => 0) := fun _ _ => hS
    refine polytope_congr hE ?_ ?_ (encode_polytope hE hv)
    · intro i hi s hs
      exact (coord_lt (hnode i hi s hs) (fun k : Fin N => encode n S edges (fun _ => 0) k)).symm
    · intro e he s hs t ht
      exact (coord_lt (hedge e he s hs t ht) (fun k : Fin N => encode n S edges (fun _ => 0) k)).symm
  have hrec : ∀ d ∈ (⊤ : Submodule ℚ (Fin N → ℚ)), (∀ l ∈ polytopeRows n S edges N, l.1 d ≤ 0) → d = 0 := by
    intro d _ hd
    unfold polytopeRows at hd
    simp only [List.mem_append, List.mem_map, List.mem_flatMap, List.mem_range, List.mem_cons, List.not_mem_nil,
      or_false] at hd
    have hk : ∀ k < N, 0 ≤ coord N k d := by
      intro k hk
      have := hd _ (.inl (.inl ⟨k, hk, rfl⟩))
      rw [LinearMap.neg_apply] at this
      linarith
    have hz1 : ∀ i < n, ∀ s < S, coord N (i * S + s) d = 0 := by
      intro i hi s hs
      have h3 := hd _ (.inl (.inr ⟨i, hi, .inl rfl⟩))
      simp only [LinearMap.sum_apply] at h3
      have h4 : ∑ s ∈ range S, coord N (i * S + s) d = 0 :=
        le_antisymm h3 (sum_nonneg fun s hs => hk _ (hnode i hi s (mem_range.mp hs)))
      exact (sum_eq_zero_iff_of_nonneg fun s hs => hk _ (hnode i hi s (mem_range.mp hs))).mp h4 s (mem_range.mpr hs)
    have hz2 : ∀ e < edges.length, ∀ s < S, ∀ t < S, coord N (n * S + e * S ^ 2 + s * S + t) d = 0 := by
      intro e he s hs t ht
      have h3 := hd _ (.inr ⟨e, he, s, hs, .inl rfl⟩)
      simp only [LinearMap.sub_apply, LinearMap.sum_apply] at h3
      rw [hz1 _ (hE _ (getD_mem he)).1 s hs, sub_zero] at h3
      have h4 := le_antisymm h3 (sum_nonneg fun t ht => hk _ (hedge e he s hs t (mem_range.mp ht)))
      exact (sum_eq_zero_iff_of_nonneg fun t ht => hk _ (hedge e he s hs t (mem_range.mp ht))).mp h4 t (mem_range.mpr ht)
    funext k
    have hSpos : 0 < S := hS
    rw [← coord_lt k.2 d]
    change _ = (0 : ℚ)
    by_cases hlt : k.1 < n * S
    · have h3 := hz1 (k / S) (Nat.div_lt_of_lt_mul (by rw [mul_comm]; exact hlt)) (k % S) (Nat.mod_lt _ hSpos)
      have e : k.1 / S * S + k % S = k := by rw [mul_comm]; exact Nat.div_add_mod k.1 S
      rw [e] at h3
      exact h3
    · have hS2 : 0 < S ^ 2 := by positivity
      have hkN := k.2
      set k' := k.1 - n * S with hk'
      have hk'lt : k' < S ^ 2 * edges.length := by rw [mul_comm]; omega
      have hm : k' % S ^ 2 < S * S := by rw [← pow_two]; exact Nat.mod_lt _ hS2
      have h3 := hz2 (k' / S ^ 2) (Nat.div_lt_of_lt_mul hk'lt) (k' % S ^ 2 / S)
        (Nat.div_lt_of_lt_mul hm) (k' % S ^ 2 % S) (Nat.mod_lt _ hSpos)
      have e : n * S + k' / S ^ 2 * S ^ 2 + k' % S ^ 2 / S * S + k' % S ^ 2 % S = k.1 := by
        have e1 := Nat.div_add_mod k' (S ^ 2)
        have e2 := Nat.div_add_mod (k' % S ^ 2) S
        rw [mul_comm] at e1 e2
        omega
      rw [e] at h3
      exact h3
  obtain ⟨v, -, hv, hmin⟩ := QP.quad_attained (V := Fin N → ℚ) 0 (by simp) (by simp) q _ _ rfl ⊤ _ hx0 hrec
  refine ⟨fun k => coord N k v, (hfeas _).mpr ((sat_polytopeRows n S edges v).mp hv), fun x' hx' => ?_⟩
  rw [hN, ← hq]
  have hx'v : QP.Sat (polytopeRows n S edges N) (fun k : Fin N => x' k) := by
    rw [sat_polytopeRows]
    refine polytope_congr hE ?_ ?_ ((hfeas x').mp hx')
    · intro i hi s hs
      exact (coord_lt (hnode i hi s hs) (fun k : Fin N => x' k)).symm
    · intro e he s hs t ht
      exact (coord_lt (hedge e he s hs t ht) (fun k : Fin N => x' k)).symm
  refine (hmin _ trivial hx'v).trans (le_of_eq ?_)
  rw [hq]
  unfold dot
  refine sum_congr rfl fun k hk => ?_
  simp only
  rw [coord_lt (mem_range.mp hk)]

open Classical in
/-- A solver that returns an optimal solution whenever there is one. -/
noncomputable def ideal : Solver := fun p => if h : ∃ x, p.Optimal x then h.choose else fun _ => 0

/-- **An exact LP solver exists.** -/
theorem ideal_solves (U : Mat) (edges : Edges) (P : ℕ → ℕ → ℕ → ℚ) (hn : 1 ≤ U.rows) (hS : 1 ≤ U.cols)
    (hE : EdgesIn U.rows edges) : SolvesExactly ideal U edges P := by
  intro p hp
  have h := exists_optimal ⟨U.rows, U.cols, fun i s => - U.get i s⟩ edges
      ⟨edges.length, U.cols, U.cols, fun e a b => - P e a b⟩ hn hS rfl rfl rfl hE p hp
  unfold ideal
  rw [dif_pos h]
  exact h.choose_spec

end Verif.LP
