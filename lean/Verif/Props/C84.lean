import Verif.Props.C06
import Verif.Lemmas.Tree

/-!
# C84: what converged loopy max-product guarantees
-/

namespace Verif.Props

open Finset Verif.Common Verif.MaxProd Verif.Spec

variable {S : ℕ} {U : ℕ → ℕ → ℚ} {P : ℕ → ℕ → ℕ → ℚ} {edges : Edges} {d : ℚ}

/-! ### how far a pass moves the messages -/

theorem maxN_lipschitz {f g : ℕ → ℚ} {n : ℕ} (hn : 0 < n) {κ : ℚ} (h : ∀ i < n, |f i - g i| ≤ κ) :
    |maxN f n - maxN g n| ≤ κ := by
  have h1 := h _ (argmaxN_lt f hn)
  have h2 := h _ (argmaxN_lt g hn)
  have h3 := le_maxN g (argmaxN_lt f hn)
  have h4 := le_maxN f (argmaxN_lt g hn)
  rw [abs_le] at h1 h2 ⊢
  unfold maxN at h3 h4 ⊢
  constructor <;> linarith [h1.1, h1.2, h2.1, h2.2]

theorem half0_moves (st : LSt) (e : ℕ) :
    st.diff ≤ (loopyHalf0 S U P edges d st e).diff ∧
    (∀ t < S, |(loopyHalf0 S U P edges d st e).msg0 e t - st.msg0 e t| ≤
      (loopyHalf0 S U P edges d st e).diff - st.diff) ∧
    ∀ v, ∀ t < S, |(loopyHalf0 S U P edges d st e).inc v t - st.inc v t| ≤
      (loopyHalf0 S U P edges d st e).diff - st.diff := by
  unfold loopyHalf0
  simp only [if_true]
  set u : ℕ → ℚ := fun t => d * st.msg0 e t + (1 - d) * (maxN (fun s => st.inc (edge edges e).1 s + P e s t +
    U (edge edges e).1 s - st.msg1 e s) S - maxN (fun t => maxN (fun s => st.inc (edge edges e).1 s + P e s t +
    U (edge edges e).1 s - st.msg1 e s) S) S) - st.msg0 e t with hu
  have h0 : 0 ≤ ∑ t ∈ range S, |u t| := sum_nonneg fun t _ => abs_nonneg _
  have h1 : ∀ t < S, |u t| ≤ ∑ t ∈ range S, |u t| := fun t ht =>
    single_le_sum (f := fun t => |u t|) (fun t _ => abs_nonneg _) (mem_range.mpr ht)
  refine ⟨by linarith, fun t ht => ?_, fun v t ht => ?_⟩
  · rw [add_sub_cancel_left]
    exact h1 t ht
  · rw [add_sub_cancel_left]
    split_ifs with hv
    · rw [add_sub_cancel_left]
      exact h1 t ht
    · rw [sub_self, abs_zero]
      exact h0

theorem half1_moves (st : LSt) (e : ℕ) :
    st.diff ≤ (loopyHalf1 S U P edges d st e).diff ∧
    (∀ t < S, |(loopyHalf1 S U P edges d st e).msg1 e t - st.msg1 e t| ≤
      (loopyHalf1 S U P edges d st e).diff - st.diff) ∧
    ∀ v, ∀ t < S, |(loopyHalf1 S U P edges d st e).inc v t - st.inc v t| ≤
      (loopyHalf1 S U P edges d st e).diff - st.diff := by
  unfold loopyHalf1
  simp only [if_true]
  set u : ℕ → ℚ := fun s => d * st.msg1 e s + (1 - d) * (maxN (fun t => st.inc (edge edges e).2 t + P e s t +
    U (edge edges e).2 t - st.msg0 e t) S - maxN (st.msg1 e) S) - st.msg1 e s with hu
  have h0 : 0 ≤ ∑ t ∈ range S, |u t| := sum_nonneg fun t _ => abs_nonneg _
  have h1 : ∀ t < S, |u t| ≤ ∑ t ∈ range S, |u t| := fun t ht =>
    single_le_sum (f := fun t => |u t|) (fun t _ => abs_nonneg _) (mem_range.mpr ht)
  refine ⟨by linarith, fun t ht => ?_, fun v t ht => ?_⟩
  · rw [add_sub_cancel_left]
    exact h1 t ht
  · rw [add_sub_cancel_left]
    split_ifs with hv
    · rw [add_sub_cancel_left]
      exact h1 t ht
    · rw [sub_self, abs_zero]
      exact h0

/-- both updates for the edges of a list. -/
def passOver (S : ℕ) (U : ℕ → ℕ → ℚ) (P : ℕ → ℕ → ℕ → ℚ) (edges : Edges) (d : ℚ) (l : List ℕ) (st : LSt) : LSt :=
  l.foldl (fun st e => loopyHalf1 S U P edges d (loopyHalf0 S U P edges d st e) e) st

theorem passOver_moves (l : List ℕ) (st : LSt) :
    st.diff ≤ (passOver S U P edges d l st).diff ∧
    (∀ v, ∀ t < S, |(passOver S U P edges d l st).inc v t - st.inc v t| ≤
      (passOver S U P edges d l st).diff - st.diff) ∧
    ∀ e, e ∉ l → (passOver S U P edges d l st).msg0 e = st.msg0 e ∧ (passOver S U P edges d l st).msg1 e = st.msg1 e := by
  induction l generalizing st with
  | nil => exact ⟨le_rfl, fun v t _ => by simp [passOver], fun e _ => ⟨rfl, rfl⟩⟩
  | cons e l ih =>
    set s1 := loopyHalf0 S U P edges d st e with hs1
    set s2 := loopyHalf1 S U P edges d s1 e with hs2
    have e1 : passOver S U P edges d (e :: l) st = passOver S U P edges d l s2 := rfl
    rw [e1]
    obtain ⟨a1, a2, a3⟩ := ih s2
    obtain ⟨b1, -, b3⟩ := half0_moves (S := S) (U := U) (P := P) (edges := edges) (d := d) st e
    obtain ⟨c1, -, c3⟩ := half1_moves (S := S) (U := U) (P := P) (edges := edges) (d := d) s1 e
    rw [← hs1] at b1 b3
    rw [← hs2] at c1 c3
    refine ⟨by linarith, fun v t ht => ?_, fun e' he' => ?_⟩
    · have h1 := a2 v t ht
      have h2 := b3 v t ht
      have h3 := c3 v t ht
      rw [abs_le] at h1 h2 h3 ⊢
      constructor <;> linarith [h1.1, h1.2, h2.1, h2.2, h3.1, h3.2]
    · simp only [List.mem_cons, not_or] at he'
      obtain ⟨g1, g2⟩ := a3 e' he'.2
      rw [g1, g2]
      constructor
      · change s1.msg0 e' = _
        rw [hs1]
        funext t
        simp [loopyHalf0, he'.1]
      · rw [hs2]
        funext t
        simp only [loopyHalf1, he'.1, if_false]
        rfl

/-! ### message equations -/

/-- The message that the max-product rule sends over edge `e` from its first to its second end point, up to a
constant: the best state of the sender, given its potential and its other incoming messages. -/
def towardsSecond (S : ℕ) (U : ℕ → ℕ → ℚ) (P : ℕ → ℕ → ℕ → ℚ) (edges : List (ℕ × ℕ)) (m0 m1 : ℕ → ℕ → ℚ)
    (e t : ℕ) (r : ℚ) : Prop :=
  IsGreatest {v | ∃ s < S, v = U (edges.getD e (0, 0)).1 s + P e s t +
    (incoming edges m0 m1 (edges.getD e (0, 0)).1 s - m1 e s)} r

/-- The same from the second to the first end point. -/
def towardsFirst (S : ℕ) (U : ℕ → ℕ → ℚ) (P : ℕ → ℕ → ℕ → ℚ) (edges : List (ℕ × ℕ)) (m0 m1 : ℕ → ℕ → ℚ)
    (e s : ℕ) (r : ℚ) : Prop :=
  IsGreatest {v | ∃ t < S, v = U (edges.getD e (0, 0)).2 t + P e s t +
    (incoming edges m0 m1 (edges.getD e (0, 0)).2 t - m0 e t)} r

/-- messages satisfy the max-product equations up to constants and an error of `κ`. -/
structure NearFixed (S : ℕ) (U : ℕ → ℕ → ℚ) (P : ℕ → ℕ → ℕ → ℚ) (edges : List (ℕ × ℕ)) (m0 m1 : ℕ → ℕ → ℚ)
    (κ : ℚ) : Prop where
  second : ∀ e < edges.length, ∃ c, ∀ t < S, ∃ r, towardsSecond S U P edges m0 m1 e t r ∧ |m0 e t - (r - c)| ≤ κ
  first : ∀ e < edges.length, ∃ c, ∀ s < S, ∃ r, towardsFirst S U P edges m0 m1 e s r ∧ |m1 e s - (r - c)| ≤ κ

theorem isGreatest_maxN {f g : ℕ → ℚ} (hS : 0 < S) (h : ∀ s < S, f s = g s) :
    IsGreatest {v | ∃ s < S, v = g s} (maxN f S) := by
  refine ⟨⟨argmaxN f S, argmaxN_lt f hS, h _ (argmaxN_lt f hS)⟩, ?_⟩
  rintro v ⟨s, hs, rfl⟩
  rw [← h s hs]
  exact le_maxN f hs

theorem damped_residual {m r : ℚ} (hd0 : 0 ≤ d) (hd1 : d < 1) {δ : ℚ}
    (h : |d * m + (1 - d) * r - m| ≤ δ) : |d * m + (1 - d) * r - r| ≤ d / (1 - d) * δ := by
  have h1 : 0 < 1 - d := by linarith
  have e1 : d * m + (1 - d) * r - m = (1 - d) * (r - m) := by ring
  have e2 : d * m + (1 - d) * r - r = d / (1 - d) * -((1 - d) * (r - m)) := by field_simp; ring
  rw [e1] at h
  rw [e2, abs_mul, abs_neg, abs_of_nonneg (div_nonneg hd0 h1.le)]
  exact mul_le_mul_of_nonneg_left h (div_nonneg hd0 h1.le)

theorem passOver_append (l l' : List ℕ) (st : LSt) : passOver S U P edges d (l ++ l') st =
    passOver S U P edges d l' (passOver S U P edges d l st) := by
  unfold passOver
  rw [List.foldl_append]

/-- **C84, messages.** After a pass that started from correct bookkeeping and moved the messages by `diff` in
total, with damping `d < 1`, the messages satisfy the max-product equations up to constants and an error of
`diff / (1 - d)`. -/
theorem C84_messages (hS : 0 < S) (hd0 : 0 ≤ d) (hd1 : d < 1) (st : LSt) (hc : Consistent edges st) :
    NearFixed S U P edges (loopyPass S U P edges d st).msg0 (loopyPass S U P edges d st).msg1
      ((loopyPass S U P edges d st).diff / (1 - d)) := by
  set st' := loopyPass S U P edges d st with hst'
  have hc' : Consistent edges st' := consistent_pass hc
  have h1d : 0 < 1 - d := by linarith
  have key : ∀ e < edges.length, ∃ c0 c1,
      (∀ t < S, |st'.msg0 e t - (maxN (fun s => st'.inc (edge edges e).1 s + P e s t + U (edge edges e).1 s -
        st'.msg1 e s) S - c0)| ≤ st'.diff / (1 - d)) ∧
      ∀ s < S, |st'.msg1 e s - (maxN (fun t => st'.inc (edge edges e).2 t + P e s t + U (edge edges e).2 t -
        st'.msg0 e t) S - c1)| ≤ st'.diff / (1 - d) := by
    intro e he
    obtain ⟨l1, l2, hl⟩ := List.append_of_mem (List.mem_range.mpr he)
    have hnd : (List.range edges.length).Nodup := List.nodup_range
    rw [hl, List.nodup_append] at hnd
    have hn2 : e ∉ l2 := (List.nodup_cons.mp hnd.2.1).1
    set s0 : LSt := { st with diff := 0 } with hs0
    set s1 := passOver S U P edges d l1 s0 with hs1
    set s2 := loopyHalf0 S U P edges d s1 e with hs2
    set s3 := loopyHalf1 S U P edges d s2 e with hs3
    have hend : st' = passOver S U P edges d l2 s3 := by
      have : st' = passOver S U P edges d (List.range edges.length) s0 := rfl
      rw [this, hl, passOver_append]
      rfl
    obtain ⟨a1, -, -⟩ := passOver_moves (S := S) (U := U) (P := P) (edges := edges) (d := d) l1 s0
    obtain ⟨b1, b2, b3⟩ := half0_moves (S := S) (U := U) (P := P) (edges := edges) (d := d) s1 e
    obtain ⟨c1, c2, c3⟩ := half1_moves (S := S) (U := U) (P := P) (edges := edges) (d := d) s2 e
    obtain ⟨g1, g2, g3⟩ := passOver_moves (S := S) (U := U) (P := P) (edges := edges) (d := d) l2 s3
    rw [← hs1] at a1
    rw [← hs2] at b1 b2 b3
    rw [← hs3] at c1 c2 c3
    rw [← hend] at g1 g2 g3
    obtain ⟨m0e, m1e⟩ := g3 e hn2
    have m03 : s3.msg0 e = s2.msg0 e := rfl
    have m12 : s2.msg1 e = s1.msg1 e := rfl
    have ha0 : (0 : ℚ) ≤ s1.diff := a1
    -- bounds in terms of the total
    have hfrac : ∀ x y : ℚ, 0 ≤ x → 0 ≤ y → x + y ≤ st'.diff → d / (1 - d) * x + (x + y) ≤ st'.diff / (1 - d) := by
      intro x y hx hy hxy
      have : d / (1 - d) * x + (x + y) = (x + (1 - d) * y) / (1 - d) := by field_simp; ring
      rw [this, div_le_div_iff_of_pos_right h1d]
      nlinarith
    refine ⟨maxN (fun t => maxN (fun s => s1.inc (edge edges e).1 s + P e s t + U (edge edges e).1 s -
      s1.msg1 e s) S) S, maxN (s2.msg1 e) S, fun t ht => ?_, fun s hs => ?_⟩
    · set raw := fun t => maxN (fun s => s1.inc (edge edges e).1 s + P e s t + U (edge edges e).1 s -
        s1.msg1 e s) S with hraw
      have hnew : s2.msg0 e t = d * s1.msg0 e t + (1 - d) * (raw t - maxN raw S) := by
        rw [hs2]
        simp only [loopyHalf0, if_true]
        rfl
      have hres : |s2.msg0 e t - (raw t - maxN raw S)| ≤ d / (1 - d) * (s2.diff - s1.diff) := by
        have := b2 t ht
        rw [hnew] at this ⊢
        exact damped_residual hd0 hd1 this
      have hmove : |maxN (fun s => st'.inc (edge edges e).1 s + P e s t + U (edge edges e).1 s -
          st'.msg1 e s) S - raw t| ≤ (s2.diff - s1.diff) + (st'.diff - s3.diff) := by
        refine maxN_lipschitz hS fun s hs => ?_
        rw [m1e]
        have h3 : s3.inc (edge edges e).1 s - s3.msg1 e s = s2.inc (edge edges e).1 s - s2.msg1 e s := by
          rw [hs3]
          simp only [loopyHalf1, if_true]
          ring
        have h4 := g2 (edge edges e).1 s hs
        have h5 := b3 (edge edges e).1 s hs
        rw [m12] at h3
        have h6 : st'.inc (edge edges e).1 s + P e s t + U (edge edges e).1 s - s3.msg1 e s -
            (s1.inc (edge edges e).1 s + P e s t + U (edge edges e).1 s - s1.msg1 e s) =
            (st'.inc (edge edges e).1 s - s3.inc (edge edges e).1 s) +
            (s2.inc (edge edges e).1 s - s1.inc (edge edges e).1 s) := by linarith
        rw [h6]
        rw [abs_le] at h4 h5 ⊢
        constructor <;> linarith [h4.1, h4.2, h5.1, h5.2]
      have htot := hfrac (s2.diff - s1.diff) (st'.diff - s3.diff) (by linarith) (by linarith) (by linarith)
      rw [m0e, m03]
      refine le_trans ?_ htot
      rw [abs_le] at hres hmove ⊢
      constructor <;> linarith [hres.1, hres.2, hmove.1, hmove.2]
    · set raw := fun s => maxN (fun t => s2.inc (edge edges e).2 t + P e s t + U (edge edges e).2 t -
        s2.msg0 e t) S with hraw
      have hnew : s3.msg1 e s = d * s2.msg1 e s + (1 - d) * (raw s - maxN (s2.msg1 e) S) := by
        rw [hs3]
        simp only [loopyHalf1, if_true]
        rfl
      have hres : |s3.msg1 e s - (raw s - maxN (s2.msg1 e) S)| ≤ d / (1 - d) * (s3.diff - s2.diff) := by
        have := c2 s hs
        rw [hnew] at this ⊢
        exact damped_residual hd0 hd1 this
      have hmove : |maxN (fun t => st'.inc (edge edges e).2 t + P e s t + U (edge edges e).2 t -
          st'.msg0 e t) S - raw s| ≤ (s3.diff - s2.diff) + (st'.diff - s3.diff) := by
        refine maxN_lipschitz hS fun t ht => ?_
        rw [m0e, m03]
        have h4 := g2 (edge edges e).2 t ht
        have h5 := c3 (edge edges e).2 t ht
        have h6 : st'.inc (edge edges e).2 t + P e s t + U (edge edges e).2 t - s2.msg0 e t -
            (s2.inc (edge edges e).2 t + P e s t + U (edge edges e).2 t - s2.msg0 e t) =
            (st'.inc (edge edges e).2 t - s3.inc (edge edges e).2 t) +
            (s3.inc (edge edges e).2 t - s2.inc (edge edges e).2 t) := by ring
        rw [h6]
        rw [abs_le] at h4 h5 ⊢
        constructor <;> linarith [h4.1, h4.2, h5.1, h5.2]
      have htot := hfrac (s3.diff - s2.diff) (st'.diff - s3.diff) (by linarith) (by linarith) (by linarith)
      rw [m1e]
      refine le_trans ?_ htot
      rw [abs_le] at hres hmove ⊢
      constructor <;> linarith [hres.1, hres.2, hmove.1, hmove.2]
  constructor
  · intro e he
    obtain ⟨c0, -, h0, -⟩ := key e he
    refine ⟨c0, fun t ht => ⟨_, isGreatest_maxN hS (fun s _ => ?_), h0 t ht⟩⟩
    rw [hc' _ s]
    unfold edge
    ring
  · intro e he
    obtain ⟨-, c1, -, h1⟩ := key e he
    refine ⟨c1, fun s hs => ⟨_, isGreatest_maxN hS (fun t _ => ?_), h1 s hs⟩⟩
    rw [hc' _ t]
    unfold edge
    ring

/-! ### optimality among labellings that differ on a sparse set -/

/-- summing the messages into all vertices is summing over all edges. -/
theorem sum_incoming {n : ℕ} (hE : EdgesIn n edges) (m0 m1 : ℕ → ℕ → ℚ) (y : ℕ → ℕ) :
    ∑ v ∈ range n, incoming edges m0 m1 v (y v) =
      ∑ e ∈ range edges.length, (m0 e (y (edges.getD e (0, 0)).2) + m1 e (y (edges.getD e (0, 0)).1)) := by
  unfold incoming
  rw [sum_comm]
  refine sum_congr rfl fun e he => ?_
  have hm : edges.getD e (0, 0) ∈ edges := by
    rw [List.getD_eq_getElem _ _ (mem_range.mp he)]; exact List.getElem_mem _
  obtain ⟨h1, h2⟩ := hE _ hm
  rw [sum_add_distrib]
  congr 1
  · rw [sum_ite_eq' (range n) (edges.getD e (0, 0)).2 (fun v => m0 e (y v)), if_pos (mem_range.mpr h2)]
  · rw [sum_ite_eq' (range n) (edges.getD e (0, 0)).1 (fun v => m1 e (y v)), if_pos (mem_range.mpr h1)]

/-- **C84, optimality of near fixed points.** Let messages satisfy the max-product equations up to an error of `κ`,
and let `y` choose at every vertex a state whose belief exceeds that of all other states by more than `2κ`. Then no
labelling that differs from `y` only on vertices whose induced subgraph has at most one cycle per connected part
scores more than `2κ` per edge better than `y`. -/
theorem C84_sparse_optimal {n : ℕ} (hE : EdgesIn n edges) (m0 m1 : ℕ → ℕ → ℚ) (κ : ℚ) (hκ : 0 ≤ κ)
    (hfix : NearFixed S U P edges m0 m1 κ) (y : ℕ → ℕ) (hy : Valid n S y)
    (hmargin : ∀ v < n, ∀ s < S, s ≠ y v →
      U v s + incoming edges m0 m1 v s + 2 * κ < U v (y v) + incoming edges m0 m1 v (y v))
    (y' : ℕ → ℕ) (hy' : Valid n S y') (hsp : SparseOn edges fun v => y' v ≠ y v) :
    score n edges U P y' ≤ score n edges U P y + 2 * κ * edges.length := by
  set bel : ℕ → ℕ → ℚ := fun v s => U v s + incoming edges m0 m1 v s with hbel
  set A : ℕ → ℕ := fun e => (edges.getD e (0, 0)).1 with hA
  set B : ℕ → ℕ := fun e => (edges.getD e (0, 0)).2 with hB
  set pb : ℕ → ℕ → ℕ → ℚ := fun e s t => P e s t + (bel (A e) s - m1 e s) + (bel (B e) t - m0 e t) with hpb
  have hAB : ∀ e < edges.length, A e < n ∧ B e < n := by
    intro e he
    have hm : edges.getD e (0, 0) ∈ edges := by
      rw [List.getD_eq_getElem _ _ he]; exact List.getElem_mem _
    exact hE _ hm
  -- the score in terms of beliefs
  have hscore : ∀ z : ℕ → ℕ, score n edges U P z = ∑ v ∈ range n, bel v (z v) +
      ∑ e ∈ range edges.length, (pb e (z (A e)) (z (B e)) - bel (A e) (z (A e)) - bel (B e) (z (B e))) := by
    intro z
    have h1 : ∑ v ∈ range n, bel v (z v) = ∑ v ∈ range n, U v (z v) +
        ∑ e ∈ range edges.length, (m0 e (z (B e)) + m1 e (z (A e))) := by
      rw [← sum_incoming hE m0 m1 z, ← sum_add_distrib]
    rw [h1, add_assoc, ← sum_add_distrib]
    unfold score
    congr 1
    refine sum_congr rfl fun e _ => ?_
    simp only [hpb]
    ring
  set β : ℕ → ℚ := fun v => bel v (y' v) - bel v (y v) with hβ
  have hβ0 : ∀ v < n, β v ≤ 0 := by
    intro v hv
    by_cases h : y' v = y v
    · simp only [hβ]; rw [h]; linarith
    · have := hmargin v hv _ (hy' v hv) h
      simp only [hβ, hbel]
      linarith
  have hβeq : ∀ v, y' v = y v → β v = 0 := by
    intro v h
    simp only [hβ]; rw [h]; ring
  -- max-consistency
  have hedge : ∀ e < edges.length,
      (∀ s < S, ∀ t < S, pb e s t ≤ pb e (y (A e)) (y (B e)) + (bel (A e) s - bel (A e) (y (A e))) + 2 * κ) ∧
      (∀ s < S, ∀ t < S, pb e s t ≤ pb e (y (A e)) (y (B e)) + (bel (B e) t - bel (B e) (y (B e))) + 2 * κ) := by
    intro e he
    obtain ⟨hAn, hBn⟩ := hAB e he
    obtain ⟨c0, h0⟩ := hfix.second e he
    obtain ⟨c1, h1⟩ := hfix.first e he
    -- for every state of one end the best pair
    have hb : ∀ t < S, (∃ s < S, bel (B e) t + c0 - κ ≤ pb e s t) ∧ ∀ s < S, pb e s t ≤ bel (B e) t + c0 + κ := by
      intro t ht
      obtain ⟨r, ⟨⟨s, hs, hr⟩, hmax⟩, hd⟩ := h0 t ht
      rw [abs_le] at hd
      constructor
      · refine ⟨s, hs, ?_⟩
        simp only [hpb, hbel, hA] at hr ⊢
        linarith [hd.1, hd.2]
      · intro s hs
        have := hmax ⟨s, hs, rfl⟩
        simp only [hpb, hbel, hA]
        linarith [hd.1, hd.2]
    have ha : ∀ s < S, (∃ t < S, bel (A e) s + c1 - κ ≤ pb e s t) ∧ ∀ t < S, pb e s t ≤ bel (A e) s + c1 + κ := by
      intro s hs
      obtain ⟨r, ⟨⟨t, ht, hr⟩, hmax⟩, hd⟩ := h1 s hs
      rw [abs_le] at hd
      constructor
      · refine ⟨t, ht, ?_⟩
        simp only [hpb, hbel, hB] at hr ⊢
        linarith [hd.1, hd.2]
      · intro t ht
        have := hmax ⟨t, ht, rfl⟩
        simp only [hpb, hbel, hB]
        linarith [hd.1, hd.2]
    -- the chosen pair is the best pair
    have hne : (range S ×ˢ range S).Nonempty :=
      ⟨(y (A e), y (B e)), mem_product.mpr ⟨mem_range.mpr (hy _ hAn), mem_range.mpr (hy _ hBn)⟩⟩
    obtain ⟨⟨s0, t0⟩, hst, hbest⟩ := exists_max_image _ (fun p : ℕ × ℕ => pb e p.1 p.2) hne
    obtain ⟨hs0, ht0⟩ := mem_product.mp hst
    have hs0 : s0 < S := mem_range.mp hs0
    have ht0 : t0 < S := mem_range.mp ht0
    have hbest : ∀ s < S, ∀ t < S, pb e s t ≤ pb e s0 t0 := fun s hs t ht =>
      hbest (s, t) (mem_product.mpr ⟨mem_range.mpr hs, mem_range.mpr ht⟩)
    have es : s0 = y (A e) := by
      by_contra hc
      have hm := hmargin _ hAn s0 hs0 hc
      have h8 : bel (A e) s0 + 2 * κ < bel (A e) (y (A e)) := by simp only [hbel]; linarith
      obtain ⟨t, ht, h⟩ := (ha _ (hy _ hAn)).1
      have h9 := (ha s0 hs0).2 t0 ht0
      have h10 := hbest _ (hy _ hAn) t ht
      linarith
    have et : t0 = y (B e) := by
      by_contra hc
      have hm := hmargin _ hBn t0 ht0 hc
      have h8 : bel (B e) t0 + 2 * κ < bel (B e) (y (B e)) := by simp only [hbel]; linarith
      obtain ⟨s, hs, h⟩ := (hb _ (hy _ hBn)).1
      have h9 := (hb t0 ht0).2 s0 hs0
      have h10 := hbest s hs _ (hy _ hBn)
      linarith
    rw [es, et] at hbest
    have hyA : bel (A e) (y (A e)) + c1 - κ ≤ pb e (y (A e)) (y (B e)) := by
      obtain ⟨t, ht, h⟩ := (ha _ (hy _ hAn)).1
      exact le_trans h (hbest _ (hy _ hAn) t ht)
    have hyB : bel (B e) (y (B e)) + c0 - κ ≤ pb e (y (A e)) (y (B e)) := by
      obtain ⟨s, hs, h⟩ := (hb _ (hy _ hBn)).1
      exact le_trans h (hbest s hs _ (hy _ hBn))
    refine ⟨fun s hs t ht => ?_, fun s hs t ht => ?_⟩
    · have := (ha s hs).2 t ht
      linarith
    · have := (hb t ht).2 s hs
      linarith
  -- edge by edge
  obtain ⟨f, hf⟩ := hsp
  set D : ℕ → Prop := fun v => y' v ≠ y v with hD
  classical
  have hterm : ∀ e ∈ range edges.length,
      (pb e (y' (A e)) (y' (B e)) - bel (A e) (y' (A e)) - bel (B e) (y' (B e))) -
      (pb e (y (A e)) (y (B e)) - bel (A e) (y (A e)) - bel (B e) (y (B e))) ≤
        2 * κ + if D (A e) ∧ D (B e) then -β (f e) else 0 := by
    intro e he
    have he := mem_range.mp he
    obtain ⟨hAn, hBn⟩ := hAB e he
    obtain ⟨g1, g2⟩ := hedge e he
    have g1 := g1 _ (hy' _ hAn) _ (hy' _ hBn)
    have g2 := g2 _ (hy' _ hAn) _ (hy' _ hBn)
    by_cases hd : D (A e) ∧ D (B e)
    · rw [if_pos hd]
      rcases (hf e he hd.1 hd.2).1 with h | h
      · have h : f e = A e := h
        rw [h]
        simp only [hβ]
        linarith
      · have h : f e = B e := h
        rw [h]
        simp only [hβ]
        linarith
    · rw [if_neg hd]
      by_cases hda : D (A e)
      · have hdb : y' (B e) = y (B e) := by
          by_contra hc
          exact hd ⟨hda, hc⟩
        rw [hdb] at g1 ⊢
        linarith
      · have hda : y' (A e) = y (A e) := by
          by_contra hc
          exact hda hc
        rw [hda] at g2 ⊢
        linarith
  have hsum := sum_le_sum hterm
  rw [sum_sub_distrib, sum_add_distrib, sum_const, card_range, nsmul_eq_mul] at hsum
  -- each vertex is charged at most once
  have hinj : ∑ e ∈ range edges.length, (if D (A e) ∧ D (B e) then -β (f e) else 0) ≤ ∑ v ∈ range n, -β v := by
    rw [← sum_filter]
    have himg : ∑ e ∈ (range edges.length).filter (fun e => D (A e) ∧ D (B e)), -β (f e) =
        ∑ v ∈ ((range edges.length).filter (fun e => D (A e) ∧ D (B e))).image f, -β v := by
      rw [sum_image]
      intro e he e' he' h
      simp only [coe_filter, Set.mem_setOf_eq, mem_range] at he he'
      exact (hf e he.1 he.2.1 he.2.2).2 e' he'.1 he'.2.1 he'.2.2 h
    rw [himg]
    refine sum_le_sum_of_subset_of_nonneg ?_ ?_
    · intro v hv
      obtain ⟨e, he, rfl⟩ := mem_image.mp hv
      simp only [mem_filter, mem_range] at he
      rcases (hf e he.1 he.2.1 he.2.2).1 with h | h
      · rw [h]; exact mem_range.mpr (hAB e he.1).1
      · rw [h]; exact mem_range.mpr (hAB e he.1).2
    · intro v hv _
      have := hβ0 v (mem_range.mp hv)
      linarith
  have hv : ∑ v ∈ range n, bel v (y' v) - ∑ v ∈ range n, bel v (y v) = ∑ v ∈ range n, β v := by
    rw [← sum_sub_distrib]
  rw [hscore y', hscore y]
  rw [sum_neg_distrib] at hinj
  linarith

theorem loopyIter_last (tol : ℚ) (k : ℕ) (hk : 1 ≤ k) (st : LSt) (hc : Consistent edges st) :
    ∃ st0, Consistent edges st0 ∧ loopyIter S U P edges d tol k st = loopyPass S U P edges d st0 := by
  induction k generalizing st with
  | zero => omega
  | succ k ih =>
    simp only [loopyIter]
    split
    · exact ⟨st, hc, rfl⟩
    · by_cases h : k = 0
      · subst h
        exact ⟨st, hc, rfl⟩
      · exact ih (by omega) _ (consistent_pass hc)

theorem passDiff_nonneg (st : LSt) : 0 ≤ (loopyPass S U P edges d st).diff :=
  (passOver_moves (S := S) (U := U) (P := P) (edges := edges) (d := d) (List.range edges.length)
    { st with diff := 0 }).1

/-- the state of `iterative_max_product` when it returns. -/
def finalState (U : Mat) (P : ℕ → ℕ → ℕ → ℚ) (edges : Edges) (k : ℕ) (d tol : ℚ) : LSt :=
  loopyIter U.cols U.get P edges d tol k ⟨fun _ _ => 0, fun _ _ => 0, fun _ _ => 0, 0⟩

/-- **C84.** For all graphs, potentials, iteration counts, tolerances and damping in [0, 1): if in the result of
`iterative_max_product` every vertex prefers its state by more than `2 δ / (1 - damping)`, where `δ` is the total
change of the messages in the last pass (below `tol` if the iteration converged), then the result is at most
`2 δ / (1 - damping)` per edge worse than any labelling which differs from it only on vertices whose induced
subgraph has at most one cycle per connected part. -/
theorem C84_loopy (U : Mat) (P : ℕ → ℕ → ℕ → ℚ) (edges : Edges) (k : ℕ) (hk : 1 ≤ k) (d tol : ℚ) (hd0 : 0 ≤ d)
    (hd1 : d < 1) (hE : EdgesIn U.rows edges) (y : Labels) (h : iterativeMaxProduct U P edges k d tol = .ok y)
    (κ : ℚ) (hκ : (finalState U P edges k d tol).diff / (1 - d) ≤ κ)
    (hmargin : ∀ v < U.rows, ∀ s < U.cols, s ≠ y.get v →
      U.get v s + (finalState U P edges k d tol).inc v s + 2 * κ <
        U.get v (y.get v) + (finalState U P edges k d tol).inc v (y.get v))
    (y' : ℕ → ℕ) (hy' : Valid U.rows U.cols y') (hsp : SparseOn edges fun v => y' v ≠ y.get v) :
    score U.rows edges U.get P y' ≤ score U.rows edges U.get P y.get + 2 * κ * edges.length := by
  have hS : U.cols ≠ 0 := by
    intro h0
    unfold iterativeMaxProduct at h
    rw [if_pos h0] at h
    cases h
  obtain ⟨y0, m0, m1, h1, -, h3, -⟩ := C06_decoding U P edges k d tol hE (by omega)
  rw [h1] at h
  have := Except.ok.inj h
  subst this
  obtain ⟨st0, hc0, hlast⟩ := loopyIter_last (S := U.cols) (U := U.get) (P := P) (edges := edges) (d := d) tol k hk
    ⟨fun _ _ => 0, fun _ _ => 0, fun _ _ => 0, 0⟩ C06_initial
  have hfs : finalState U P edges k d tol = loopyPass U.cols U.get P edges d st0 := hlast
  have hc : Consistent edges (finalState U P edges k d tol) := C06_all_iterations tol k C06_initial
  have hnear := C84_messages (U := U.get) (P := P) (edges := edges) (by omega : 0 < U.cols) hd0 hd1 st0 hc0
  rw [← hfs] at hnear
  have h0 : 0 ≤ (finalState U P edges k d tol).diff := by rw [hfs]; exact passDiff_nonneg st0
  have hκ0 : 0 ≤ κ := le_trans (div_nonneg h0 (by linarith)) hκ
  refine C84_sparse_optimal hE (finalState U P edges k d tol).msg0 (finalState U P edges k d tol).msg1 κ hκ0
    ⟨?_, ?_⟩ y0.get h3 ?_ y' hy' hsp
  · intro e he
    obtain ⟨c, hc⟩ := hnear.second e he
    refine ⟨c, fun t ht => ?_⟩
    obtain ⟨r, hr, hr2⟩ := hc t ht
    exact ⟨r, hr, le_trans hr2 hκ⟩
  · intro e he
    obtain ⟨c, hc⟩ := hnear.first e he
    refine ⟨c, fun t ht => ?_⟩
    obtain ⟨r, hr, hr2⟩ := hc t ht
    exact ⟨r, hr, le_trans hr2 hκ⟩
  · intro v hv s hs hne
    rw [← hc v s, ← hc v (y0.get v)]
    exact hmargin v hv s hs hne

/-- Graphs without cycles are sparse on every set of vertices, so C84 compares with all labellings. -/
theorem C84_forest_sparse (hcyc : ¬ HasCycle edges) (D : ℕ → Prop) : SparseOn edges D := by
  by_cases hne : edges = []
  · subst hne
    exact ⟨id, fun e he => by simp at he⟩
  obtain ⟨b, hb1, hb2⟩ := isForest_none_ok edges hne
  have hb : b = true := hb2.mpr hcyc
  subst hb
  unfold isForest at hb1
  simp only [Bool.false_eq_true, if_false, if_neg hne, Except.ok.injEq] at hb1
  obtain ⟨st, hst⟩ := Option.isSome_iff_exists.mp hb1
  have hE := edgesIn_maxVertex edges
  have hT := explore_tree false hE hst
  set f : ℕ → ℕ := fun e => if (st.parents (edge edges e).2).isSome ∧ (st.via (edge edges e).2).1 = e
    then (edge edges e).2 else (edge edges e).1 with hf
  have hvia : ∀ e < edges.length, (st.via (f e)).1 = e := by
    intro e he
    simp only [hf]
    split_ifs with h
    · exact h.2
    · rcases hT.edge_cases hE he with ⟨a, b⟩ | ⟨a, b⟩
      · exact absurd ⟨by simp [a], by rw [b]⟩ h
      · rw [b]
  refine ⟨f, fun e he _ _ => ⟨?_, fun e' he' _ _ h => ?_⟩⟩
  · simp only [hf]
    split_ifs
    · exact Or.inr rfl
    · exact Or.inl rfl
  · rw [← hvia e he, ← hvia e' he', h]

/-- A triangle is not a forest, but sparse: C84 applies to all labellings. -/
theorem C84_triangle_sparse (D : ℕ → Prop) : SparseOn [(0, 1), (1, 2), (2, 0)] D := by
  refine ⟨fun e => e, fun e he _ _ => ⟨?_, fun e' _ _ _ h => h⟩⟩
  have : e = 0 ∨ e = 1 ∨ e = 2 := by simp at he; omega
  rcases this with rfl | rfl | rfl <;> simp

/-- unary potentials of the example: state 0 is better by 10. -/
def leanU : Mat := ⟨3, 2, fun _ s => if s = 0 then 0 else -10⟩

/-- pairwise potentials of the example: neighbours agreeing on a state other than 0 gain 5. -/
def leanP : ℕ → ℕ → ℕ → ℚ := fun _ a b => if a = 0 then 0 else if b = 0 then 0 else 5

theorem lean_raw (v e t : ℕ) : maxN (fun s => (0 : ℚ) + leanP e s t + leanU.get v s - 0) 2 = 0 := by
  by_cases h : t = 0
  · subst h
    simp [maxN, argmaxN, leanP, leanU]
  · simp [maxN, argmaxN, leanP, leanU, h]
    norm_num

theorem lean_raw' (v e s : ℕ) : maxN (fun t => (0 : ℚ) + leanP e s t + leanU.get v t - 0) 2 = 0 := by
  by_cases h : s = 0
  · subst h
    simp [maxN, argmaxN, leanP, leanU]
  · simp [maxN, argmaxN, leanP, leanU, h]
    norm_num

theorem lean_half0 (edges : Edges) (d : ℚ) (e : ℕ) :
    loopyHalf0 2 leanU.get leanP edges d ⟨fun _ _ => 0, fun _ _ => 0, fun _ _ => 0, 0⟩ e =
      ⟨fun _ _ => 0, fun _ _ => 0, fun _ _ => 0, 0⟩ := by
  unfold loopyHalf0
  simp only [lean_raw]
  have h0 : maxN (fun _ : ℕ => (0 : ℚ)) 2 = 0 := rfl
  simp only [h0]
  simp

theorem lean_half1 (edges : Edges) (d : ℚ) (e : ℕ) :
    loopyHalf1 2 leanU.get leanP edges d ⟨fun _ _ => 0, fun _ _ => 0, fun _ _ => 0, 0⟩ e =
      ⟨fun _ _ => 0, fun _ _ => 0, fun _ _ => 0, 0⟩ := by
  unfold loopyHalf1
  simp only [lean_raw']
  have h0 : maxN (fun _ : ℕ => (0 : ℚ)) 2 = 0 := rfl
  simp only [h0]
  simp

theorem lean_pass (edges : Edges) (d : ℚ) (l : List ℕ) :
    passOver 2 leanU.get leanP edges d l ⟨fun _ _ => 0, fun _ _ => 0, fun _ _ => 0, 0⟩ =
      ⟨fun _ _ => 0, fun _ _ => 0, fun _ _ => 0, 0⟩ := by
  induction l with
  | nil => rfl
  | cons e l ih =>
    have : passOver 2 leanU.get leanP edges d (e :: l) ⟨fun _ _ => 0, fun _ _ => 0, fun _ _ => 0, 0⟩ =
        passOver 2 leanU.get leanP edges d l (loopyHalf1 2 leanU.get leanP edges d
          (loopyHalf0 2 leanU.get leanP edges d ⟨fun _ _ => 0, fun _ _ => 0, fun _ _ => 0, 0⟩ e) e) := rfl
    rw [this, lean_half0, lean_half1, ih]

/-- The hypotheses of C84 can be met: on a triangle whose vertices prefer state 0, with couplings that reward
agreement on state 1, and damping 1/2, the messages do not move, and state 0 is preferred everywhere. -/
example : (finalState leanU leanP [(0, 1), (1, 2), (2, 0)] 1 (1 / 2) (1 / 100000)).diff = 0 ∧
    (∀ v s, (finalState leanU leanP [(0, 1), (1, 2), (2, 0)] 1 (1 / 2) (1 / 100000)).inc v s = 0) ∧
    (∃ y, iterativeMaxProduct leanU leanP [(0, 1), (1, 2), (2, 0)] 1 (1 / 2) (1 / 100000) = .ok y ∧
      ∀ v, y.get v = 0) := by
  have h : finalState leanU leanP [(0, 1), (1, 2), (2, 0)] 1 (1 / 2) (1 / 100000) =
      ⟨fun _ _ => 0, fun _ _ => 0, fun _ _ => 0, 0⟩ := by
    have h1 := lean_pass [(0, 1), (1, 2), (2, 0)] (1 / 2) (List.range 3)
    have h2 : finalState leanU leanP [(0, 1), (1, 2), (2, 0)] 1 (1 / 2) (1 / 100000) =
        passOver 2 leanU.get leanP [(0, 1), (1, 2), (2, 0)] (1 / 2) (List.range 3)
          ⟨fun _ _ => 0, fun _ _ => 0, fun _ _ => 0, 0⟩ := by
      unfold finalState
      simp only [loopyIter]
      split <;> rfl
    rw [h2, h1]
  refine ⟨by rw [h], fun v s => by rw [h], ?_⟩
  unfold iterativeMaxProduct
  rw [if_neg (by decide)]
  refine ⟨_, rfl, fun v => ?_⟩
  have h' := h
  unfold finalState at h'
  simp only
  rw [h']
  simp [argmaxN, leanU]

end Verif.Props
