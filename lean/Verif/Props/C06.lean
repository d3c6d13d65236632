import Verif.Model.MaxProd
import Verif.Spec.Labelling

/-!
# C06: bookkeeping of loopy max-product
-/

namespace Verif.Props

open Finset Verif.Common Verif.MaxProd Verif.Spec

/-- Sum of all current messages into vertex `v`: for every edge the message to its second end point if that
is `v`, and the message to its first end point if that is `v`. -/
def incoming (edges : List (ℕ × ℕ)) (m0 m1 : ℕ → ℕ → ℚ) (v s : ℕ) : ℚ :=
  ∑ e ∈ range edges.length,
    ((if v = (edges.getD e (0, 0)).2 then m0 e s else 0) +
      (if v = (edges.getD e (0, 0)).1 then m1 e s else 0))

/-- `all_incoming` is the sum of the current messages. -/
def Consistent (edges : Edges) (st : LSt) : Prop :=
  ∀ v s, st.inc v s = incoming edges st.msg0 st.msg1 v s

variable {S : ℕ} {U : ℕ → ℕ → ℚ} {P : ℕ → ℕ → ℕ → ℚ} {edges : Edges} {d : ℚ}

theorem incoming_upd0 {m0 m1 : ℕ → ℕ → ℚ} {e : ℕ} (he : e < edges.length) (new : ℕ → ℚ) (v s : ℕ) :
    incoming edges (fun e' t => if e' = e then new t else m0 e' t) m1 v s =
      incoming edges m0 m1 v s +
        (if v = (edges.getD e (0, 0)).2 then new s - m0 e s else 0) := by
  unfold incoming
  have hmem := mem_range.mpr he
  rw [← add_sum_erase _ _ hmem, ← add_sum_erase (range edges.length) _ hmem]
  have hrest : ∑ x ∈ (range edges.length).erase e,
      ((if v = (edges.getD x (0, 0)).2 then (if x = e then new s else m0 x s) else 0) +
        (if v = (edges.getD x (0, 0)).1 then m1 x s else 0)) =
      ∑ x ∈ (range edges.length).erase e,
      ((if v = (edges.getD x (0, 0)).2 then m0 x s else 0) +
        (if v = (edges.getD x (0, 0)).1 then m1 x s else 0)) := by
    apply sum_congr rfl
    intro x hx
    rw [if_neg (ne_of_mem_erase hx)]
  rw [hrest]
  simp only [if_true]
  split_ifs <;> ring

theorem incoming_upd1 {m0 m1 : ℕ → ℕ → ℚ} {e : ℕ} (he : e < edges.length) (new : ℕ → ℚ) (v s : ℕ) :
    incoming edges m0 (fun e' t => if e' = e then new t else m1 e' t) v s =
      incoming edges m0 m1 v s +
        (if v = (edges.getD e (0, 0)).1 then new s - m1 e s else 0) := by
  unfold incoming
  have hmem := mem_range.mpr he
  rw [← add_sum_erase _ _ hmem, ← add_sum_erase (range edges.length) _ hmem]
  have hrest : ∑ x ∈ (range edges.length).erase e,
      ((if v = (edges.getD x (0, 0)).2 then m0 x s else 0) +
        (if v = (edges.getD x (0, 0)).1 then (if x = e then new s else m1 x s) else 0)) =
      ∑ x ∈ (range edges.length).erase e,
      ((if v = (edges.getD x (0, 0)).2 then m0 x s else 0) +
        (if v = (edges.getD x (0, 0)).1 then m1 x s else 0)) := by
    apply sum_congr rfl
    intro x hx
    rw [if_neg (ne_of_mem_erase hx)]
  rw [hrest]
  simp only [if_true]
  split_ifs <;> ring

/-- **C06a.** Before the first update the bookkeeping is right (everything is zero). -/
theorem C06_initial : Consistent edges ⟨fun _ _ => 0, fun _ _ => 0, fun _ _ => 0, 0⟩ := by
  intro v s
  simp [incoming]

/-- **C06b.** Each of the two message updates of an edge preserves it: whatever the current messages, the
potentials, the damping, and whether the edge is a self loop or repeated. -/
theorem C06_update_first {st : LSt} (h : Consistent edges st) {e : ℕ} (he : e < edges.length) :
    Consistent edges (loopyHalf0 S U P edges d st e) := by
  intro v s
  unfold loopyHalf0
  simp only
  rw [incoming_upd0 he, ← h v s]
  unfold edge
  split_ifs <;> ring

/-- **C06b**, second update. -/
theorem C06_update_second {st : LSt} (h : Consistent edges st) {e : ℕ} (he : e < edges.length) :
    Consistent edges (loopyHalf1 S U P edges d st e) := by
  intro v s
  unfold loopyHalf1
  simp only
  rw [incoming_upd1 he, ← h v s]
  unfold edge
  split_ifs <;> ring

theorem consistent_pass {st : LSt} (h : Consistent edges st) :
    Consistent edges (loopyPass S U P edges d st) := by
  unfold loopyPass
  have : ∀ (l : List ℕ), (∀ e ∈ l, e < edges.length) → ∀ st, Consistent edges st →
      Consistent edges (l.foldl (fun st e => loopyHalf1 S U P edges d
        (loopyHalf0 S U P edges d st e) e) st) := by
    intro l
    induction l with
    | nil => intro _ st h; exact h
    | cons e l ih =>
      intro hl st h
      have he := hl e (by simp)
      exact ih (fun e' he' => hl e' (by simp [he'])) _ (C06_update_second (C06_update_first h he) he)
  exact this _ (fun e he => List.mem_range.mp he) _ h

/-- **C06c.** Hence after any number of passes, with any stopping tolerance. -/
theorem C06_all_iterations (tol : ℚ) (k : ℕ) {st : LSt} (h : Consistent edges st) :
    Consistent edges (loopyIter S U P edges d tol k st) := by
  induction k generalizing st with
  | zero => exact h
  | succ k ih =>
    simp only [loopyIter]
    split
    · exact consistent_pass h
    · exact ih (consistent_pass h)

/-- **C06d.** The returned labelling: for every graph with vertices in range, all potentials, damping
values, tolerances and iteration counts, `iterative_max_product` returns in-range states, and each is
the best state under the vertex's unary potential plus the sum of the final messages into it. -/
theorem C06_decoding (U : Mat) (P : ℕ → ℕ → ℕ → ℚ) (edges : Edges) (k : ℕ) (d tol : ℚ)
    (hE : EdgesIn U.rows edges) (hS : 1 ≤ U.cols) :
    ∃ (y : Labels) (m0 m1 : ℕ → ℕ → ℚ), iterativeMaxProduct U P edges k d tol = .ok y ∧
      y.size = U.rows ∧ Valid U.rows U.cols y.get ∧
      (m0 = (loopyIter U.cols U.get P edges d tol k
        ⟨fun _ _ => 0, fun _ _ => 0, fun _ _ => 0, 0⟩).msg0) ∧
      (m1 = (loopyIter U.cols U.get P edges d tol k
        ⟨fun _ _ => 0, fun _ _ => 0, fun _ _ => 0, 0⟩).msg1) ∧
      ∀ v < U.rows, ∀ s < U.cols, U.get v s + incoming edges m0 m1 v s ≤
        U.get v (y.get v) + incoming edges m0 m1 v (y.get v) := by
  have hc : Consistent edges (loopyIter U.cols U.get P edges d tol k
      ⟨fun _ _ => 0, fun _ _ => 0, fun _ _ => 0, 0⟩) := C06_all_iterations tol k C06_initial
  refine ⟨⟨U.rows, fun v => argmaxN (fun s => (loopyIter U.cols U.get P edges d tol k
      ⟨fun _ _ => 0, fun _ _ => 0, fun _ _ => 0, 0⟩).inc v s + U.get v s) U.cols⟩,
      _, _, ?_, rfl, ?_, rfl, rfl, ?_⟩
  · unfold iterativeMaxProduct
    rw [if_neg (by omega),
      if_neg (not_not.mpr (show ∀ e ∈ edges, e.1 < U.rows ∧ e.2 < U.rows from hE))]
  · intro v _
    exact argmaxN_lt _ hS
  · intro v _ s hs
    have := le_argmaxN (fun s => (loopyIter U.cols U.get P edges d tol k
      ⟨fun _ _ => 0, fun _ _ => 0, fun _ _ => 0, 0⟩).inc v s + U.get v s) hs
    simp only at this
    rw [hc v s, hc v _] at this
    linarith

/-- concrete instance: a triangle with two states that prefers equal labels, where vertex 0 prefers
state 1; one pass without damping already gives all ones. -/
example : (iterativeMaxProduct ⟨3, 2, fun i s => if i = 0 ∧ s = 1 then 1 else 0⟩
      (fun _ a b => if a = b then 1 else 0) [(0, 1), (1, 2), (2, 0)] 1 0 0).map
      (fun y => (y.size, y.get 0, y.get 1, y.get 2)) = .ok (3, 1, 1, 1) := by
  decide +kernel

end Verif.Props
