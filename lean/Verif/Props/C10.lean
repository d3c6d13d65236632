import Verif.Model.Unaries
import Verif.Lemmas.Denotes
import Verif.Spec.Labelling

/-!
# C10: unary inference
-/

namespace Verif.Props

open Finset Verif.Common Verif.Dispatch Verif.Spec

/-- **C10a.** For all unary potentials, all graphs and all well-shaped pairwise potentials, `unary`
inference returns an in-range labelling that maximises the sum of the unary potentials. It is the
same labelling for all pairwise potentials. -/
theorem C10_unary_optimal (U : Mat) (hS : 1 ≤ U.cols) :
    ∃ y : Labels, y.size = U.rows ∧ Valid U.rows U.cols y.get ∧
      (∀ y', Valid U.rows U.cols y' →
        ∑ i ∈ range U.rows, U.get i (y' i) ≤ ∑ i ∈ range U.rows, U.get i (y.get i)) ∧
      ∀ (pw : Pairwise) (edges : Edges) (P : ℕ → ℕ → ℕ → ℚ),
        Denotes U.cols edges.length pw P → inferenceUnaries U pw edges = .ok y := by
  refine ⟨⟨U.rows, fun i => argmaxN (U.get i) U.cols⟩, rfl, fun i _ => argmaxN_lt _ hS, ?_, ?_⟩
  · intro y' hy'
    exact sum_le_sum fun i hi => le_argmaxN (U.get i) (hy' i (mem_range.mp hi))
  · intro pw edges P hP
    unfold inferenceUnaries
    rw [validateParams_denotes hP]
    simp only
    rw [if_neg (by omega)]

/-- **C10b.** It is a labelling of maximal score if the edge potentials do not depend on the labels, in
particular if they are all zero or there is no edge. -/
theorem C10_optimal_without_interaction (U : Mat) (pw : Pairwise) (edges : Edges)
    (P : ℕ → ℕ → ℕ → ℚ) (hS : 1 ≤ U.cols) (hP : Denotes U.cols edges.length pw P)
    (hE : EdgesIn U.rows edges)
    (hconst : ∀ e < edges.length, ∀ a < U.cols, ∀ b < U.cols, P e a b = P e 0 0) :
    ∃ y : Labels, inferenceUnaries U pw edges = .ok y ∧ y.size = U.rows ∧
      IsMAP U.rows U.cols edges U.get P y.get := by
  obtain ⟨y, hsz, hv, hmax, hinf⟩ := C10_unary_optimal U hS
  refine ⟨y, hinf pw edges P hP, hsz, hv, fun y' hy' => ?_⟩
  have hc : ∀ z, Valid U.rows U.cols z → score U.rows edges U.get P z =
      ∑ i ∈ range U.rows, U.get i (z i) + ∑ e ∈ range edges.length, P e 0 0 := by
    intro z hz
    unfold score
    congr 1
    apply sum_congr rfl; intro e he
    have he' := mem_range.mp he
    have hm : edges.getD e (0, 0) ∈ edges := by
      rw [List.getD_eq_getElem _ _ he']; exact List.getElem_mem _
    exact hconst e he' _ (hz _ (hE _ hm).1) _ (hz _ (hE _ hm).2)
  rw [hc y' hy', hc y.get hv]
  have := hmax y' hy'
  linarith

/-- Badly shaped pairwise potentials are rejected although they would be ignored. -/
theorem C10_bad_shape (U : Mat) (edges : Edges) (m : Mat)
    (h : m.rows ≠ U.cols ∨ m.cols ≠ U.cols) :
    inferenceUnaries U (.mat m) edges = .error .valueError := by
  unfold inferenceUnaries validateParams
  simp only
  rw [if_neg]
  rintro ⟨h1, h2⟩
  rcases h with h | h
  · exact h h1
  · exact h h2

/-- concrete instance: an edge potential that would favour `(0,0)` is ignored. -/
example : (inferenceUnaries ⟨2, 2, fun _ s => s⟩
      (.mat ⟨2, 2, fun a b => if a = 0 ∧ b = 0 then 100 else 0⟩) [(0, 1)]).map
      (fun y => (y.size, y.get 0, y.get 1)) = .ok (2, 1, 1) := by decide +kernel

end Verif.Props
