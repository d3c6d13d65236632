import Verif.Lemmas.Tree

/-!
# C04: the forest test decides acyclicity
-/

namespace Verif.Props

open Verif.Common Verif.MaxProd Verif.Spec

/-- **C04.** For every non-empty edge list (self loops and repeated edges included) over `n` vertices,
`is_forest` answers, and the answer is `True` exactly if the multigraph has no cycle. -/
theorem C04_is_forest (edges : Edges) (n : ℕ) (hne : edges ≠ []) (hE : EdgesIn n edges) :
    ∃ b, isForest edges (some n) = .ok b ∧ (b = true ↔ ¬ HasCycle edges) :=
  isForest_ok edges n hne hE

/-- **C04**, without the number of vertices. -/
theorem C04_is_forest_unspecified (edges : Edges) (hne : edges ≠ []) :
    ∃ b, isForest edges none = .ok b ∧ (b = true ↔ ¬ HasCycle edges) :=
  isForest_none_ok edges hne

/-- Conversely to the restriction to non-empty lists: without edges the test raises (for `n ≥ 1`). -/
theorem C04_no_edges_rejected (n : ℕ) (hn : 1 ≤ n) :
    isForest [] (some n) = .error .valueError ∧ isForest [] none = .error .valueError := by
  unfold isForest
  constructor
  · simp; omega
  · simp

/-- a path is a forest; a triangle, a doubled edge and a self loop are not. -/
example : isForest [(0, 1), (2, 1), (2, 3)] (some 5) = .ok true ∧
    isForest [(0, 1), (1, 2), (2, 0)] (some 5) = .ok false ∧
    isForest [(0, 1), (1, 0)] (some 3) = .ok false ∧ isForest [(1, 1)] (some 2) = .ok false := by
  decide +kernel

/-- the notion of cycle used: a triangle has one. -/
example : HasCycle [(0, 1), (1, 2), (2, 0)] := by
  refine ⟨2, by norm_num, ?_⟩
  refine Relation.ReflTransGen.tail (b := 1) (Relation.ReflTransGen.single ?_) ?_
  · exact ⟨1, by norm_num, by norm_num, Or.inr rfl⟩
  · exact ⟨0, by norm_num, by norm_num, Or.inr rfl⟩

end Verif.Props
