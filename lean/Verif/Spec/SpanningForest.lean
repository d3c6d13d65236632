import Verif.Spec.Graph
import Mathlib.Algebra.BigOperators.Group.List.Basic

/-!
# Specification: spanning forests of least weight
-/

namespace Verif.Spec

/-- Two vertices are joined by a walk. -/
def Connected (edges : List (ℕ × ℕ)) (u v : ℕ) : Prop := ConnectedVia edges (fun _ => True) u v

/-- Sum of the weights of the edges. -/
def totalWeightOf (A : ℕ → ℕ → ℚ) (edges : List (ℕ × ℕ)) : ℚ := (edges.map fun e => A e.1 e.2).sum

/-- A graph without cycles that uses nonzero entries of the matrix `A` only and joins whatever nonzero entries join. -/
structure SpanningForest (n : ℕ) (A : ℕ → ℕ → ℚ) (edges : List (ℕ × ℕ)) : Prop where
  entries : ∀ e ∈ edges, e.1 < n ∧ e.2 < n ∧ A e.1 e.2 ≠ 0
  forest : ¬ HasCycle edges
  spans : ∀ i < n, ∀ j < n, A i j ≠ 0 → Connected edges i j

/-- A spanning forest with the smallest sum of weights. -/
def MinimumSpanningForest (n : ℕ) (A : ℕ → ℕ → ℚ) (edges : List (ℕ × ℕ)) : Prop :=
  SpanningForest n A edges ∧ ∀ F, SpanningForest n A F → totalWeightOf A edges ≤ totalWeightOf A F

end Verif.Spec
