import Verif.Basic.Arr
import Mathlib.Algebra.Order.Monoid.WithTop
import Mathlib.Algebra.Order.Monoid.Unbundled.WithTop

/-!
# Specification: labellings, their scores, optimality

These definitions do not refer to any model of the code.
-/

namespace Verif.Spec

open Finset

/-- `y` assigns to each of the vertices `0 … n-1` one of the states `0 … S-1`. -/
def Valid (n S : ℕ) (y : ℕ → ℕ) : Prop := ∀ i < n, y i < S

/-- Total score of labelling `y`: one unary term per vertex and one pairwise term per edge. -/
def score (n : ℕ) (edges : List (ℕ × ℕ)) (U : ℕ → ℕ → ℚ) (P : ℕ → ℕ → ℕ → ℚ) (y : ℕ → ℕ) : ℚ :=
  ∑ i ∈ range n, U i (y i) +
    ∑ e ∈ range edges.length, P e (y (edges.getD e (0, 0)).1) (y (edges.getD e (0, 0)).2)

/-- `y` is a labelling of maximal score. -/
def IsMAP (n S : ℕ) (edges : List (ℕ × ℕ)) (U : ℕ → ℕ → ℚ) (P : ℕ → ℕ → ℕ → ℚ)
    (y : ℕ → ℕ) : Prop :=
  Valid n S y ∧ ∀ y', Valid n S y' → score n edges U P y' ≤ score n edges U P y

/-- Score of a labelling of a chain of `n` positions whose score tables may contain `-∞`. -/
def chainScore (n : ℕ) (U : ℕ → ℕ → WithBot ℚ) (T : ℕ → ℕ → ℕ → WithBot ℚ) (y : ℕ → ℕ) :
    WithBot ℚ :=
  ∑ i ∈ range n, U i (y i) + ∑ i ∈ range (n - 1), T i (y i) (y (i + 1))

/-- All edges join vertices in range. -/
def EdgesIn (n : ℕ) (edges : List (ℕ × ℕ)) : Prop := ∀ e ∈ edges, e.1 < n ∧ e.2 < n

/-- The edge list of the chain `0 – 1 – … – (n-1)`, in order. -/
def chainEdges (n : ℕ) : List (ℕ × ℕ) := (List.range (n - 1)).map fun i => (i, i + 1)

end Verif.Spec
