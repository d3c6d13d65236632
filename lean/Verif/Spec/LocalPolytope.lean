import Verif.Spec.Labelling

/-!
# Specification: the local polytope of a pairwise model
-/

namespace Verif.Spec

open Finset

/-- Vertex marginals `μ i s` and edge marginals `ν e s t` that are nonnegative, normalised and
consistent on every edge, at both of its ends and for every state. -/
structure LocalPolytope (n S : ℕ) (edges : List (ℕ × ℕ)) (μ : ℕ → ℕ → ℚ) (ν : ℕ → ℕ → ℕ → ℚ) :
    Prop where
  nonneg : ∀ i < n, ∀ s < S, 0 ≤ μ i s
  nonneg_edge : ∀ e < edges.length, ∀ s < S, ∀ t < S, 0 ≤ ν e s t
  normalised : ∀ i < n, ∑ s ∈ range S, μ i s = 1
  first : ∀ e < edges.length, ∀ s < S,
    ∑ t ∈ range S, ν e s t = μ (edges.getD e (0, 0)).1 s
  second : ∀ e < edges.length, ∀ t < S,
    ∑ s ∈ range S, ν e s t = μ (edges.getD e (0, 0)).2 t

/-- Linear objective on marginals. -/
def marginalScore (n S : ℕ) (edges : List (ℕ × ℕ)) (U : ℕ → ℕ → ℚ) (P : ℕ → ℕ → ℕ → ℚ)
    (μ : ℕ → ℕ → ℚ) (ν : ℕ → ℕ → ℕ → ℚ) : ℚ :=
  ∑ i ∈ range n, ∑ s ∈ range S, U i s * μ i s +
    ∑ e ∈ range edges.length, ∑ s ∈ range S, ∑ t ∈ range S, P e s t * ν e s t

end Verif.Spec
