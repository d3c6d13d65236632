import Verif.Spec.Labelling

/-!
# Specification: attractive pairwise potentials
-/

namespace Verif.Spec

/-- Pairwise potentials that reward agreement of the states of an edge in their order (supermodular, "Monge"). -/
def Attractive (S : ℕ) (edges : List (ℕ × ℕ)) (P : ℕ → ℕ → ℕ → ℚ) : Prop :=
  ∀ e < edges.length, ∀ a b, a + 1 < S → b + 1 < S →
    P e a (b + 1) + P e (a + 1) b ≤ P e a b + P e (a + 1) (b + 1)

end Verif.Spec
