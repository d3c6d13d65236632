import Verif.Spec.Learning

/-!
# Specification: separable samples
-/

namespace Verif.Spec

variable {X Y : Type}

/-- The weights `u` separate the samples: the true output of a sample beats every other output by at least its loss. -/
def Problem.Separates (P : Problem X Y) (samples : List (X × Y)) (u : ℕ → ℚ) : Prop :=
  ∀ s ∈ samples, ∀ ŷ ∈ P.outputs s.1, P.value u s.1 s.2 ŷ + P.loss s.2 ŷ ≤ P.value u s.1 s.2 s.2

end Verif.Spec
