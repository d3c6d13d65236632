import Verif.Spec.Learning

/-!
# Specification: samples beyond the margin
-/

namespace Verif.Spec

variable {X Y : Type}

/-- The weights classify the sample with more than the margin: every other output stays below the true one by its loss and `γ` more. -/
def Problem.Beyond (P : Problem X Y) (w : ℕ → ℚ) (γ : ℚ) (s : X × Y) : Prop :=
  ∀ ŷ ∈ P.outputs s.1, ŷ ≠ s.2 → P.loss s.2 ŷ + P.value w s.1 s.2 ŷ + γ ≤ P.value w s.1 s.2 s.2

end Verif.Spec
