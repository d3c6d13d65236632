import Mathlib.Algebra.BigOperators.Group.List.Basic
import Mathlib.Algebra.Order.Field.Rat

/-!
# Training curves
-/

namespace Verif.Spec

/-- The loss of predictions on labelled data, relative to the largest possible loss. -/
def relativeLoss {X Y H : Type} (loss : Y → H → ℚ) (maxLoss : Y → ℚ) (predict : X → H) (samples : List (X × Y)) : ℚ :=
  (samples.map fun s => loss s.2 (predict s.1)).sum / (samples.map fun s => maxLoss s.2).sum

/-- The values `f i` for the iterations `i < K` that are multiples of `every`; none for `every = 0`. -/
def recorded (every K : ℕ) (f : ℕ → ℚ) : List ℚ :=
  ((List.range K).filter fun i => decide (every ≠ 0 ∧ every ∣ i)).map f

end Verif.Spec
