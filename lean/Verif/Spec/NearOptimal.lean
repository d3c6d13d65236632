import Verif.Spec.Learning

/-!
# Specification: weights whose risk is nearly minimal
-/

namespace Verif.Spec

variable {X Y : Type}

/-- The risk of `w` is at most `ε` above that of any weights. -/
def Problem.NearOptimal (P : Problem X Y) (C : ℚ) (samples : List (X × Y)) (ε : ℚ) (w : ℕ → ℚ) : Prop :=
  ∃ p, P.IsObjective C samples w p ∧ ∀ w' obj, P.IsObjective C samples w' obj → p ≤ obj + ε

end Verif.Spec
