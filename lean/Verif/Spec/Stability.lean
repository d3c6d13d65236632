import Verif.Spec.Learning

/-!
# Specification: the total hinge loss of weights on a list of samples
-/

namespace Verif.Spec

variable {X Y : Type}

/-- `r` is the sum of the hinge losses of the samples. -/
def Problem.IsHingeSum (P : Problem X Y) (samples : List (X × Y)) (w : ℕ → ℚ) (r : ℚ) : Prop :=
  ∃ hs : List ℚ, List.Forall₂ (fun s h => P.IsHinge w s.1 s.2 h) samples hs ∧ r = hs.sum

end Verif.Spec
