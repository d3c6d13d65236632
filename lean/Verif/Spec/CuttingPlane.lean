import Verif.Spec.Learning

/-!
# Specification: averaged constraints
-/

namespace Verif.Spec

variable {X Y : Type}

/-- `(a, b)` is a constraint averaged over the samples: there is one output per sample, related to it by
`R`, such that `a` is the mean joint-feature difference to the true output and `b` the mean loss. -/
def Problem.IsMean (P : Problem X Y) (R : X → Y → Y → Prop) (samples : List (X × Y)) (a : ℕ → ℚ)
    (b : ℚ) : Prop :=
  ∃ outs : List Y, List.Forall₂ (fun s ŷ => R s.1 s.2 ŷ) samples outs ∧
    (∀ k < P.dim, a k = ((samples.zip outs).map fun p =>
      P.feat p.1.1 p.1.2 p.1.2 k - P.feat p.1.1 p.2 p.1.2 k).sum / samples.length) ∧
    b = ((samples.zip outs).map fun p => P.loss p.1.2 p.2).sum / samples.length

/-- `v` is at most the regularised risk of every weight vector. -/
def Problem.LowerBound (P : Problem X Y) (C : ℚ) (samples : List (X × Y)) (v : ℚ) : Prop :=
  ∀ w obj, P.IsObjective C samples w obj → v ≤ obj

end Verif.Spec
