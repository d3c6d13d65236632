import Verif.Spec.Learning

/-!
# Specification: structured risk with hidden variables

Samples carry a label `y`; the true output is one of the completions of this label. None of these definitions
refers to a model of the code.
-/

namespace Verif.Spec

open Finset

variable {X Y H : Type}

/-- `ℓ` is the latent hinge loss of a sample: the smallest hinge loss over the completions of its label. -/
def Problem.IsLatentHinge (P : Problem X H) (completions : Set H) (w : ℕ → ℚ) (x : X) (l : ℚ) : Prop :=
  IsLeast {v | ∃ h ∈ completions, P.IsHinge w x h v} l

/-- `obj` is the latent objective of `w`: half the squared norm plus `C` times the sum of the latent hinge
losses. -/
def Problem.IsLatentObjective (P : Problem X H) (completions : X → Y → Set H) (C : ℚ) (samples : List (X × Y))
    (w : ℕ → ℚ) (obj : ℚ) : Prop :=
  ∃ ls : List ℚ, List.Forall₂ (fun s l => P.IsLatentHinge (completions s.1 s.2) w s.1 l) samples ls ∧
    obj = (∑ k ∈ range P.dim, w k * w k) / 2 + C * ls.sum

/-- `lat` completes labels exactly: it returns a completion of maximal score. -/
def Problem.ExactCompletion (P : Problem X H) (completions : X → Y → Set H) (lat : X → Y → (ℕ → ℚ) → H)
    (samples : List (X × Y)) : Prop :=
  ∀ s ∈ samples, ∀ w, lat s.1 s.2 w ∈ completions s.1 s.2 ∧
    ∀ h ∈ completions s.1 s.2, P.value w s.1 h h ≤ P.value w s.1 (lat s.1 s.2 w) (lat s.1 s.2 w)

/-- `lat` completes labels exactly for the weights `w`. -/
def Problem.ExactCompletionAt (P : Problem X H) (completions : X → Y → Set H) (lat : X → Y → (ℕ → ℚ) → H)
    (samples : List (X × Y)) (w : ℕ → ℚ) : Prop :=
  ∀ s ∈ samples, lat s.1 s.2 w ∈ completions s.1 s.2 ∧
    ∀ h ∈ completions s.1 s.2, P.value w s.1 h h ≤ P.value w s.1 (lat s.1 s.2 w) (lat s.1 s.2 w)

/-- Half the squared norm of `w` is at most `ε` above every objective on the data, as for weights whose objective is nearly
optimal. -/
def Problem.NormNear (P : Problem X H) (C : ℚ) (data : List (X × H)) (ε : ℚ) (w : ℕ → ℚ) : Prop :=
  ∀ w' u, P.IsObjective C data w' u → (∑ k ∈ range P.dim, w k * w k) / 2 ≤ u + ε

theorem Problem.ExactCompletion.at {P : Problem X H} {completions : X → Y → Set H} {lat : X → Y → (ℕ → ℚ) → H}
    {samples : List (X × Y)} (h : P.ExactCompletion completions lat samples) (w : ℕ → ℚ) :
    P.ExactCompletionAt completions lat samples w := fun s hs => h s hs w

/-- The completions of a label are admissible outputs, cost nothing against themselves, and are
interchangeable as truth: losses and features of other outputs do not depend on which of them is taken. -/
def Problem.LabelOnly (P : Problem X H) (completions : X → Y → Set H) (samples : List (X × Y)) : Prop :=
  ∀ s ∈ samples, ∀ h ∈ completions s.1 s.2, (h ∈ P.outputs s.1 ∧ P.loss h h = 0) ∧
    ∀ h' ∈ completions s.1 s.2, ∀ o, P.loss h o = P.loss h' o ∧ ∀ k, P.feat s.1 o h k = P.feat s.1 o h' k

end Verif.Spec
