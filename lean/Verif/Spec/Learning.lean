import Verif.Basic.Arr

/-!
# Specification: structured risk

A structured prediction problem, independent of any learner: outputs that compete for a sample, joint
features, a loss. None of these definitions refers to a model of the code.
-/

namespace Verif.Spec

open Finset

/-- `dim` weights; `feat x ŷ y` is the joint feature of candidate `ŷ` for sample `x` with true output
`y`; `loss y ŷ` the cost of answering `ŷ` instead of `y`; `outputs x` the outputs that compete. -/
structure Problem (X Y : Type) where
  dim : ℕ
  feat : X → Y → Y → ℕ → ℚ
  loss : Y → Y → ℚ
  outputs : X → Set Y

variable {X Y : Type}

/-- Score of candidate `ŷ`: weights times joint feature. -/
def Problem.value (P : Problem X Y) (w : ℕ → ℚ) (x : X) (y ŷ : Y) : ℚ :=
  ∑ k ∈ range P.dim, w k * P.feat x ŷ y k

/-- By how much candidate `ŷ` violates the margin: its loss plus its score minus the score of the true
output. -/
def Problem.violation (P : Problem X Y) (w : ℕ → ℚ) (x : X) (y ŷ : Y) : ℚ :=
  P.loss y ŷ + P.value w x y ŷ - P.value w x y y

/-- `h` is the structured hinge loss of a sample: the largest violation. -/
def Problem.IsHinge (P : Problem X Y) (w : ℕ → ℚ) (x : X) (y : Y) (h : ℚ) : Prop :=
  IsGreatest {v | ∃ ŷ ∈ P.outputs x, v = P.violation w x y ŷ} h

/-- The samples are labelled with admissible outputs, and being right costs nothing. -/
def Problem.Labelled (P : Problem X Y) (samples : List (X × Y)) : Prop :=
  ∀ s ∈ samples, s.2 ∈ P.outputs s.1 ∧ P.loss s.2 s.2 = 0

/-- `obj` is the regularised structured risk of `w`: half the squared norm plus `C` times the sum of the
hinge losses of the samples. -/
def Problem.IsObjective (P : Problem X Y) (C : ℚ) (samples : List (X × Y)) (w : ℕ → ℚ) (obj : ℚ) :
    Prop :=
  ∃ hs : List ℚ, List.Forall₂ (fun s h => P.IsHinge w s.1 s.2 h) samples hs ∧
    obj = (∑ k ∈ range P.dim, w k * w k) / 2 + C * hs.sum

end Verif.Spec

namespace Verif.Spec

variable {X Y : Type}

/-- `la` solves the loss-augmented decoding problem exactly: for every admissible true output for which being
right costs nothing, it returns an admissible output of maximal violation. -/
def Problem.ExactLossAug (P : Problem X Y) (la : X → Y → (ℕ → ℚ) → Y) : Prop :=
  ∀ x y w, y ∈ P.outputs x → P.loss y y = 0 →
    la x y w ∈ P.outputs x ∧ ∀ ŷ ∈ P.outputs x, P.violation w x y ŷ ≤ P.violation w x y (la x y w)

/-- `inf` decodes exactly: it returns an admissible output of maximal score. -/
def Problem.ExactInference (P : Problem X Y) (inf : X → (ℕ → ℚ) → Y) : Prop :=
  ∀ x y w, y ∈ P.outputs x →
    inf x w ∈ P.outputs x ∧ ∀ ŷ ∈ P.outputs x, P.value w x y ŷ ≤ P.value w x y (inf x w)

end Verif.Spec
