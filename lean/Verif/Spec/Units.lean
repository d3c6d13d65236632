import Mathlib.Logic.Equiv.Defs
import Verif.Model.Learner

/-!
# The same learning problem in other units and with its features in another order

Multiplying all joint features by `b` and all losses by `a` describes the same problem in other units, and so does putting the joint
features in another order: inputs and outputs, and which output is best for corresponding weights, are the same.
-/

namespace Verif.Spec

open Verif.Learner

/-- `ρ` reorders the first `d` entries. -/
def Reorders (ρ : Equiv.Perm ℕ) (d : ℕ) : Prop := ∀ k, ρ k < d ↔ k < d

/-- the first `d` entries of `w'` are `c` times those of `w`, in the order `ρ`. -/
def Multiple (ρ : Equiv.Perm ℕ) (c : ℚ) (d : ℕ) (w w' : ℕ → ℚ) : Prop := ∀ k < d, w' k = c * w (ρ k)

/-- `m'` is `m` in other units and with its features in the order `ρ`: its joint features are those of `m` times `b`, its losses those of `m` times `a`; a sample `x` of `m`
is given to `m'` as `f x`. Which output is best under scores plus loss does not change if the weights are multiplied by `a / b`, which
output has the best score does not change if they are multiplied by any positive number. -/
structure OtherUnits {X X' Y : Type} (ρ : Equiv.Perm ℕ) (a b : ℚ) (f : X → X') (m : SModel X Y) (m' : SModel X' Y) : Prop where
  order : Reorders ρ m.dim
  dim : m'.dim = m.dim
  rescaleC : m'.rescaleC = m.rescaleC
  isTuple : ∀ y, m'.isTuple y = m.isTuple y
  feature : ∀ x y, Multiple ρ b m.dim (m.jointFeature x y) (m'.jointFeature (f x) y)
  featureR : ∀ x y t, Multiple ρ b m.dim (m.jointFeatureR x y t) (m'.jointFeatureR (f x) y t)
  loss : ∀ y z, m'.loss y z = a * m.loss y z
  continuousLoss : ∀ y z, m'.continuousLoss y z = a * m.continuousLoss y z
  maxLoss : ∀ y, m'.maxLoss y = a * m.maxLoss y
  lossAug : ∀ x y w w' r, Multiple ρ (a / b) m.dim w w' → m'.lossAug (f x) y w' r = m.lossAug x y w r
  inference : ∀ x w w', Multiple ρ (a / b) m.dim w w' → m'.inference (f x) w' = m.inference x w

/-- the indices of weights restricted by `negativity_constraint` in the order `ρ`. -/
def reorderNeg (ρ : Equiv.Perm ℕ) (neg : Option (List ℕ)) : Option (List ℕ) := neg.map fun l => l.map ρ.symm

/-- the samples as `m'` gets them. -/
def inUnits {X X' Y : Type} (f : X → X') (samples : List (X × Y)) : List (X' × Y) :=
  samples.map fun s => (f s.1, s.2)

end Verif.Spec
