import Mathlib.Logic.Equiv.Defs
import Verif.Model.Learner
import Verif.Model.Common

/-!
# The same learning problem with its features in another order
-/

namespace Verif.Spec

open Verif.Learner Verif.Common

/-- `w'` holds the first `d` entries of `w` in the order `ρ`. -/
def InOrder (ρ : Equiv.Perm ℕ) (d : ℕ) (w w' : ℕ → ℚ) : Prop := ∀ k < d, w' k = w (ρ k)

/-- `m'` is `m` with its features in the order `ρ`: a sample `x` of `m` is given to `m'` as `f x`, joint features and weights of `m'` are
those of `m` in the order `ρ`, losses are the same, and for corresponding weights outputs are the same. -/
structure Reordered {X X' Y : Type} (ρ : Equiv.Perm ℕ) (f : X → X') (m : SModel X Y) (m' : SModel X' Y) : Prop where
  order : ∀ k, ρ k < m.dim ↔ k < m.dim
  dim : m'.dim = m.dim
  rescaleC : m'.rescaleC = m.rescaleC
  isTuple : ∀ y, m'.isTuple y = m.isTuple y
  feature : ∀ x y, InOrder ρ m.dim (m.jointFeature x y) (m'.jointFeature (f x) y)
  featureR : ∀ x y t, InOrder ρ m.dim (m.jointFeatureR x y t) (m'.jointFeatureR (f x) y t)
  loss : ∀ y z, m'.loss y z = m.loss y z
  continuousLoss : ∀ y z, m'.continuousLoss y z = m.continuousLoss y z
  maxLoss : ∀ y, m'.maxLoss y = m.maxLoss y
  lossAug : ∀ x y w w' r, InOrder ρ m.dim w w' → m'.lossAug (f x) y w' r = m.lossAug x y w r
  inference : ∀ x w w', InOrder ρ m.dim w w' → m'.inference (f x) w' = m.inference x w

/-- two arrays of the same shape with the same entries. (Arrays of the model have values beyond their last row, too; that these have to
agree here makes `ReadsEntries` ask for less.) -/
def SameEntries (u u' : Mat) : Prop :=
  u'.rows = u.rows ∧ u'.cols = u.cols ∧ ∀ i, ∀ s < u.cols, u'.get i s = u.get i s

/-- two arrays of the same shape with the same entries. -/
def SameArray (P P' : Mat) : Prop :=
  P'.rows = P.rows ∧ P'.cols = P.cols ∧ ∀ a < P.rows, ∀ b < P.cols, P'.get a b = P.get a b

/-- a method of inference that looks at nothing but the entries of the arrays of potentials. -/
def ReadsEntries {α : Type} (inf : Mat → Pairwise → Edges → α) : Prop :=
  ∀ u u' P P' E, SameEntries u u' → SameArray P P' → inf u' (.mat P') E = inf u (.mat P) E

/-- two arrays of pairwise potentials, one matrix per edge, of the same shape with the same entries. -/
def SameTensor (t t' : Ten) : Prop :=
  t'.d0 = t.d0 ∧ t'.d1 = t.d1 ∧ t'.d2 = t.d2 ∧ ∀ e, ∀ a < t.d1, ∀ b < t.d2, t'.get e a b = t.get e a b

/-- the same as `ReadsEntries` for a method that is given one matrix per edge. -/
def ReadsTensors {α : Type} (inf : Mat → Pairwise → Edges → α) : Prop :=
  ∀ u u' t t' E, SameEntries u u' → SameTensor t t' → inf u' (.ten t') E = inf u (.ten t) E

end Verif.Spec
