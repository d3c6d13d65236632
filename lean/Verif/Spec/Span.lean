import Mathlib.Algebra.BigOperators.Group.List.Basic
import Mathlib.Data.Rat.Defs

/-!
# Specification: linear combinations
-/

namespace Verif.Spec

/-- `w` is a linear combination of finitely many vectors with the property `P`. -/
def Combination (P : (ℕ → ℚ) → Prop) (w : ℕ → ℚ) : Prop :=
  ∃ terms : List (ℚ × (ℕ → ℚ)), (∀ t ∈ terms, P t.2) ∧ ∀ k, w k = (terms.map fun t => t.1 * t.2 k).sum

/-- The difference of two joint features of a training instance: of the true output and of one of the outputs `outs s`. -/
def IsDifference {X Y : Type} (feature : X → Y → ℕ → ℚ) (outs : X × Y → Set Y) (samples : List (X × Y)) (u : ℕ → ℚ) : Prop :=
  ∃ s ∈ samples, ∃ y ∈ outs s, u = fun k => feature s.1 s.2 k - feature s.1 y k

end Verif.Spec
