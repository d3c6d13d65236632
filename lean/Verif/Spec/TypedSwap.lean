import Verif.Spec.Typed

/-!
# Specification: renaming the types of nodes

Type `t` after the renaming is type `p t` before. These definitions do not refer to any model of the code.
-/

namespace Verif.Spec

open Finset

/-- The list says for each of `T` types which type takes its place, and saying it twice changes nothing. -/
structure Involution (T : ℕ) (p : List ℕ) : Prop where
  length : p.length = T
  lt : ∀ t < T, p.getD t 0 < T
  back : ∀ t < T, p.getD (p.getD t 0) 0 = t

/-- Numbers per type, after the renaming. -/
def renamed (p l : List ℕ) : List ℕ := p.map fun t => l.getD t 0

/-- Numbers per pair of types, after the renaming. -/
def renamedPairs (p : List ℕ) (g : ℕ → ℕ → ℕ) (a b : ℕ) : ℕ := g (p.getD a 0) (p.getD b 0)

/-- An array per type, after the renaming. -/
def RenamedList {α : Type} (T : ℕ) (p : List ℕ) (l l' : List (Option α)) : Prop :=
  l'.length = T ∧ ∀ t < T, l'.getD t none = l.getD (p.getD t 0) none

/-- An array per pair of types, after the renaming. -/
def RenamedTable {α : Type} (T : ℕ) (p : List ℕ) (l l' : List (Option α)) : Prop :=
  l'.length = T * T ∧ ∀ a < T, ∀ b < T, l'.getD (a * T + b) none = l.getD (p.getD a 0 * T + p.getD b 0) none

/-- Weights for the renamed types: every weight belongs to the same states and the same feature as before. -/
structure RenamedWeights (T : ℕ) (p S F : List ℕ) (Fe : ℕ → ℕ → ℕ) (w w' : ℕ → ℚ) : Prop where
  node : ∀ t < T, ∀ s < S.getD (p.getD t 0) 0, ∀ f < F.getD (p.getD t 0) 0,
    w' (nodeWeights (renamed p S) (renamed p F) t + s * F.getD (p.getD t 0) 0 + f) =
      w (nodeWeights S F (p.getD t 0) + s * F.getD (p.getD t 0) 0 + f)
  edge : ∀ a < T, ∀ b < T, ∀ f < Fe (p.getD a 0) (p.getD b 0), ∀ r < S.getD (p.getD a 0) 0, ∀ s < S.getD (p.getD b 0) 0,
    w' (nodeWeights (renamed p S) (renamed p F) T + edgeWeights T (renamed p S) (renamedPairs p Fe) (a * T + b) +
        f * (S.getD (p.getD a 0) 0 * S.getD (p.getD b 0) 0) + r * S.getD (p.getD b 0) 0 + s) =
      w (nodeWeights S F T + edgeWeights T S Fe (p.getD a 0 * T + p.getD b 0) +
        f * (S.getD (p.getD a 0) 0 * S.getD (p.getD b 0) 0) + r * S.getD (p.getD b 0) 0 + s)

end Verif.Spec
