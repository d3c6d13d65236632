import Verif.Spec.Learning

/-!
# Specification: subgradients of the structured risk
-/

namespace Verif.Spec

open Finset

variable {X Y : Type}

/-- `g` is a subgradient at `w` of the regularised risk of `samples` with constant `C`: the objective is
defined at `w`, and nowhere below the affine function through its value at `w` with slope `g`. -/
def Problem.IsSubgradient (P : Problem X Y) (C : ℚ) (samples : List (X × Y)) (w g : ℕ → ℚ) : Prop :=
  (∃ a, P.IsObjective C samples w a) ∧
  ∀ w' a b, P.IsObjective C samples w a → P.IsObjective C samples w' b →
    a + ∑ k ∈ range P.dim, g k * (w' k - w k) ≤ b

/-- The weights `ws 0, ws 1, …` arise by subgradient descent with momentum `μ` and step lengths `η`,
where step `t` uses a subgradient of the risk of the samples `blocks[t]`, with constant
`c blocks[t]`. -/
def Problem.IsDescent (P : Problem X Y) (c : List (X × Y) → ℚ) (μ : ℚ) (η : ℕ → ℚ)
    (blocks : List (List (X × Y))) (ws : ℕ → ℕ → ℚ) : Prop :=
  ∃ gs vs : ℕ → ℕ → ℚ, (∀ k, vs 0 k = 0) ∧
    ∀ t (ht : t < blocks.length),
      P.IsSubgradient (c blocks[t]) blocks[t] (ws t) (gs t) ∧
      ∀ k, vs (t + 1) k = (1 - μ) * -gs t k + μ * vs t k ∧ ws (t + 1) k = ws t k + η t * vs (t + 1) k

end Verif.Spec

namespace Verif.Spec

variable {X Y : Type}

/-- `u` minimises the regularised risk with constant `C`, and `a` is the minimum. -/
def Problem.IsRiskMin (P : Problem X Y) (C : ℚ) (samples : List (X × Y)) (u : ℕ → ℚ) (a : ℚ) : Prop :=
  P.IsObjective C samples u a ∧ ∀ w b, P.IsObjective C samples w b → a ≤ b

end Verif.Spec
