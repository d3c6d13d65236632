import Verif.Spec.Duality

/-!
# Specification: Frank-Wolfe optimisation of the dual

Algorithm 2 of Lacoste-Julien et al. (2013), which `pystruct/learners/frankwolfe_ssvm.py` refers to, in terms of
the structured prediction problem alone.
-/

namespace Verif.Spec

open Finset

variable {X Y : Type}

/-- `(ws, bs)` is the corner of the dual domain in the direction of steepest ascent at `w`: for every sample an
output of maximal violation. -/
def Problem.Corner (P : Problem X Y) (C : ℚ) (samples : List (X × Y)) (w ws : ℕ → ℚ) (bs : ℚ) : Prop :=
  ∃ ys : List Y,
    List.Forall₂ (fun s ŷ => ŷ ∈ P.outputs s.1 ∧
      ∀ z ∈ P.outputs s.1, P.violation w s.1 s.2 z ≤ P.violation w s.1 s.2 ŷ) samples ys ∧
    (∀ k < P.dim, ws k = C * (List.zipWith (fun s ŷ => P.feat s.1 s.2 s.2 k - P.feat s.1 ŷ s.2 k) samples ys).sum) ∧
    bs = (List.zipWith (fun s ŷ => P.loss s.2 ŷ) samples ys).sum

/-- How the step size of step `t` is chosen: `2 / (t + 2)`, or by a line search that may lose up to
`slack γ'² / 2` compared with step size `γ'`. -/
def Problem.StepSize (P : Problem X Y) (C slack : ℚ) (t : ℕ) (w ws : ℕ → ℚ) (b bs γ : ℚ) : Prop :=
  γ = 2 / (t + 2) ∨
    ∀ γ', 0 ≤ γ' → γ' ≤ 1 →
      P.dualValue C (fun k => (1 - γ') * w k + γ' * ws k) ((1 - γ') * b + γ' * bs) ≤
        P.dualValue C (fun k => (1 - γ) * w k + γ * ws k) ((1 - γ) * b + γ * bs) + slack * γ' ^ 2 / 2

/-- `T` steps of the algorithm from zero weights: step `t` leads from `(w t, b t)` to `(w (t+1), b (t+1))`. -/
structure Problem.FWRun (P : Problem X Y) (C slack : ℚ) (samples : List (X × Y)) (w : ℕ → ℕ → ℚ) (b : ℕ → ℚ)
    (T : ℕ) : Prop where
  start_w : ∀ k, w 0 k = 0
  start_b : b 0 = 0
  step : ∀ t < T, ∃ ws bs γ, P.Corner C samples (w t) ws bs ∧ 0 ≤ γ ∧ γ ≤ 1 ∧
    P.StepSize C slack t (w t) ws (b t) bs γ ∧
    (∀ k, w (t + 1) k = (1 - γ) * w t k + γ * ws k) ∧ b (t + 1) = (1 - γ) * b t + γ * bs

/-- `R` bounds the squared distance of the joint features of any two outputs of the same sample. -/
def Problem.FeatureRange (P : Problem X Y) (samples : List (X × Y)) (R : ℚ) : Prop :=
  ∀ s ∈ samples, ∀ y ∈ P.outputs s.1, ∀ z ∈ P.outputs s.1,
    ∑ k ∈ range P.dim, (P.feat s.1 y s.2 k - P.feat s.1 z s.2 k) ^ 2 ≤ R

end Verif.Spec
