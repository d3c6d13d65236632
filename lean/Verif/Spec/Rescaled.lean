import Verif.Spec.LocalPolytope
import Verif.Model.Common

/-!
# Specification: potentials which differ by a factor and by constants

Only the data types of the model of the code are used here.
-/

namespace Verif.Spec

open Verif.Common

/-- The scores `f'` of the alternatives `0 … n-1` differ from each other as those of `f` do, times `a`. -/
def SameDifferences (n : ℕ) (a : ℚ) (f f' : ℕ → ℚ) : Prop := ∀ s < n, ∀ t < n, f' s - f' t = a * (f s - f t)

/-- Potentials `U'`, `P'` in which the states of every node, and the pairs of states of every edge, differ from each
other as in `U`, `P`, times the positive number `a`. -/
structure Rescaled (n S m : ℕ) (a : ℚ) (U U' : ℕ → ℕ → ℚ) (P P' : ℕ → ℕ → ℕ → ℚ) : Prop where
  pos : 0 < a
  unary : ∀ v < n, SameDifferences S a (U v) (U' v)
  pairwise : ∀ e < m, ∀ s < S, ∀ t < S, ∀ s' < S, ∀ t' < S, P' e s t - P' e s' t' = a * (P e s t - P e s' t')

/-- Two calls either raise the same exception, or return the same array of labels. -/
def SameAnswer (r r' : Except PyErr Labels) : Prop :=
  (∃ err, r = .error err ∧ r' = .error err) ∨
    ∃ y y' : Labels, r = .ok y ∧ r' = .ok y' ∧ y'.size = y.size ∧ ∀ i < y.size, y'.get i = y.get i

/-- Consistent marginals of largest score. -/
def BestMarginals (n S : ℕ) (edges : List (ℕ × ℕ)) (U : ℕ → ℕ → ℚ) (P : ℕ → ℕ → ℕ → ℚ) (μ : ℕ → ℕ → ℚ)
    (ν : ℕ → ℕ → ℕ → ℚ) : Prop :=
  LocalPolytope n S edges μ ν ∧
    ∀ μ' ν', LocalPolytope n S edges μ' ν' → marginalScore n S edges U P μ' ν' ≤ marginalScore n S edges U P μ ν

/-- Weights `w'` of `S` states with `F` features each, followed by `k` weights of pairs of states: the weights of the
states of one feature, and those of the pairs, differ from each other as in `w`, times the positive number `a`. -/
structure RescaledWeights (S F k : ℕ) (a : ℚ) (w w' : ℕ → ℚ) : Prop where
  pos : 0 < a
  unary : ∀ f < F, SameDifferences S a (fun s => w (s * F + f)) (fun s => w' (s * F + f))
  pairwise : SameDifferences k a (fun i => w (S * F + i)) (fun i => w' (S * F + i))

end Verif.Spec
