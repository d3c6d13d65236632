import Verif.Spec.Learning

/-!
# Specification: dual points of the regularised structured risk

A dual point is a choice, for every sample, of a probability distribution over its outputs. It determines a
weight vector, an average loss and a dual value. Nothing here refers to a model of the code.
-/

namespace Verif.Spec

open Finset

variable {X Y : Type}

/-- `(a, b)` is the mean joint-feature difference and the mean loss of some finite probability
distribution over the outputs of a sample. -/
def Problem.Mix (P : Problem X Y) (x : X) (y : Y) (a : ℕ → ℚ) (b : ℚ) : Prop :=
  ∃ cs : List (ℚ × Y), (∀ c ∈ cs, 0 ≤ c.1 ∧ c.2 ∈ P.outputs x) ∧ (cs.map Prod.fst).sum = 1 ∧
    (∀ k < P.dim, a k = (cs.map fun c => c.1 * (P.feat x y y k - P.feat x c.2 y k)).sum) ∧
    b = (cs.map fun c => c.1 * P.loss y c.2).sum

/-- `(w, b)` are the weights and the total mean loss of a dual point: one distribution per sample. -/
def Problem.DualPoint (P : Problem X Y) (C : ℚ) (samples : List (X × Y)) (w : ℕ → ℚ) (b : ℚ) : Prop :=
  ∃ blocks : List ((ℕ → ℚ) × ℚ),
    List.Forall₂ (fun s p => P.Mix s.1 s.2 p.1 p.2) samples blocks ∧
    (∀ k < P.dim, w k = C * (blocks.map fun p => p.1 k).sum) ∧ b = (blocks.map Prod.snd).sum

/-- The dual value of a dual point. -/
def Problem.dualValue (P : Problem X Y) (C : ℚ) (w : ℕ → ℚ) (b : ℚ) : ℚ :=
  C * b - (∑ k ∈ range P.dim, w k * w k) / 2

end Verif.Spec
