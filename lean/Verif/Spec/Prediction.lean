import Verif.Model.Learner
import Verif.Spec.GraphOutputs

/-!
# Specification: predictions of pairwise models and their score
-/

namespace Verif.Spec

open Finset Verif.Common Verif.Learner

/-- For good instances and weights, `inference` returns a labelling with one state per vertex whose score, weights times joint
feature, is maximal. -/
def PredictsBest {X : Type} (M : SModel X YVal) (S : ℕ) (nodes : X → ℕ) (good : X → Prop) (ok : (ℕ → ℚ) → Prop) : Prop :=
  ∀ x w, good x → ok w → ∃ y : Labels, M.inference x w = .discrete y ∧ y.size = nodes x ∧ Valid (nodes x) S y.get ∧
    ∀ y' : Labels, y'.size = nodes x → Valid (nodes x) S y'.get →
      ∑ k ∈ range M.dim, w k * M.jointFeature x (.discrete y') k ≤ ∑ k ∈ range M.dim, w k * M.jointFeature x (.discrete y) k

/-- Weight of the labels of all vertices. -/
def labelWeight (cw : ℕ → ℚ) (y : Labels) : ℚ := ∑ i ∈ range y.size, cw (y.get i)

/-- Weight of the labels of the vertices where the prediction `z` is wrong. -/
def wrongWeight (cw : ℕ → ℚ) (y z : Labels) : ℚ := ∑ i ∈ range y.size, if z.get i = y.get i then 0 else cw (y.get i)

/-- For labelled data, `predict` returns one label array per instance and `score` is one minus the weight of the vertices with wrong
labels as a share of the weight of all vertices; it lies between 0 and 1, and is 1 exactly if all labels are right. -/
def ScoresShare {X : Type} (M : SModel X YVal) (S : ℕ) (cw : ℕ → ℚ) (nodes : X → ℕ) (good : X → Prop) (ok : (ℕ → ℚ) → Prop) : Prop :=
  ∀ (data : List (X × Labels)) (w : ℕ → ℚ), data ≠ [] → ok w →
    (∀ d ∈ data, good d.1 ∧ d.2.size = nodes d.1 ∧ Valid (nodes d.1) S d.2.get) →
    ∃ pred : List Labels, predict M w (data.map Prod.fst) = pred.map .discrete ∧ pred.length = data.length ∧
      (∀ p ∈ data.zip pred, p.2.size = p.1.2.size) ∧
      let s := Learner.score M (data.map fun d => .discrete d.2) (predict M w (data.map Prod.fst))
      s = 1 - ((data.zip pred).map fun p => wrongWeight cw p.1.2 p.2).sum / (data.map fun d => labelWeight cw d.2).sum ∧
      0 ≤ s ∧ s ≤ 1 ∧ (s = 1 ↔ ∀ p ∈ data.zip pred, ∀ i < p.1.2.size, p.2.get i = p.1.2.get i)

end Verif.Spec
