import Verif.Model.LatentSSVM
import Verif.Model.LatentGrid
import Verif.Spec.LatentImages
import Verif.Spec.Prediction

/-!
# Specification: predictions of models with latent states and their score
-/

namespace Verif.Spec

open Finset Verif.Common

/-- For good instances and weights, `predict_latent` returns one completion and `predict` one label array per instance, and they are
related as `Best` says. -/
def PredictsLatent {X Y H : Type} (L : LatentSSVM.LModel X Y H) (good : X → Prop) (ok : (ℕ → ℚ) → Prop)
    (Best : X → (ℕ → ℚ) → H → Y → Prop) : Prop :=
  ∀ (xs : List X) (w : ℕ → ℚ), (∀ x ∈ xs, good x) → ok w →
    ∃ r : List (H × Y), Learner.predict L.m w xs = r.map Prod.fst ∧ LatentSSVM.predict L w xs = r.map Prod.snd ∧
      List.Forall₂ (fun x p => Best x w p.1 p.2) xs r

/-- For labelled data, `score` is one minus the weight of what is wrong as a share of the total weight; it lies between 0 and 1, and is 1
exactly if all predictions are right. -/
def LatentScores {X Y H : Type} (L : LatentSSVM.LModel X Y H) (good : X → Y → Prop) (ok : (ℕ → ℚ) → Prop) (wrong : Y → Y → ℚ)
    (weight : Y → ℚ) (right : Y → Y → Prop) : Prop :=
  ∀ (data : List (X × Y)) (w : ℕ → ℚ), data ≠ [] → ok w → (∀ d ∈ data, good d.1 d.2) →
    let pred := LatentSSVM.predict L w (data.map Prod.fst)
    let s := LatentSSVM.score L w data
    pred.length = data.length ∧ s = 1 - ((data.zip pred).map fun p => wrong p.1.2 p.2).sum / (data.map fun d => weight d.2).sum ∧
    0 ≤ s ∧ s ≤ 1 ∧ (s = 1 ↔ ∀ p ∈ data.zip pred, right p.1.2 p.2)

/-- The completion `v` is a labelling of `n` vertices with the largest value among all labellings, and the label array `y` gives every
vertex the label that its state belongs to. -/
def BestStates (sizes : List ℕ) (S n : ℕ) (value : YVal → ℚ) (v : YVal) (y : Labels) : Prop :=
  (∃ h : Labels, v = .discrete h ∧ h.size = n ∧ Valid n S h.get) ∧
  (∀ h : Labels, h.size = n → Valid n S h.get → value (.discrete h) ≤ value v) ∧ y.size = n ∧ Completes sizes n y v

/-- The same for images of states. -/
def BestImage (sizes : List ℕ) (S h w : ℕ) (value : (ℕ → ℕ → ℕ) → ℚ) (v : LatentGrid.ImageVal) (y : Grid.NMat) : Prop :=
  ∃ a : Grid.NMat, v = .discrete a ∧ a.rows = h ∧ a.cols = w ∧ ValidImage h w S a.get ∧
    (∀ z, ValidImage h w S z → value z ≤ value a.get) ∧ y.rows = h ∧ y.cols = w ∧ CompletesImage sizes h w y.get a.get

/-- With `n` visible and `nh` hidden nodes: visible nodes have labels, hidden nodes the other states, no such labelling has a larger value,
and the label array consists of the labels of the visible nodes. -/
def BestHidden (L S n nh : ℕ) (value : (ℕ → ℕ) → ℚ) (v : YVal) (y : Labels) : Prop :=
  ∃ h : Labels, v = .discrete h ∧ h.size = n + nh ∧ (∀ i < n, h.get i < L) ∧ (∀ i, n ≤ i → i < n + nh → L ≤ h.get i ∧ h.get i < S) ∧
    (∀ z : ℕ → ℕ, (∀ i < n, z i < L) → (∀ i, n ≤ i → i < n + nh → L ≤ z i ∧ z i < S) → value z ≤ value h.get) ∧
    y.size = n ∧ ∀ i < n, y.get i = h.get i

/-- Number of pixels with wrong labels. -/
def wrongImage (y z : Grid.NMat) : ℚ := ∑ r ∈ range y.rows, ∑ c ∈ range y.cols, if z.get r c = y.get r c then 0 else 1

/-- Number of pixels. -/
def imageArea (y : Grid.NMat) : ℚ := y.rows * y.cols

/-- All pixels have the same labels. -/
def SameImage (y z : Grid.NMat) : Prop := ∀ r < y.rows, ∀ c < y.cols, z.get r c = y.get r c

/-- All labels are the same. -/
def SameLabels (y z : Labels) : Prop := ∀ i < y.size, z.get i = y.get i

end Verif.Spec
