import Verif.Model.EdgeInstance

/-!
# `GridCRF` and `DirectionalGridCRF` seen through the learner interface
-/

namespace Verif.EdgeFeature

open Verif.Common Verif.GraphCRF Verif.Learner

/-- `joint_feature(x, y)` of a `GridCRF`, `pystruct/models/graph_crf.py` lines 159-212 with `_get_features` and `_get_edges` of
`pystruct/models/grid_crf.py` lines 45-49, as a function on indices. -/
def gridFeature (neighborhood : ℕ) (m : GraphCRF.Model) (t : Ten) (y : YVal) : W :=
  (okD ⟨0, fun _ => 0⟩ (do
    let x ← gridX neighborhood m.nFeatures t
    GraphCRF.jointFeature m x y)).get

/-- `GridCRF.loss_augmented_inference`, `pystruct/models/grid_crf.py` lines 69-74, with a label array as true label. -/
def gridLossAug (backend : Bool → Infer) (cw : Vec) (neighborhood : ℕ) (m : GraphCRF.Model) (t : Ten) (y : YVal) (w : W)
    (relaxed : Bool) : YVal :=
  match y with
  | .discrete l => okD y (do
      let x ← gridX neighborhood m.nFeatures t
      GraphCRF.lossAugmentedInference (backend relaxed) cw m x l ⟨GraphCRF.sizeJointFeature m, w⟩)
  | .relaxed _ _ => y

/-- `GridCRF.inference`, `pystruct/models/grid_crf.py` lines 64-67. -/
def gridInference (inf : Infer) (neighborhood : ℕ) (m : GraphCRF.Model) (t : Ten) (w : W) : Except PyErr YVal := do
  let x ← gridX neighborhood m.nFeatures t
  GraphCRF.inference inf m x ⟨GraphCRF.sizeJointFeature m, w⟩

/-- An initialised `GridCRF` (`pystruct/models/grid_crf.py` lines 7-80) behind the learner interface. Samples are arrays of shape
`(height, width, n_features)`. Label arrays and unary marginals are kept flat, in row-major order, which is what `y.ravel()` makes of
them before inference and the losses and what `_reshape_y` undoes (lines 51-63, 72, 77-81). Values for arguments that raise are
arbitrary. -/
def gridModel (backend : Bool → Infer) (cw : Vec) (neighborhood : ℕ) (m : GraphCRF.Model) : SModel Ten YVal where
  dim := GraphCRF.sizeJointFeature m
  jointFeature t y := gridFeature neighborhood m t y
  rescaleC := false
  jointFeatureR t y _ := gridFeature neighborhood m t y
  lossAug t y w relaxed := gridLossAug backend cw neighborhood m t y w relaxed
  inference t w := okD (.discrete ⟨0, fun _ => 0⟩) (gridInference (backend false) neighborhood m t w)
  isTuple y := match y with
    | .discrete _ => false
    | .relaxed _ _ => true
  loss y yhat := graphLoss cw m.nStates y yhat
  continuousLoss y yhat := graphContinuousLoss cw m.nStates y yhat
  maxLoss y := graphMaxLoss cw y

/-- `DirectionalGridCRF.joint_feature`, `pystruct/models/grid_crf.py` lines 143-169, as a function on indices. -/
def directionalFeature (neighborhood : ℕ) (m : Model) (t : Ten) (y : YVal) : W :=
  (okD ⟨0, fun _ => 0⟩ (do
    let x ← directionalX neighborhood m.nFeatures t
    jointFeature checkFeatures m x y)).get

/-- `loss_augmented_inference` of a `DirectionalGridCRF`: that of `GridCRF`, `pystruct/models/grid_crf.py` lines 69-74. -/
def directionalLossAug (backend : Bool → Infer) (cw : Vec) (neighborhood : ℕ) (m : Model) (t : Ten) (y : YVal) (w : W)
    (relaxed : Bool) : YVal :=
  match y with
  | .discrete l => okD y (do
      let x ← directionalX neighborhood m.nFeatures t
      lossAugmentedInference checkFeatures (backend relaxed) cw m x l ⟨sizeJointFeature m, w⟩)
  | .relaxed _ _ => y

/-- `inference` of a `DirectionalGridCRF`: that of `GridCRF`, `pystruct/models/grid_crf.py` lines 64-67. -/
def directionalInference (inf : Infer) (neighborhood : ℕ) (m : Model) (t : Ten) (w : W) : Except PyErr YVal := do
  let x ← directionalX neighborhood m.nFeatures t
  inference checkFeatures inf m x ⟨sizeJointFeature m, w⟩

/-- An initialised `DirectionalGridCRF` (`pystruct/models/grid_crf.py` lines 83-172) behind the learner interface, with flat label
arrays as for `gridModel`. -/
def directionalGridModel (backend : Bool → Infer) (cw : Vec) (neighborhood nStates nFeatures : ℕ) : SModel Ten YVal :=
  let m := directionalModel nStates nFeatures neighborhood
  { dim := sizeJointFeature m
    jointFeature := fun t y => directionalFeature neighborhood m t y
    rescaleC := false
    jointFeatureR := fun t y _ => directionalFeature neighborhood m t y
    lossAug := fun t y w relaxed => directionalLossAug backend cw neighborhood m t y w relaxed
    inference := fun t w => okD (.discrete ⟨0, fun _ => 0⟩) (directionalInference (backend false) neighborhood m t w)
    isTuple := fun y => match y with
      | .discrete _ => false
      | .relaxed _ _ => true
    loss := fun y yhat => graphLoss cw nStates y yhat
    continuousLoss := fun y yhat => graphContinuousLoss cw nStates y yhat
    maxLoss := fun y => graphMaxLoss cw y }

end Verif.EdgeFeature
