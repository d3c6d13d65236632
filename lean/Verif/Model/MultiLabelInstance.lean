import Verif.Model.Instances
import Verif.Model.MultiLabel

/-!
# `MultiLabelClf` seen through the learner interface
-/

namespace Verif.MultiLabel

open Verif.Common Verif.GraphCRF Verif.Learner

/-- `CRF.loss_augmented_inference`, `pystruct/models/crf.py` lines 108-118, of a `MultiLabelClf`, for a backend `inf`. -/
def lossAugmentedInference (inf : Infer) (cw : Vec) (m : Model) (x : Vec) (y : Labels) (w : Vec) : Except PyErr YVal := do
  checkSizeW (sizeJointFeature m) w
  let unary ← unaryPotentials m x w
  let pairwise ← pairwisePotentials m w
  let unary ← Loss.lossAugmentUnaries unary y cw
  inf unary (.ten pairwise) m.edges

/-- `joint_feature(x, y)`, `pystruct/models/multilabel_svm.py` lines 83-106, as a function on indices. -/
def multiLabelFeature (m : Model) (x : Vec) (y : YVal) : W := (okD ⟨0, fun _ => 0⟩ (jointFeature m x y)).get

/-- `loss_augmented_inference` (`pystruct/models/crf.py` lines 108-118) with a label array as true label. -/
def multiLabelLossAug (backend : Bool → Infer) (cw : Vec) (m : Model) (x : Vec) (y : YVal) (w : W) (relaxed : Bool) : YVal :=
  match y with
  | .discrete t => okD y (lossAugmentedInference (backend relaxed) cw m x t ⟨sizeJointFeature m, w⟩)
  | .relaxed _ _ => y

/-- An initialised `MultiLabelClf` (`pystruct/models/multilabel_svm.py`, `pystruct/models/crf.py`) behind the learner interface: the
true labels of a sample are a 0/1 array with one entry per label. `cw` are the class weights, of which `_set_class_weight` makes one
per label though they are indexed with the states 0 and 1. The losses are those of `pystruct/models/base.py`. Values for arguments
that raise are arbitrary. -/
def multiLabelModel (backend : Bool → Infer) (cw : Vec) (m : Model) : SModel Vec YVal where
  dim := sizeJointFeature m
  jointFeature x y := multiLabelFeature m x y
  rescaleC := false
  jointFeatureR x y _ := multiLabelFeature m x y
  lossAug x y w relaxed := multiLabelLossAug backend cw m x y w relaxed
  inference x w := okD (.discrete ⟨0, fun _ => 0⟩) (inference (backend false) m x ⟨sizeJointFeature m, w⟩)
  isTuple y := match y with
    | .discrete _ => false
    | .relaxed _ _ => true
  loss y yhat := graphLoss cw 2 y yhat
  continuousLoss y yhat := graphContinuousLoss cw 2 y yhat
  maxLoss y := graphMaxLoss cw y

end Verif.MultiLabel
