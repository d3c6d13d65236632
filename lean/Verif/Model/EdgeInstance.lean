import Verif.Model.Instances
import Verif.Model.EdgeFeature

/-!
# `EdgeFeatureGraphCRF` seen through the learner interface
-/

namespace Verif.EdgeFeature

open Verif.Common Verif.GraphCRF Verif.Learner

/-- `CRF.loss_augmented_inference`, `pystruct/models/crf.py` lines 108-118, of a model with edge features, for a backend `inf`. -/
def lossAugmentedInference (check : Model → X → Except PyErr Unit) (inf : Infer) (cw : Vec) (m : Model) (x : X) (y : Labels)
    (w : Vec) : Except PyErr YVal := do
  checkSizeW (sizeJointFeature m) w
  let unary ← unaryPotentials check m x w
  let pairwise ← pairwisePotentials check m x w
  let unary ← Loss.lossAugmentUnaries unary y cw
  inf unary (.ten pairwise) x.edges

/-- `joint_feature(x, y)`, `pystruct/models/edge_feature_graph_crf.py` lines 146-206, as a function on indices. -/
def edgeFeature (m : Model) (x : X) (y : YVal) : W := (okD ⟨0, fun _ => 0⟩ (jointFeature checkSizeX m x y)).get

/-- `loss_augmented_inference` (`pystruct/models/crf.py` lines 108-118) with a label array as true label. -/
def edgeLossAug (backend : Bool → Infer) (cw : Vec) (m : Model) (x : X) (y : YVal) (w : W) (relaxed : Bool) : YVal :=
  match y with
  | .discrete t => okD y (lossAugmentedInference checkSizeX (backend relaxed) cw m x t ⟨sizeJointFeature m, w⟩)
  | .relaxed _ _ => y

/-- An initialised `EdgeFeatureGraphCRF` (`pystruct/models/edge_feature_graph_crf.py`, `pystruct/models/crf.py`) behind the learner
interface. `backend relaxed` is the inference method called with that value of `relaxed`; `cw` are the class weights; the losses are
those of `pystruct/models/base.py`, shared with `GraphCRF`. Values for arguments that raise are arbitrary. -/
def edgeModel (backend : Bool → Infer) (cw : Vec) (m : Model) : SModel X YVal where
  dim := sizeJointFeature m
  jointFeature x y := edgeFeature m x y
  rescaleC := false
  jointFeatureR x y _ := edgeFeature m x y
  lossAug x y w relaxed := edgeLossAug backend cw m x y w relaxed
  inference x w := okD (.discrete ⟨0, fun _ => 0⟩) (inference checkSizeX (backend false) m x ⟨sizeJointFeature m, w⟩)
  isTuple y := match y with
    | .discrete _ => false
    | .relaxed _ _ => true
  loss y yhat := graphLoss cw m.nStates y yhat
  continuousLoss y yhat := graphContinuousLoss cw m.nStates y yhat
  maxLoss y := graphMaxLoss cw y

end Verif.EdgeFeature
