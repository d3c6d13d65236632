import Verif.Model.Instances
import Verif.Model.LatentNodeInit
import Verif.Model.LatentSSVM

/-!
# `LatentNodeCRF` and `EdgeFeatureLatentNodeCRF` seen through the interface of the latent learners
-/

namespace Verif.Learner

open Verif.Common

/-- `continuous_loss(h, h_hat[0])` of a model with hidden nodes, `pystruct/models/latent_node_crf.py` lines 260-265 and 560-565, for a
tuple of marginals whose first component has one row of length `n_states` per node. Values for arguments that raise are
arbitrary. -/
def nodeContinuousLoss (nLabels nStates : ℕ) (cw : Vec) (h hhat : YVal) : ℚ :=
  match h, hhat with
  | .discrete t, .relaxed u _ => okD 0 (LatentNode.continuousLoss nLabels cw t
      ⟨u.size / nStates, nStates, fun i s => u.get (i * nStates + s)⟩)
  | _, _ => 1

/-- `loss(h, h_hat)` of a model with hidden nodes, `pystruct/models/latent_node_crf.py` lines 249-253 and 549-553. -/
def nodeLoss (nLabels nStates : ℕ) (cw : Vec) (h hhat : YVal) : ℚ :=
  match h, hhat with
  | .discrete t, .discrete g => okD 0 (LatentNode.loss nLabels cw t g)
  | h, hhat => nodeContinuousLoss nLabels nStates cw h hhat

/-- `max_loss(h)` of a model with hidden nodes, `pystruct/models/latent_node_crf.py` lines 325-329 and 636-642. -/
def nodeMaxLoss (nLabels : ℕ) (cw : Vec) (h : YVal) : ℚ :=
  match h with
  | .discrete t => okD 0 (LatentNode.maxLoss nLabels cw t)
  | .relaxed _ _ => 1

/-- `label_from_latent` of a model with hidden nodes, `pystruct/models/latent_node_crf.py` lines 246-247 and 546-547, on what inference
returns; a tuple of marginals would raise, its value is arbitrary. -/
def nodeLabels (nLabels : ℕ) (h : YVal) : Labels :=
  match h with
  | .discrete t => LatentNode.labelFromLatent nLabels t
  | .relaxed _ _ => ⟨0, fun _ => 0⟩

/-- `isinstance(y, tuple)`, `pystruct/utils/inference.py` line 77. -/
def nodeTuple (y : YVal) : Bool :=
  match y with
  | .discrete _ => false
  | .relaxed _ _ => true

/-! ### `LatentNodeCRF` -/

/-- `CRF.inference` of a `LatentNodeCRF`, `pystruct/models/crf.py` lines 165-183, for a backend `inf`. -/
def nodeInference (inf : GraphCRF.Infer) (m : LatentNode.Model) (x : LatentNode.X) (w : Vec) : Except PyErr YVal := do
  GraphCRF.checkSizeW (LatentNode.sizeJointFeature m) w
  let unary ← LatentNode.unaryPotentials m x w
  let pairwise ← LatentNode.pairwisePotentials m x w
  inf unary (.mat pairwise) x.edges

/-- `loss_augmented_inference` of a `LatentNodeCRF`, `pystruct/models/latent_node_crf.py` lines 213-230. A tuple of marginals as the
true completion would raise; its value is arbitrary. -/
def nodeLossAug (backend : Bool → GraphCRF.Infer) (cw : Vec) (m : LatentNode.Model) (x : LatentNode.X) (h : YVal) (w : W)
    (relaxed : Bool) : YVal :=
  match h with
  | .discrete t => okD h (LatentNode.lossAugmentedInference (backend relaxed) cw m x t ⟨LatentNode.sizeJointFeature m, w⟩)
  | .relaxed _ _ => h

/-- An initialised `LatentNodeCRF` (`pystruct/models/latent_node_crf.py` lines 68-329) as a structured model over labellings of all
nodes, as base learners see it. Values for arguments that raise are arbitrary. -/
def latentNodeModel (backend : Bool → GraphCRF.Infer) (cw : Vec) (m : LatentNode.Model) : SModel LatentNode.X YVal where
  dim := LatentNode.sizeJointFeature m
  jointFeature x y := (okD ⟨0, fun _ => 0⟩ (LatentNode.jointFeature m x y)).get
  rescaleC := false
  jointFeatureR x y _ := (okD ⟨0, fun _ => 0⟩ (LatentNode.jointFeature m x y)).get
  lossAug x y w relaxed := nodeLossAug backend cw m x y w relaxed
  inference x w := okD (.discrete ⟨0, fun _ => 0⟩) (nodeInference (backend false) m x ⟨LatentNode.sizeJointFeature m, w⟩)
  isTuple := nodeTuple
  loss y yhat := nodeLoss m.nLabels m.nStates cw y yhat
  continuousLoss y yhat := nodeContinuousLoss m.nLabels m.nStates cw y yhat
  maxLoss y := nodeMaxLoss m.nLabels cw y

/-- An initialised `LatentNodeCRF` (`pystruct/models/latent_node_crf.py` lines 68-329) behind the interface of `LatentSSVM`: samples are
labelled with label arrays of the visible nodes, completions are labellings of all nodes. `km` is scikit-learn's `KMeans`, used by
`init_latent` (lines 319-323). `base_loss` (lines 255-258) is applied to label arrays only. Values for arguments that raise are
arbitrary. -/
def latentNode (backend : Bool → GraphCRF.Infer) (cw : Vec) (m : LatentNode.Model) (km : LatentNode.KMeans) :
    LatentSSVM.LModel LatentNode.X Labels YVal where
  m := latentNodeModel backend cw m
  initLatent samples := (okD [] (LatentNode.initLatent km m.nLabels m.nHiddenStates m.latentFeatures
    (samples.map fun d => d.1.sample d.2))).map .discrete
  latent x y w := .discrete (okD ⟨0, fun _ => 0⟩ (LatentNode.latent (backend false) m x y ⟨LatentNode.sizeJointFeature m, w⟩))
  labelFromLatent h := nodeLabels m.nLabels h
  baseLoss y yhat := okD 0 (Loss.loss (some cw) y yhat)
  maxLoss y := okD 0 (LatentNode.maxLoss m.nLabels cw y)

/-! ### `EdgeFeatureLatentNodeCRF` -/

/-- `CRF.inference` of an `EdgeFeatureLatentNodeCRF`, `pystruct/models/crf.py` lines 165-183, for a backend `inf`. -/
def edgeNodeInference (inf : GraphCRF.Infer) (m : LatentNode.EModel) (x : LatentNode.EX) (w : Vec) : Except PyErr YVal := do
  GraphCRF.checkSizeW (LatentNode.eSize m) w
  let unary ← LatentNode.eUnary m x w
  let pairwise ← LatentNode.ePairwise m x w
  inf unary (.ten pairwise) x.edges

/-- `loss_augmented_inference` of an `EdgeFeatureLatentNodeCRF`, `pystruct/models/latent_node_crf.py` lines 513-530. A tuple of marginals
as the true completion would raise; its value is arbitrary. -/
def edgeNodeLossAug (backend : Bool → GraphCRF.Infer) (cw : Vec) (m : LatentNode.EModel) (x : LatentNode.EX) (h : YVal) (w : W)
    (relaxed : Bool) : YVal :=
  match h with
  | .discrete t => okD h (LatentNode.eLossAugmentedInference (backend relaxed) cw m x t ⟨LatentNode.eSize m, w⟩)
  | .relaxed _ _ => h

/-- An initialised `EdgeFeatureLatentNodeCRF` (`pystruct/models/latent_node_crf.py` lines 332-642) as a structured model over labellings
of all nodes, as base learners see it. Values for arguments that raise are arbitrary. -/
def edgeLatentNodeModel (backend : Bool → GraphCRF.Infer) (cw : Vec) (m : LatentNode.EModel) : SModel LatentNode.EX YVal where
  dim := LatentNode.eSize m
  jointFeature x y := (okD ⟨0, fun _ => 0⟩ (LatentNode.eJointFeature m x y)).get
  rescaleC := false
  jointFeatureR x y _ := (okD ⟨0, fun _ => 0⟩ (LatentNode.eJointFeature m x y)).get
  lossAug x y w relaxed := edgeNodeLossAug backend cw m x y w relaxed
  inference x w := okD (.discrete ⟨0, fun _ => 0⟩) (edgeNodeInference (backend false) m x ⟨LatentNode.eSize m, w⟩)
  isTuple := nodeTuple
  loss y yhat := nodeLoss m.base.nLabels m.base.nStates cw y yhat
  continuousLoss y yhat := nodeContinuousLoss m.base.nLabels m.base.nStates cw y yhat
  maxLoss y := nodeMaxLoss m.base.nLabels cw y

/-- An initialised `EdgeFeatureLatentNodeCRF` (`pystruct/models/latent_node_crf.py` lines 332-642) behind the interface of `LatentSSVM`.
`init_latent` is in lines 630-634, `base_loss` (lines 555-558) is applied to label arrays only. Values for arguments that raise are
arbitrary. -/
def edgeLatentNode (backend : Bool → GraphCRF.Infer) (cw : Vec) (m : LatentNode.EModel) (km : LatentNode.KMeans) :
    LatentSSVM.LModel LatentNode.EX Labels YVal where
  m := edgeLatentNodeModel backend cw m
  initLatent samples := (okD [] (LatentNode.initLatent km m.base.nLabels m.base.nHiddenStates m.base.latentFeatures
    (samples.map fun d => d.1.sample d.2))).map .discrete
  latent x y w := .discrete (okD ⟨0, fun _ => 0⟩ (LatentNode.eLatent (backend false) m x y ⟨LatentNode.eSize m, w⟩))
  labelFromLatent h := nodeLabels m.base.nLabels h
  baseLoss y yhat := okD 0 (Loss.loss (some cw) y yhat)
  maxLoss y := okD 0 (LatentNode.maxLoss m.base.nLabels cw y)

end Verif.Learner
