import Verif.Model.LatentGrid
import Verif.Model.LatentInstance
import Verif.Model.GridInstance

/-!
# `LatentGridCRF` and `LatentDirectionalGridCRF` seen through the interface of the latent learners

Samples are images, labels and latent states are images of labels and states.
-/

namespace Verif.LatentGrid

open Verif.Common Verif.GraphCRF Verif.Learner

/-- What `joint_feature` makes of states or marginals of an image: `y.reshape(n_nodes)` and
`unary_marginals.reshape(n_nodes, n_states)`, `pystruct/models/graph_crf.py` lines 189 and 193, and
`pystruct/models/edge_feature_graph_crf.py` lines 177 and 180. -/
def flatVal : ImageVal → YVal
  | .discrete a => .discrete (flat a)
  | .relaxed u p => .relaxed u.ravel p

/-- The comparison of plain outputs in `NSlackSSVM._check_bad_constraint` (`pystruct/learners/n_slack_ssvm.py` lines 209-213,
`unwrap_pairwise` in `pystruct/utils/inference.py` lines 7-11), for images: states pixel by pixel, and of tuples of marginals only
the unary marginals. Arrays of different shapes are taken to be different (broadcasting is not modelled). -/
def imageEq (a b : ImageVal) : Bool :=
  match a, b with
  | .discrete y, .discrete z => decide (y.rows = z.rows ∧ y.cols = z.cols ∧ ∀ r < y.rows, ∀ c < y.cols, y.get r c = z.get r c)
  | .relaxed u _, .relaxed v _ => decide (u.d0 = v.d0 ∧ u.d1 = v.d1 ∧ u.d2 = v.d2 ∧
      ∀ r < u.d0, ∀ c < u.d1, ∀ s < u.d2, u.get r c s = v.get r c s)
  | _, _ => false

/-- `isinstance(y, tuple)` for results of inference on images, `pystruct/models/grid_crf.py` line 55. -/
def imageTuple : ImageVal → Bool
  | .discrete _ => false
  | .relaxed _ _ => true

/-- `loss(h, h_hat)` of both classes, `pystruct/models/latent_graph_crf.py` lines 188-192. A tuple of marginals as the true
completion would raise; its value is arbitrary. -/
def imageLoss (m : LatentGraph.Model) (h hhat : ImageVal) : ℚ :=
  match h with
  | .discrete a => okD 0 (loss m a hhat)
  | .relaxed _ _ => 1

/-- `continuous_loss(h, h_hat[0])` of both classes, `pystruct/models/latent_grid_crf.py` lines 45-49, for a tuple of marginals as
`h_hat`. -/
def imageContinuousLoss (m : LatentGraph.Model) (h hhat : ImageVal) : ℚ :=
  match h, hhat with
  | .discrete a, .relaxed u _ => okD 0 (continuousLoss m a u)
  | _, _ => 1

/-- `loss_augmented_inference` of a `LatentGridCRF`, `pystruct/models/latent_grid_crf.py` lines 35-39. A tuple of marginals as the true
completion would raise (it has no `ravel`); its value is arbitrary. -/
def gridLossAug (backend : Bool → Infer) (neighborhood : ℕ) (m : LatentGraph.Model) (t : Ten) (h : ImageVal) (w : W)
    (relaxed : Bool) : ImageVal :=
  match h with
  | .discrete a => okD h (lossAugmentedInference (backend relaxed) neighborhood m t a ⟨GraphCRF.sizeJointFeature m.graph, w⟩)
  | .relaxed _ _ => h

/-- An initialised `LatentGridCRF` (`pystruct/models/latent_grid_crf.py` lines 8-49) as a structured model over images of states.
`max_loss` (`pystruct/models/base.py` lines 72-76) is called on labels only, see `latentGrid`; its value on states is arbitrary. So
are values for arguments that raise. -/
def latentGridModel (backend : Bool → Infer) (neighborhood : ℕ) (m : LatentGraph.Model) : SModel Ten ImageVal where
  dim := GraphCRF.sizeJointFeature m.graph
  jointFeature t y := EdgeFeature.gridFeature neighborhood m.graph t (flatVal y)
  rescaleC := false
  jointFeatureR t y _ := EdgeFeature.gridFeature neighborhood m.graph t (flatVal y)
  lossAug t y w relaxed := gridLossAug backend neighborhood m t y w relaxed
  inference t w := okD (.discrete ⟨0, 0, fun _ _ => 0⟩)
    (inference (backend false) neighborhood m t ⟨GraphCRF.sizeJointFeature m.graph, w⟩)
  isTuple y := imageTuple y
  loss y yhat := imageLoss m y yhat
  continuousLoss y yhat := imageContinuousLoss m y yhat
  maxLoss _ := 1

/-- `label_from_latent` of both classes (`pystruct/models/latent_graph_crf.py` lines 144-145) on what inference returns; a tuple of
marginals as index would raise, its value is arbitrary. -/
def imageLabels (m : LatentGraph.Model) (h : ImageVal) : Grid.NMat :=
  match h with
  | .discrete a => okD ⟨0, 0, fun _ _ => 0⟩ (labelFromLatent m a)
  | .relaxed _ _ => ⟨0, 0, fun _ _ => 0⟩

/-- `base_loss` on images of labels, `pystruct/models/latent_graph_crf.py` lines 203-206 (through `pystruct/models/base.py`
lines 60-66); shapes that differ would raise or broadcast. -/
def imageBaseLoss (m : LatentGraph.Model) (y yhat : Grid.NMat) : ℚ :=
  okD 0 (Loss.loss (some ⟨m.nLabels, fun _ => 1⟩) (flat y) (flat yhat))

/-- `max_loss` on an image of labels, `pystruct/models/base.py` lines 72-76. -/
def imageMaxLoss (m : LatentGraph.Model) (y : Grid.NMat) : ℚ := okD 0 (Loss.maxLoss (some ⟨m.nLabels, fun _ => 1⟩) (flat y))

/-- `init_latent` of both classes (`pystruct/models/latent_grid_crf.py` lines 25-33 and 78-86); `pred` stands for the clusterings that
it fits: `pred samples label k j` is the cluster of the `j`-th pixel with this label in sample `k`. -/
def imageInit (m : LatentGraph.Model) (pred : List (Ten × Grid.NMat) → ℕ → ℕ → ℕ → ℕ) (samples : List (Ten × Grid.NMat)) :
    List ImageVal :=
  (okD [] (initLatent m.nStatesPerLabel (samples.map Prod.snd) (pred samples))).map .discrete

/-- An initialised `LatentGridCRF` (`pystruct/models/latent_grid_crf.py` lines 8-49) behind the interface of `LatentSSVM`. Values for
arguments that raise are arbitrary. -/
def latentGrid (backend : Bool → Infer) (neighborhood : ℕ) (m : LatentGraph.Model)
    (pred : List (Ten × Grid.NMat) → ℕ → ℕ → ℕ → ℕ) : LatentSSVM.LModel Ten Grid.NMat ImageVal where
  m := latentGridModel backend neighborhood m
  initLatent samples := imageInit m pred samples
  latent t y w := .discrete (okD ⟨0, 0, fun _ _ => 0⟩
    (latent (backend false) neighborhood m t y ⟨GraphCRF.sizeJointFeature m.graph, w⟩))
  labelFromLatent h := imageLabels m h
  baseLoss y yhat := imageBaseLoss m y yhat
  maxLoss y := imageMaxLoss m y

/-- `loss_augmented_inference` of a `LatentDirectionalGridCRF`, `pystruct/models/latent_grid_crf.py` lines 88-91. A tuple of marginals
as the true completion would raise; its value is arbitrary. -/
def directionalLossAugOf (backend : Bool → Infer) (neighborhood : ℕ) (m : LatentGraph.Model) (t : Ten) (h : ImageVal) (w : W)
    (relaxed : Bool) : ImageVal :=
  match h with
  | .discrete a => okD h (directionalLossAug (backend relaxed) neighborhood m t a
      ⟨EdgeFeature.sizeJointFeature (directional neighborhood m), w⟩)
  | .relaxed _ _ => h

/-- An initialised `LatentDirectionalGridCRF` (`pystruct/models/latent_grid_crf.py` lines 52-91) as a structured model over images of
states; arbitrary values as for `latentGridModel`. -/
def latentDirectionalModel (backend : Bool → Infer) (neighborhood : ℕ) (m : LatentGraph.Model) : SModel Ten ImageVal where
  dim := EdgeFeature.sizeJointFeature (directional neighborhood m)
  jointFeature t y := EdgeFeature.directionalFeature neighborhood (directional neighborhood m) t (flatVal y)
  rescaleC := false
  jointFeatureR t y _ := EdgeFeature.directionalFeature neighborhood (directional neighborhood m) t (flatVal y)
  lossAug t y w relaxed := directionalLossAugOf backend neighborhood m t y w relaxed
  inference t w := okD (.discrete ⟨0, 0, fun _ _ => 0⟩)
    (directionalInference (backend false) neighborhood m t ⟨EdgeFeature.sizeJointFeature (directional neighborhood m), w⟩)
  isTuple y := imageTuple y
  loss y yhat := imageLoss m y yhat
  continuousLoss y yhat := imageContinuousLoss m y yhat
  maxLoss _ := 1

/-- An initialised `LatentDirectionalGridCRF` (`pystruct/models/latent_grid_crf.py` lines 52-91) behind the interface of
`LatentSSVM`. -/
def latentDirectional (backend : Bool → Infer) (neighborhood : ℕ) (m : LatentGraph.Model)
    (pred : List (Ten × Grid.NMat) → ℕ → ℕ → ℕ → ℕ) : LatentSSVM.LModel Ten Grid.NMat ImageVal where
  m := latentDirectionalModel backend neighborhood m
  initLatent samples := imageInit m pred samples
  latent t y w := .discrete (okD ⟨0, 0, fun _ _ => 0⟩
    (directionalLatent (backend false) neighborhood m t y ⟨EdgeFeature.sizeJointFeature (directional neighborhood m), w⟩))
  labelFromLatent h := imageLabels m h
  baseLoss y yhat := imageBaseLoss m y yhat
  maxLoss y := imageMaxLoss m y

end Verif.LatentGrid
