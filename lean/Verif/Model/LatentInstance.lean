import Verif.Model.Instances
import Verif.Model.LatentGraph
import Verif.Model.LatentSSVM

/-!
# `LatentGraphCRF` seen through the interface of the latent learners
-/

namespace Verif.Learner

open Verif.Common

/-- `loss_augmented_inference` of a `LatentGraphCRF`, `pystruct/models/latent_graph_crf.py` lines 154-170. A tuple of marginals
as the true completion would raise; its value is arbitrary. -/
def latentGraphLossAug (backend : Bool → GraphCRF.Infer) (m : LatentGraph.Model) (x : GraphCRF.X) (h : YVal) (w : W)
    (relaxed : Bool) : YVal :=
  match h with
  | .discrete t => okD h (LatentGraph.lossAugmentedInference (backend relaxed) m x t ⟨GraphCRF.sizeJointFeature m.graph, w⟩)
  | .relaxed _ _ => h

/-- `continuous_loss(h, h_hat[0])` of a `LatentGraphCRF`, `pystruct/models/latent_graph_crf.py` lines 194-201, for a tuple of
marginals whose first component has one row of length `n_states` per node. -/
def latentGraphContinuousLoss (m : LatentGraph.Model) (h hhat : YVal) : ℚ :=
  match h, hhat with
  | .discrete t, .relaxed u _ => okD 0 (LatentGraph.continuousLoss m t
      ⟨u.size / m.nStates, m.nStates, fun i s => u.get (i * m.nStates + s)⟩)
  | _, _ => 1

/-- `loss(h, h_hat)` of a `LatentGraphCRF`, `pystruct/models/latent_graph_crf.py` lines 188-192. -/
def latentGraphLoss (m : LatentGraph.Model) (h hhat : YVal) : ℚ :=
  match h, hhat with
  | .discrete t, .discrete g => okD 0 (LatentGraph.loss m t g)
  | h, hhat => latentGraphContinuousLoss m h hhat

/-- An initialised `LatentGraphCRF` (`pystruct/models/latent_graph_crf.py` lines 60-206) as a structured model over latent
labellings, as base learners see it. `max_loss` (`pystruct/models/base.py` lines 72-76) is called on labels only, see
`latentGraph`; its value on latent labellings is arbitrary. So are values for arguments that raise. -/
def latentGraphModel (backend : Bool → GraphCRF.Infer) (m : LatentGraph.Model) : SModel GraphCRF.X YVal where
  dim := GraphCRF.sizeJointFeature m.graph
  jointFeature x y := graphFeature m.graph x y
  rescaleC := false
  jointFeatureR x y _ := graphFeature m.graph x y
  lossAug x y w relaxed := latentGraphLossAug backend m x y w relaxed
  inference x w := okD (.discrete ⟨0, fun _ => 0⟩)
    (GraphCRF.inference (backend false) m.graph x ⟨GraphCRF.sizeJointFeature m.graph, w⟩)
  isTuple y := match y with
    | .discrete _ => false
    | .relaxed _ _ => true
  loss y yhat := latentGraphLoss m y yhat
  continuousLoss y yhat := latentGraphContinuousLoss m y yhat
  maxLoss _ := 1

/-- `label_from_latent` of a `LatentGraphCRF` (`pystruct/models/latent_graph_crf.py` lines 144-145) on what inference returns; a
tuple of marginals as index would raise, its value is arbitrary. -/
def latentGraphLabels (m : LatentGraph.Model) (h : YVal) : Labels :=
  match h with
  | .discrete t => okD ⟨0, fun _ => 0⟩ (LatentGraph.labelFromLatent m t)
  | .relaxed _ _ => ⟨0, fun _ => 0⟩

/-- An initialised `LatentGraphCRF` (`pystruct/models/latent_graph_crf.py` lines 60-206) behind the interface of `LatentSSVM`:
samples are labelled with label arrays, completions are labellings with latent states. `pred` stands for the clusterings that
`init_latent` fits (lines 147-152): `pred samples label k j` is the cluster of the `j`-th node with this label in sample `k`.
Values for arguments that raise are arbitrary. -/
def latentGraph (backend : Bool → GraphCRF.Infer) (m : LatentGraph.Model)
    (pred : List (GraphCRF.X × Labels) → ℕ → ℕ → ℕ → ℕ) : LatentSSVM.LModel GraphCRF.X Labels YVal where
  m := latentGraphModel backend m
  initLatent samples := (okD [] (LatentGraph.kmeansInit m.nStatesPerLabel (samples.map Prod.snd) (pred samples))).map .discrete
  latent x y w := .discrete (okD ⟨0, fun _ => 0⟩
    (LatentGraph.latent (backend false) m x y ⟨GraphCRF.sizeJointFeature m.graph, w⟩))
  labelFromLatent h := latentGraphLabels m h
  baseLoss y yhat := okD 0 (Loss.loss (some ⟨m.nLabels, fun _ => 1⟩) y yhat)
  maxLoss y := okD 0 (Loss.maxLoss (some ⟨m.nLabels, fun _ => 1⟩) y)

end Verif.Learner
