import Verif.Model.LatentInstance
import Verif.Model.SubgradientLatent

/-!
# `LatentGraphCRF` as `SubgradientLatentSSVM` sees it
-/

namespace Verif.Learner

open Verif.Common

/-- An initialised `LatentGraphCRF` behind the interface of `SubgradientLatentSSVM`. `model.loss(y, h_hat)` with a label array
`y` (`pystruct/utils/inference.py` line 99) is `loss` of `pystruct/models/latent_graph_crf.py` lines 188-192, which maps its first
argument through `label_from_latent` as if it were a latent labelling. -/
def latentGraphSL (backend : Bool → GraphCRF.Infer) (m : LatentGraph.Model)
    (pred : List (GraphCRF.X × Labels) → ℕ → ℕ → ℕ → ℕ) : SubgradientLatent.SLModel GraphCRF.X Labels YVal :=
  { latentGraph backend m pred with lossLabel := fun y h => latentGraphLoss m (.discrete y) h }

end Verif.Learner
