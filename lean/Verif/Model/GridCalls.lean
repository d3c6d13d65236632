import Verif.Model.LatentGrid
import Verif.Model.EdgeInstance

/-!
# The methods of `GridCRF` and `DirectionalGridCRF` on images, with their exceptions
-/

namespace Verif.GridCalls

open Verif.Common Verif.GraphCRF Verif.EdgeFeature Verif.LatentGrid

/-- `joint_feature(x, y)` of a `GridCRF` for an image of labels, `pystruct/models/graph_crf.py` lines 159-212 with
`_get_features` and `_get_edges` of `pystruct/models/grid_crf.py` lines 45-49; `y.reshape(n_nodes)` is the flat label array. -/
def jointFeature (neighborhood : ℕ) (m : GraphCRF.Model) (t : Ten) (y : Grid.NMat) : Except PyErr Vec := do
  let x ← gridX neighborhood m.nFeatures t
  GraphCRF.jointFeature m x (.discrete (flat y))

/-- `GridCRF.inference`, `pystruct/models/grid_crf.py` lines 64-67, without energy. -/
def inference (inf : Infer) (neighborhood : ℕ) (m : GraphCRF.Model) (t : Ten) (w : Vec) : Except PyErr ImageVal := do
  let x ← gridX neighborhood m.nFeatures t
  let y ← GraphCRF.inference inf m x w
  reshapeY m.nStates t.d0 t.d1 y

/-- `GridCRF.loss_augmented_inference`, `pystruct/models/grid_crf.py` lines 69-74, without energy. -/
def lossAugmentedInference (inf : Infer) (cw : Vec) (neighborhood : ℕ) (m : GraphCRF.Model) (t : Ten) (y : Grid.NMat) (w : Vec) :
    Except PyErr ImageVal := do
  let x ← gridX neighborhood m.nFeatures t
  let yhat ← GraphCRF.lossAugmentedInference inf cw m x (flat y) w
  reshapeY m.nStates t.d0 t.d1 yhat

/-- `joint_feature(x, y)` of a `DirectionalGridCRF` for an image of labels, `pystruct/models/grid_crf.py` lines 143-169. -/
def directionalJointFeature (neighborhood : ℕ) (m : EdgeFeature.Model) (t : Ten) (y : Grid.NMat) : Except PyErr Vec := do
  let x ← directionalX neighborhood m.nFeatures t
  EdgeFeature.jointFeature checkFeatures m x (.discrete (flat y))

/-- `inference` of a `DirectionalGridCRF`, `pystruct/models/grid_crf.py` lines 64-67, without energy. -/
def directionalInference (inf : Infer) (neighborhood : ℕ) (m : EdgeFeature.Model) (t : Ten) (w : Vec) : Except PyErr ImageVal := do
  let x ← directionalX neighborhood m.nFeatures t
  let y ← EdgeFeature.inference checkFeatures inf m x w
  reshapeY m.nStates t.d0 t.d1 y

/-- `loss_augmented_inference` of a `DirectionalGridCRF`, `pystruct/models/grid_crf.py` lines 69-74, without energy. -/
def directionalLossAugmentedInference (inf : Infer) (cw : Vec) (neighborhood : ℕ) (m : EdgeFeature.Model) (t : Ten) (y : Grid.NMat)
    (w : Vec) : Except PyErr ImageVal := do
  let x ← directionalX neighborhood m.nFeatures t
  let yhat ← EdgeFeature.lossAugmentedInference checkFeatures inf cw m x (flat y) w
  reshapeY m.nStates t.d0 t.d1 yhat

end Verif.GridCalls
