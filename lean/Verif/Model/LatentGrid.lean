import Verif.Model.LatentGraph
import Verif.Model.EdgeFeature

/-!
# Model of `pystruct/models/latent_grid_crf.py`

Images are arrays of shape `(height, width, n_features)`, labels and latent states of an image arrays of shape `(height, width)`.
-/

namespace Verif.LatentGrid

open Verif.Common Verif.GraphCRF Verif.LatentGraph

/-- `a.ravel()` of a two-dimensional integer array, row-major. `pystruct/models/latent_grid_crf.py` lines 37, 42 and 49. -/
def flat (a : Grid.NMat) : Labels := ⟨a.rows * a.cols, fun i => a.get (i / a.cols) (i % a.cols)⟩

/-- `v.reshape(h, w)` of a one-dimensional integer array: `ValueError` for another number of entries.
`pystruct/models/latent_grid_crf.py` line 43, `pystruct/models/grid_crf.py` line 58. -/
def toImage (h w : ℕ) (v : Labels) : Except PyErr Grid.NMat :=
  if v.size ≠ h * w then .error .valueError else .ok ⟨h, w, fun r c => v.get (r * w + c)⟩

/-- Results of inference on an image: labels, or the pair of unary marginals of shape `(height, width, n_states)` and pairwise
marginals. `pystruct/models/grid_crf.py` lines 51-62. -/
inductive ImageVal where
  | discrete (a : Grid.NMat)
  | relaxed (u : Ten) (p : Vec)

/-- `_reshape_y` without energy, `pystruct/models/grid_crf.py` lines 51-62, for an image of height `h` and width `w`; the unary
marginals of a relaxed result have shape `(n_nodes, n_states)`. -/
def reshapeY (nStates h w : ℕ) : YVal → Except PyErr ImageVal
  | .relaxed u p =>
    if u.size ≠ h * w * nStates then .error .valueError
    else .ok (.relaxed ⟨h, w, nStates, fun r c s => u.get ((r * w + c) * nStates + s)⟩ p)
  | .discrete y =>
    match toImage h w y with
    | .error err => .error err
    | .ok a => .ok (.discrete a)

/-- `LatentGridCRF.loss_augmented_inference`, `pystruct/models/latent_grid_crf.py` lines 35-39, without energy. -/
def lossAugmentedInference (inf : Infer) (neighborhood : ℕ) (m : LatentGraph.Model) (t : Ten) (h : Grid.NMat) (w : Vec) :
    Except PyErr ImageVal := do
  let x ← EdgeFeature.gridX neighborhood m.nFeatures t
  let y ← LatentGraph.lossAugmentedInference inf m x (flat h) w
  reshapeY m.nStates t.d0 t.d1 y

/-- `GridCRF.inference` of a `LatentGridCRF`, `pystruct/models/grid_crf.py` lines 64-67, without energy. -/
def inference (inf : Infer) (neighborhood : ℕ) (m : LatentGraph.Model) (t : Ten) (w : Vec) : Except PyErr ImageVal := do
  let x ← EdgeFeature.gridX neighborhood m.nFeatures t
  let y ← GraphCRF.inference inf m.graph x w
  reshapeY m.nStates t.d0 t.d1 y

/-- `LatentGridCRF.latent`, `pystruct/models/latent_grid_crf.py` lines 41-43. -/
def latent (inf : Infer) (neighborhood : ℕ) (m : LatentGraph.Model) (t : Ten) (y : Grid.NMat) (w : Vec) :
    Except PyErr Grid.NMat := do
  let x ← EdgeFeature.gridX neighborhood m.nFeatures t
  let h ← LatentGraph.latent inf m x (flat y) w
  toImage y.rows y.cols h

/-- `label_from_latent` on an image of states, `pystruct/models/latent_graph_crf.py` lines 144-145: `IndexError` for states that do
not exist. -/
def labelFromLatent (m : LatentGraph.Model) (h : Grid.NMat) : Except PyErr Grid.NMat :=
  if ¬ ∀ r < h.rows, ∀ c < h.cols, h.get r c < m.nStates then .error .indexError
  else .ok ⟨h.rows, h.cols, fun r c => (statesMap m.nStatesPerLabel).get (h.get r c)⟩

/-- `LatentGridCRF.continuous_loss`, `pystruct/models/latent_grid_crf.py` lines 45-49. -/
def continuousLoss (m : LatentGraph.Model) (y : Grid.NMat) (yhat : Ten) : Except PyErr ℚ :=
  LatentGraph.continuousLoss m (flat y) ⟨yhat.d0 * yhat.d1, yhat.d2, fun i s => yhat.get (i / yhat.d1) (i % yhat.d1) s⟩

/-- `LatentGraphCRF.loss` on images, `pystruct/models/latent_graph_crf.py` lines 188-192; the loss of discrete labels
(`pystruct/models/base.py` lines 60-66) is an elementwise comparison and a sum over all pixels. Shapes that differ give a
`ValueError` (simplification: shapes with ones would be broadcast). -/
def loss (m : LatentGraph.Model) (h : Grid.NMat) : ImageVal → Except PyErr ℚ
  | .relaxed u _ => continuousLoss m h u
  | .discrete hhat => do
    let a ← labelFromLatent m h
    let b ← labelFromLatent m hhat
    if a.rows ≠ b.rows ∨ a.cols ≠ b.cols then .error .valueError
    else Loss.loss (some ⟨m.nLabels, fun _ => 1⟩) (flat a) (flat b)

/-- `init_latent` of both classes, `pystruct/models/latent_grid_crf.py` lines 25-33 and 78-86, for arrays of images of one size: the
completions of the flat label arrays, in the shape of the label arrays. The clusterings are parameters as in
`LatentGraph.kmeansInit`; the classes differ in the features that are clustered. -/
def initLatent (n : List ℕ) (Y : List Grid.NMat) (pred : ℕ → ℕ → ℕ → ℕ) : Except PyErr (List Grid.NMat) := do
  let H ← kmeansInit n (Y.map flat) pred
  (Y.zip H).mapM fun p => toImage p.1.rows p.1.cols p.2

/-! ### LatentDirectionalGridCRF -/

/-- What `LatentGraphCRF.loss_augmented_inference` does with the potentials, `pystruct/models/latent_graph_crf.py` lines 160-170. -/
def augmentedCall (inf : Infer) (m : LatentGraph.Model) (U : Mat) (P : Pairwise) (edges : Edges) (h : Labels) :
    Except PyErr YVal := do
  let U ← augment m U h
  inf U P edges

/-- What `LatentGraphCRF.latent` does with the potentials, `pystruct/models/latent_graph_crf.py` lines 174-186 (simplifications as in
`LatentGraph.latent`). -/
def maskedCall (inf : Infer) (m : LatentGraph.Model) (U : Mat) (P : Pairwise) (edges : Edges) (y : Labels) :
    Except PyErr Labels := do
  let U ← maskedUnaries m U y
  match ← inf U P edges with
  | .relaxed _ _ => .error .indexError
  | .discrete h =>
    let lab ← LatentGraph.labelFromLatent m h
    if lab.size ≠ y.size then .error .valueError
    else if ∃ i, i < y.size ∧ lab.get i ≠ y.get i then firstStates m y
    else .ok h

/-- The `DirectionalGridCRF` over latent states, `pystruct/models/latent_grid_crf.py` lines 62-73. -/
def directional (neighborhood : ℕ) (m : LatentGraph.Model) : EdgeFeature.Model :=
  EdgeFeature.directionalModel m.nStates m.nFeatures neighborhood

/-- `LatentDirectionalGridCRF.loss_augmented_inference`, `pystruct/models/latent_grid_crf.py` lines 88-91: the one of `LatentGridCRF`
(lines 35-39) and of `LatentGraphCRF` (`pystruct/models/latent_graph_crf.py` lines 154-170) with the potentials of
`DirectionalGridCRF`. -/
def directionalLossAug (inf : Infer) (neighborhood : ℕ) (m : LatentGraph.Model) (t : Ten) (h : Grid.NMat) (w : Vec) :
    Except PyErr ImageVal := do
  let x ← EdgeFeature.directionalX neighborhood m.nFeatures t
  checkSizeW (EdgeFeature.sizeJointFeature (directional neighborhood m)) w
  let U ← EdgeFeature.unaryPotentials EdgeFeature.checkFeatures (directional neighborhood m) x w
  let P ← EdgeFeature.pairwisePotentials EdgeFeature.checkFeatures (directional neighborhood m) x w
  let y ← augmentedCall inf m U (.ten P) x.edges (flat h)
  reshapeY m.nStates t.d0 t.d1 y

/-- `latent` of a `LatentDirectionalGridCRF`: that of `LatentGridCRF`, `pystruct/models/latent_grid_crf.py` lines 41-43, with the
potentials of `DirectionalGridCRF`. -/
def directionalLatent (inf : Infer) (neighborhood : ℕ) (m : LatentGraph.Model) (t : Ten) (y : Grid.NMat) (w : Vec) :
    Except PyErr Grid.NMat := do
  let x ← EdgeFeature.directionalX neighborhood m.nFeatures t
  let U ← EdgeFeature.unaryPotentials EdgeFeature.checkFeatures (directional neighborhood m) x w
  let P ← EdgeFeature.pairwisePotentials EdgeFeature.checkFeatures (directional neighborhood m) x w
  let h ← maskedCall inf m U (.ten P) x.edges (flat y)
  toImage y.rows y.cols h

/-- `inference` of a `LatentDirectionalGridCRF`: that of `GridCRF`, `pystruct/models/grid_crf.py` lines 64-67. -/
def directionalInference (inf : Infer) (neighborhood : ℕ) (m : LatentGraph.Model) (t : Ten) (w : Vec) : Except PyErr ImageVal := do
  let x ← EdgeFeature.directionalX neighborhood m.nFeatures t
  let y ← EdgeFeature.inference EdgeFeature.checkFeatures inf (directional neighborhood m) x w
  reshapeY m.nStates t.d0 t.d1 y

end Verif.LatentGrid
