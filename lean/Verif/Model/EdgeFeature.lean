import Verif.Model.GraphCRF
import Verif.Model.Grid

/-!
# Model of `pystruct/models/edge_feature_graph_crf.py` and of the grid models in
`pystruct/models/grid_crf.py`
-/

namespace Verif.EdgeFeature

open Finset Verif.Common Verif.GraphCRF

/-- Parameters of an `EdgeFeatureGraphCRF` after initialisation,
`pystruct/models/edge_feature_graph_crf.py` lines 58-72. -/
structure Model where
  nStates : ℕ
  nFeatures : ℕ
  nEdgeFeatures : ℕ
  sym : List ℕ
  anti : List ℕ

/-- An instance `(features, edges, edge_features)`. `pystruct/models/edge_feature_graph_crf.py`
lines 108-120. -/
structure X where
  features : Mat
  edges : Edges
  edgeFeatures : Mat

/-- `size_joint_feature`, `_set_size_joint_feature`,
`pystruct/models/edge_feature_graph_crf.py` lines 74-78 (the same formula is used by
`DirectionalGridCRF`, `pystruct/models/grid_crf.py` lines 126-130). -/
def sizeJointFeature (m : Model) : ℕ :=
  m.nStates * m.nFeatures + m.nEdgeFeatures * m.nStates ^ 2

/-- The checks of `_set_size_joint_feature`, `pystruct/models/edge_feature_graph_crf.py` lines 80-91
(run by the constructor). -/
def checkModel (m : Model) : Except PyErr Unit :=
  if ¬ ∀ i ∈ m.sym ++ m.anti, i < m.nEdgeFeatures then .error .valueError
  else if ¬ ∀ i ∈ m.sym, i ∉ m.anti then .error .valueError
  else .ok ()

/-- `_check_size_x`, `pystruct/models/edge_feature_graph_crf.py` lines 108-117. -/
def checkSizeX (m : Model) (x : X) : Except PyErr Unit :=
  if x.features.cols ≠ m.nFeatures then .error .valueError
  else if x.edges.length ≠ x.edgeFeatures.rows then .error .valueError
  else if x.edgeFeatures.cols ≠ m.nEdgeFeatures then .error .valueError
  else .ok ()

/-- `CRF._check_size_x`, `pystruct/models/crf.py` lines 48-53, the only check made by
`DirectionalGridCRF` (`pystruct/models/grid_crf.py` lines 132-133). -/
def checkFeatures (m : Model) (x : X) : Except PyErr Unit :=
  if x.features.cols ≠ m.nFeatures then .error .valueError else .ok ()

/-- `v.reshape(r, -1)`. `pystruct/models/edge_feature_graph_crf.py` lines 138-144. -/
def reshapeRows (v : Vec) (r : ℕ) : Except PyErr Mat :=
  if r = 0 then .error .valueError
  else if v.size % r ≠ 0 then .error .valueError
  else v.reshape2 r (v.size / r)

/-- `_get_pairwise_potentials`, `pystruct/models/edge_feature_graph_crf.py` lines 138-144, `check`
being the instance check of the class. -/
def pairwisePotentials (check : Model → X → Except PyErr Unit) (m : Model) (x : X) (w : Vec) :
    Except PyErr Ten := do
  checkSizeW (sizeJointFeature m) w
  check m x
  let pairwise ← reshapeRows (w.slice (m.nStates * m.nFeatures) w.size) m.nEdgeFeatures
  let p ← x.edgeFeatures.mul pairwise
  p.ravel.reshape3 x.edgeFeatures.rows m.nStates m.nStates

/-- `GraphCRF._get_unary_potentials` (inherited), `pystruct/models/graph_crf.py` lines 150-157. -/
def unaryPotentials (check : Model → X → Except PyErr Unit) (m : Model) (x : X) (w : Vec) :
    Except PyErr Mat := do
  checkSizeW (sizeJointFeature m) w
  check m x
  let unaryParams ← (w.slice 0 (m.nStates * m.nFeatures)).reshape2 m.nStates m.nFeatures
  x.features.mul unaryParams.T

/-- Pairwise indicator matrix of a discrete labelling, `pystruct/models/edge_feature_graph_crf.py`
lines 188-192. `IndexError` for edges that leave the node range (labels are already checked by the
one-hot encoding). -/
def pairIndicators (nStates nNodes : ℕ) (edges : Edges) (y : Labels) : Except PyErr Mat :=
  if ¬ ∀ e ∈ edges, e.1 < nNodes ∧ e.2 < nNodes then .error .indexError
  else .ok ⟨edges.length, nStates ^ 2, fun e k =>
    if k = y.get (edge edges e).2 + nStates * y.get (edge edges e).1 then 1 else 0⟩

/-- Unary marginals and per-edge pairwise marginals of a labelling,
`pystruct/models/edge_feature_graph_crf.py` lines 174-192. The pairwise marginals of a relaxed
labelling are an array of shape `(n_edges, n_states ** 2)` as returned by the inference functions;
here it is given flattened. -/
def marginals (nStates : ℕ) (x : X) (y : YVal) : Except PyErr (Mat × Mat) :=
  match y with
  | .relaxed u p => do
    let unaryMarginals ← u.reshape2 x.features.rows nStates
    let pw ← p.reshape2 x.edgeFeatures.rows (nStates ^ 2)
    return (unaryMarginals, pw)
  | .discrete l => do
    let unaryMarginals ← oneHot x.features.rows nStates l
    let pw ← pairIndicators nStates x.features.rows x.edges l
    return (unaryMarginals, pw)

/-- `pw[i] = (pw_ ± pw_.T).ravel() / 2.` for row `i`, `pystruct/models/edge_feature_graph_crf.py`
lines 196-197 and 200-201 (`s = ±1`). -/
def symmetriseRow (nStates : ℕ) (s : ℚ) (pw : ℕ → ℕ → ℚ) (i : ℕ) : ℕ → ℕ → ℚ := fun r k =>
  if r = i then
    (pw i (k / nStates * nStates + k % nStates) + s * pw i (k % nStates * nStates + k / nStates)) / 2
  else pw r k

/-- The two loops of `pystruct/models/edge_feature_graph_crf.py` lines 195-201. -/
def symmetrise (nStates : ℕ) (sym anti : List ℕ) (pw : ℕ → ℕ → ℚ) : ℕ → ℕ → ℚ :=
  anti.foldl (symmetriseRow nStates (-1)) (sym.foldl (symmetriseRow nStates 1) pw)

/-- `joint_feature`, `pystruct/models/edge_feature_graph_crf.py` lines 146-206. -/
def jointFeature (check : Model → X → Except PyErr Unit) (m : Model) (x : X) (y : YVal) :
    Except PyErr Vec := do
  check m x
  let (unaryMarginals, pw) ← marginals m.nStates x y
  let pw ← x.edgeFeatures.T.mul pw
  if ¬ ∀ i ∈ m.sym ++ m.anti, i < pw.rows then .error .indexError
  else do
    let unariesAcc ← unaryMarginals.T.mul x.features
    return unariesAcc.ravel.append
      (Mat.ravel ⟨pw.rows, pw.cols, symmetrise m.nStates m.sym m.anti pw.get⟩)

/-- `CRF.inference`, `pystruct/models/crf.py` lines 165-183, for a backend `inf`. -/
def inference (check : Model → X → Except PyErr Unit) (inf : Infer) (m : Model) (x : X) (w : Vec) :
    Except PyErr YVal := do
  checkSizeW (sizeJointFeature m) w
  let unary ← unaryPotentials check m x w
  let pairwise ← pairwisePotentials check m x w
  inf unary (.ten pairwise) x.edges

/-! ### grids -/

/-- `GridCRF._get_features` for an array of shape `(h, w, f)`: `x.reshape(-1, n_features)`,
`pystruct/models/grid_crf.py` lines 48-49. -/
def gridFeatures (nFeatures : ℕ) (t : Ten) : Except PyErr Mat :=
  if nFeatures = 0 then .error .valueError
  else if (t.d0 * t.d1 * t.d2) % nFeatures ≠ 0 then .error .valueError
  else t.ravel.reshape2 (t.d0 * t.d1 * t.d2 / nFeatures) nFeatures

/-- The view of a `GridCRF` instance as a `GraphCRF` instance, `pystruct/models/grid_crf.py`
lines 45-49. -/
def gridX (neighborhood nFeatures : ℕ) (t : Ten) : Except PyErr GraphCRF.X := do
  let f ← gridFeatures nFeatures t
  let e ← Grid.gridEdges t.d0 t.d1 neighborhood
  return ⟨f, e⟩

/-- Number of edge features of a `DirectionalGridCRF`, `pystruct/models/grid_crf.py` line 121. -/
def gridEdgeFeatures (neighborhood : ℕ) : ℕ := if neighborhood = 4 then 2 else 4

/-- `DirectionalGridCRF`, `pystruct/models/grid_crf.py` lines 118-124. -/
def directionalModel (nStates nFeatures neighborhood : ℕ) : Model :=
  ⟨nStates, nFeatures, gridEdgeFeatures neighborhood, [], []⟩

/-- The view of a `DirectionalGridCRF` instance as an instance with edge features,
`pystruct/models/grid_crf.py` lines 139-141 and 171-172. -/
def directionalX (neighborhood nFeatures : ℕ) (t : Ten) : Except PyErr X := do
  let f ← gridFeatures nFeatures t
  let e ← Grid.gridEdges t.d0 t.d1 neighborhood
  let l ← Grid.gridEdgeLists t.d0 t.d1 neighborhood
  return ⟨f, e, Grid.edgeListToFeatures l⟩

end Verif.EdgeFeature
