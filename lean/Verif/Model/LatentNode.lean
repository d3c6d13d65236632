import Verif.Model.GraphCRF
import Verif.Model.EdgeFeature
import Verif.Model.LatentGraph

/-!
# Model of `pystruct/models/latent_node_crf.py`
-/

namespace Verif.LatentNode

open Finset Verif.Common Verif.GraphCRF

/-- Parameters of a `LatentNodeCRF` after initialisation, `pystruct/models/latent_node_crf.py` lines
105-150. -/
structure Model where
  nLabels : ℕ
  nHiddenStates : ℕ
  nFeatures : ℕ
  latentFeatures : Bool

/-- `n_states`, `pystruct/models/latent_node_crf.py` line 111. -/
def Model.nStates (m : Model) : ℕ := m.nHiddenStates + m.nLabels

/-- `n_input_states`, `pystruct/models/latent_node_crf.py` lines 126-129. -/
def Model.nInput (m : Model) : ℕ := if m.latentFeatures then m.nStates else m.nLabels

/-- An instance `(features, edges, n_hidden)`. `pystruct/models/latent_node_crf.py` lines 190-200.
-/
structure X where
  features : Mat
  edges : Edges
  nHidden : ℕ

/-- `size_joint_feature`, `pystruct/models/latent_node_crf.py` lines 131-132. -/
def sizeJointFeature (m : Model) : ℕ :=
  m.nInput * m.nFeatures + m.nStates * (m.nStates + 1) / 2

/-- `_check_size_x`, `pystruct/models/crf.py` lines 48-53. -/
def checkSizeX (m : Model) (x : X) : Except PyErr Unit :=
  if x.features.cols ≠ m.nFeatures then .error .valueError else .ok ()

/-- `_get_pairwise_potentials`, `pystruct/models/latent_node_crf.py` lines 152-170. -/
def pairwisePotentials (m : Model) (x : X) (w : Vec) : Except PyErr Mat := do
  checkSizeW (sizeJointFeature m) w
  checkSizeX m x
  Sym.expandSym (w.slice (m.nInput * m.nFeatures) w.size)

/-- End position of the slice `[:n_visible]` of an array with `rows` rows, where `n_visible` is
`rows - n_hidden` and may be negative. `pystruct/models/latent_node_crf.py` lines 197-210. -/
def visibleStop (rows nHidden : ℕ) : ℕ :=
  if nHidden ≤ rows then rows - nHidden else rows - (nHidden - rows)

/-- `pystruct/models/latent_node_crf.py` lines 206-210: states of the wrong kind are given the score
`-1e2 * max_entry`. `np.max` of an empty array raises `ValueError`. -/
def forbid (nLabels nVisible : ℕ) (U : Mat) : Except PyErr Mat :=
  if U.rows * U.cols = 0 then .error .valueError
  else
    let maxEntry := max (LatentGraph.matMax U) 1
    .ok ⟨U.rows, U.cols, fun i s =>
      if i < nVisible then (if nLabels ≤ s then -100 * maxEntry else U.get i s)
      else if s < nLabels then -100 * maxEntry else U.get i s⟩

/-- `pystruct/models/latent_node_crf.py` lines 191-211 (shared with `EdgeFeatureLatentNodeCRF`,
lines 492-511): unary potentials of all nodes from the features and the unary parameters. -/
def unaryCore (m : Model) (features : Mat) (nHidden : ℕ) (params : Mat) : Except PyErr Mat := do
  let obs ← features.mul params.T
  if m.latentFeatures then forbid m.nLabels (visibleStop features.rows nHidden) obs
  else forbid m.nLabels features.rows ⟨features.rows + nHidden, m.nStates, fun i s =>
    if i < features.rows ∧ s < m.nLabels then obs.get i s else 0⟩

/-- `_get_unary_potentials`, `pystruct/models/latent_node_crf.py` lines 172-211. -/
def unaryPotentials (m : Model) (x : X) (w : Vec) : Except PyErr Mat := do
  checkSizeW (sizeJointFeature m) w
  checkSizeX m x
  let params ← (w.slice 0 (m.nInput * m.nFeatures)).reshape2 m.nInput m.nFeatures
  unaryCore m x.features x.nHidden params

/-- `label_from_latent`, `pystruct/models/latent_node_crf.py` lines 246-247 and
546-547: `h[h < n_labels]`. -/
def labelFromLatent (nLabels : ℕ) (h : Labels) : Labels :=
  let l := ((List.range h.size).filter fun i => h.get i < nLabels).map h.get
  ⟨l.length, fun i => l.getD i 0⟩

/-- The augmentation loop of `loss_augmented_inference`, `pystruct/models/latent_node_crf.py` lines
220-226: for every state the nodes with a different label get their class weight added. `IndexError`
if there are more labels than nodes or too few class weights. -/
def augment (nLabels nStates : ℕ) (cw : Vec) (U : Mat) (h : Labels) : Except PyErr Mat :=
  let lab := labelFromLatent nLabels h
  if ¬ ∀ i < lab.size, lab.get i < cw.size then .error .indexError
  else if U.rows < lab.size then .error .indexError
  else .ok ⟨U.rows, U.cols, (List.range nStates).foldl
    (fun u l => fun i s =>
      if s = l ∧ i < lab.size ∧ lab.get i ≠ l then u i s + cw.get (lab.get i) else u i s) U.get⟩

/-- `loss_augmented_inference`, `pystruct/models/latent_node_crf.py` lines 213-230, for a backend
`inf`. -/
def lossAugmentedInference (inf : Infer) (cw : Vec) (m : Model) (x : X) (h : Labels) (w : Vec) :
    Except PyErr YVal := do
  checkSizeW (sizeJointFeature m) w
  let unary ← unaryPotentials m x w
  let pairwise ← pairwisePotentials m x w
  let unary ← augment m.nLabels m.nStates cw unary h
  inf unary (.mat pairwise) x.edges

/-- `pystruct/models/latent_node_crf.py` lines 233-236: the given labels get the score `1e2 *
max_entry`. `ValueError` for an empty array, `IndexError` if a node or label does not exist. -/
def clamp (U : Mat) (y : Labels) : Except PyErr Mat :=
  if U.rows * U.cols = 0 then .error .valueError
  else if U.rows < y.size then .error .indexError
  else if ¬ ∀ i < y.size, y.get i < U.cols then .error .indexError
  else
    let maxEntry := max (LatentGraph.matMax U) 1
    .ok ⟨U.rows, U.cols, fun i s => if i < y.size ∧ s = y.get i then 100 * maxEntry else U.get i s⟩

/-- `h[:len(y)]` differs from `y` somewhere, `pystruct/models/latent_node_crf.py` line 241. -/
def Inconsistent (y h : Labels) : Prop := ∃ i, i < y.size ∧ h.get i ≠ y.get i

instance (y h : Labels) : Decidable (Inconsistent y h) := by unfold Inconsistent; infer_instance

/-- `latent`, `pystruct/models/latent_node_crf.py` lines 232-244, for a backend `inf`. The backend
is called with `relaxed=False`; a tuple of marginals cannot be compared to `y` (`TypeError`). A
labelling shorter than `y` is reported as `ValueError` (simplification). -/
def latent (inf : Infer) (m : Model) (x : X) (y : Labels) (w : Vec) : Except PyErr Labels := do
  let unary ← unaryPotentials m x w
  let unary ← clamp unary y
  let pairwise ← pairwisePotentials m x w
  match ← inf unary (.mat pairwise) x.edges with
  | .relaxed _ _ => .error .typeError
  | .discrete h =>
    if h.size < y.size then .error .valueError
    else if Inconsistent y h then .error .valueError
    else .ok h

/-- `loss`, `pystruct/models/latent_node_crf.py` lines 249-253 and 549-553, of two labellings. -/
def loss (nLabels : ℕ) (cw : Vec) (h hhat : Labels) : Except PyErr ℚ :=
  Loss.loss (some cw) (labelFromLatent nLabels h) (labelFromLatent nLabels hhat)

/-- `continuous_loss`, `pystruct/models/latent_node_crf.py` lines 260-265 and 560-565. -/
def continuousLoss (nLabels : ℕ) (cw : Vec) (h : Labels) (yhat : Mat) : Except PyErr ℚ :=
  let y := labelFromLatent nLabels h
  Loss.continuousLoss (some cw) y ⟨min y.size yhat.rows, min nLabels yhat.cols, yhat.get⟩

/-- `max_loss`, `pystruct/models/latent_node_crf.py` lines 325-329 and 636-642 (the attribute `class_weight`
exists after initialisation). -/
def maxLoss (nLabels : ℕ) (cw : Vec) (h : Labels) : Except PyErr ℚ :=
  Loss.maxLoss (some cw) (labelFromLatent nLabels h)

/-- `unary_marginals[:r, :c].T · features`, `pystruct/models/latent_node_crf.py` lines 311-313:
`ValueError` if there are fewer than `r` rows. -/
def accumulate (U : Mat) (c : ℕ) (features : Mat) : Except PyErr Mat :=
  Mat.mul (Mat.T ⟨min features.rows U.rows, min c U.cols, U.get⟩) features

/-- The marginals used by `joint_feature`, `pystruct/models/latent_node_crf.py` lines 292-311; the
number of nodes is the size of `y`. The unary marginals of a relaxed labelling are an array of shape
`(n_nodes, n_states)`, given flattened. -/
def marginals (nStates : ℕ) (edges : Edges) (y : YVal) : Except PyErr (Mat × Mat) :=
  match y with
  | .relaxed u p => do
    let unaryMarginals ← u.reshape2 (u.size / nStates) nStates
    let t ← reshapeInfer p nStates
    return (unaryMarginals, ⟨nStates, nStates, fun a b => ∑ e ∈ range t.d0, t.get e a b⟩)
  | .discrete l => do
    let unaryMarginals ← oneHot l.size nStates l
    let a ← takeRows unaryMarginals (edges.map Prod.fst)
    let b ← takeRows unaryMarginals (edges.map Prod.snd)
    let pw ← a.T.mul b
    return (unaryMarginals, pw)

/-- `joint_feature`, `pystruct/models/latent_node_crf.py` lines 267-317. -/
def jointFeature (m : Model) (x : X) (y : YVal) : Except PyErr Vec := do
  checkSizeX m x
  let (unaryMarginals, pw) ← marginals m.nStates x.edges y
  let unariesAcc ← accumulate unaryMarginals m.nInput x.features
  let pwVec ← Sym.compressSym pw
  return unariesAcc.ravel.append pwVec

/-- Last loop of `kmeans_init`, `pystruct/models/latent_node_crf.py` lines 61-64: the true labels
followed by the predicted cluster of each hidden node, shifted behind the labels. `pred k` is what
`km.predict` returns for the `nHidden k` hidden nodes of sample `k`. The features that are clustered
are not modelled. -/
def kmeansInit (nLabels : ℕ) (Y : List Labels) (nHidden : ℕ → ℕ) (pred : ℕ → ℕ → ℕ) :
    List Labels :=
  (List.range Y.length).map fun k =>
    let y := Y.getD k ⟨0, fun _ => 0⟩
    ⟨y.size + nHidden k, fun i => if i < y.size then y.get i else pred k (i - y.size) + nLabels⟩

/-! ### `EdgeFeatureLatentNodeCRF` -/

/-- Parameters of an `EdgeFeatureLatentNodeCRF`, `pystruct/models/latent_node_crf.py` lines 383-422.
-/
structure EModel where
  base : Model
  nEdgeFeatures : ℕ
  sym : List ℕ
  anti : List ℕ

/-- An instance `(features, edges, edge_features, n_hidden)`. `pystruct/models/latent_node_crf.py`
lines 437-446. -/
structure EX where
  features : Mat
  edges : Edges
  edgeFeatures : Mat
  nHidden : ℕ

/-- `_set_size_joint_feature`, `pystruct/models/latent_node_crf.py` lines 424-435. -/
def eSize (m : EModel) : ℕ :=
  m.base.nInput * m.base.nFeatures + m.nEdgeFeatures * m.base.nStates ^ 2

/-- The check of the constructor, `pystruct/models/latent_node_crf.py` lines 406-415. -/
def eCheckModel (m : EModel) : Except PyErr Unit :=
  if ¬ ∀ i ∈ m.sym, i ∉ m.anti then .error .valueError else .ok ()

/-- `_check_size_x`, `pystruct/models/latent_node_crf.py` lines 437-446. -/
def eCheckSizeX (m : EModel) (x : EX) : Except PyErr Unit :=
  if x.features.cols ≠ m.base.nFeatures then .error .valueError
  else if x.edges.length ≠ x.edgeFeatures.rows then .error .valueError
  else if x.edgeFeatures.cols ≠ m.nEdgeFeatures then .error .valueError
  else .ok ()

/-- `_get_pairwise_potentials`, `pystruct/models/latent_node_crf.py` lines 448-470. -/
def ePairwise (m : EModel) (x : EX) (w : Vec) : Except PyErr Ten := do
  checkSizeW (eSize m) w
  eCheckSizeX m x
  let pairwise ← EdgeFeature.reshapeRows (w.slice (m.base.nInput * m.base.nFeatures) w.size)
    m.nEdgeFeatures
  let p ← x.edgeFeatures.mul pairwise
  p.ravel.reshape3 x.edgeFeatures.rows m.base.nStates m.base.nStates

/-- `_get_unary_potentials`, `pystruct/models/latent_node_crf.py` lines 472-511. -/
def eUnary (m : EModel) (x : EX) (w : Vec) : Except PyErr Mat := do
  checkSizeW (eSize m) w
  eCheckSizeX m x
  let params ← (w.slice 0 (m.base.nInput * m.base.nFeatures)).reshape2 m.base.nInput
    m.base.nFeatures
  unaryCore m.base x.features x.nHidden params

/-- `loss_augmented_inference`, `pystruct/models/latent_node_crf.py` lines 513-530, for a backend
`inf`. -/
def eLossAugmentedInference (inf : Infer) (cw : Vec) (m : EModel) (x : EX) (h : Labels) (w : Vec) :
    Except PyErr YVal := do
  checkSizeW (eSize m) w
  let unary ← eUnary m x w
  let pairwise ← ePairwise m x w
  let unary ← augment m.base.nLabels m.base.nStates cw unary h
  inf unary (.ten pairwise) x.edges

/-- `latent`, `pystruct/models/latent_node_crf.py` lines 532-544, for a backend `inf`: an
inconsistent result is overwritten on the visible nodes. -/
def eLatent (inf : Infer) (m : EModel) (x : EX) (y : Labels) (w : Vec) : Except PyErr Labels := do
  let unary ← eUnary m x w
  let unary ← clamp unary y
  let pairwise ← ePairwise m x w
  match ← inf unary (.ten pairwise) x.edges with
  | .relaxed _ _ => .error .typeError
  | .discrete h =>
    if h.size < y.size then .error .valueError
    else if Inconsistent y h then .ok ⟨h.size, fun i => if i < y.size then y.get i else h.get i⟩
    else .ok h

/-- The marginals used by `joint_feature`, `pystruct/models/latent_node_crf.py` lines 592-612.
`np.vstack` of an empty list raises `ValueError`. -/
def eMarginals (nStates : ℕ) (x : EX) (y : YVal) : Except PyErr (Mat × Mat) :=
  match y with
  | .relaxed u p => do
    let unaryMarginals ← u.reshape2 (u.size / nStates) nStates
    let pw ← p.reshape2 x.edgeFeatures.rows (nStates ^ 2)
    return (unaryMarginals, pw)
  | .discrete l => do
    let unaryMarginals ← oneHot l.size nStates l
    if ¬ ∀ e ∈ x.edges, e.1 < l.size ∧ e.2 < l.size then .error .indexError
    else if x.edges = [] then .error .valueError
    else .ok (unaryMarginals, ⟨x.edges.length, nStates ^ 2, fun e k =>
      unaryMarginals.get (edge x.edges e).1 (k / nStates) *
        unaryMarginals.get (edge x.edges e).2 (k % nStates)⟩)

/-- `joint_feature`, `pystruct/models/latent_node_crf.py` lines 567-628. -/
def eJointFeature (m : EModel) (x : EX) (y : YVal) : Except PyErr Vec := do
  eCheckSizeX m x
  let (unaryMarginals, pw) ← eMarginals m.base.nStates x y
  let pw ← x.edgeFeatures.T.mul pw
  if ¬ ∀ i ∈ m.sym ++ m.anti, i < pw.rows then .error .indexError
  else do
    let unariesAcc ← accumulate unaryMarginals m.base.nInput x.features
    return unariesAcc.ravel.append
      (Mat.ravel ⟨pw.rows, pw.cols, EdgeFeature.symmetrise m.base.nStates m.sym m.anti pw.get⟩)

end Verif.LatentNode
