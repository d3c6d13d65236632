import Verif.Model.Common
import Verif.Model.Sym
import Verif.Model.Loss

/-!
# Model of `pystruct/models/graph_crf.py`, `chain_crf.py` and the common part of `crf.py`
-/

namespace Verif

open Finset Verif.Common

/-- A labelling as handed to `joint_feature`: a discrete label array or the result of a relaxation,
i.e. a tuple of (flattened) unary and pairwise marginals. `pystruct/models/graph_crf.py` lines
186-193. -/
inductive YVal where
  | discrete (y : Labels)
  | relaxed (unary pw : Vec)

namespace GraphCRF

/-- Parameters of a `GraphCRF` (`pystruct/models/graph_crf.py` lines 88-93), after initialisation. -/
structure Model where
  nStates : ℕ
  nFeatures : ℕ
  directed : Bool

/-- An instance `x = (features, edges)`, `_get_features` / `_get_edges`,
`pystruct/models/graph_crf.py` lines 106-110. -/
structure X where
  features : Mat
  edges : Edges

/-- `_set_size_joint_feature`, `pystruct/models/graph_crf.py` lines 95-104.  (The code computes
`n_states * (n_states + 1) / 2` in floating point and converts to `int`; the product is even, so
this is integer division.) -/
def sizeJointFeature (m : Model) : ℕ :=
  if m.directed then m.nStates * m.nFeatures + m.nStates ^ 2
  else m.nStates * m.nFeatures + m.nStates * (m.nStates + 1) / 2

/-- `_check_size_w`, `pystruct/models/base.py` lines 21-24. -/
def checkSizeW (size : ℕ) (w : Vec) : Except PyErr Unit :=
  if w.size ≠ size then .error .valueError else .ok ()

/-- `_check_size_x`, `pystruct/models/crf.py` lines 48-53. -/
def checkSizeX (m : Model) (x : X) : Except PyErr Unit :=
  if x.features.cols ≠ m.nFeatures then .error .valueError else .ok ()

/-- `_get_pairwise_potentials`, `pystruct/models/graph_crf.py` lines 112-133. -/
def pairwisePotentials (m : Model) (x : X) (w : Vec) : Except PyErr Mat := do
  checkSizeW (sizeJointFeature m) w
  checkSizeX m x
  let pw := w.slice (m.nStates * m.nFeatures) w.size
  if m.directed then pw.reshape2 m.nStates m.nStates
  else Sym.expandSym pw

/-- `_get_unary_potentials`, `pystruct/models/graph_crf.py` lines 135-157. -/
def unaryPotentials (m : Model) (x : X) (w : Vec) : Except PyErr Mat := do
  checkSizeW (sizeJointFeature m) w
  checkSizeX m x
  let unaryParams ← (w.slice 0 (m.nStates * m.nFeatures)).reshape2 m.nStates m.nFeatures
  x.features.mul unaryParams.T

/-- One-hot encoding, `pystruct/models/graph_crf.py` lines 193-199: `y.reshape(n_nodes)` raises
`ValueError` if the size is wrong, writing `unary_marginals[gx, y] = 1` raises `IndexError` for
labels `≥ n_states` (negative labels are not modelled). -/
def oneHot (nNodes nStates : ℕ) (y : Labels) : Except PyErr Mat :=
  if y.size ≠ nNodes then .error .valueError
  else if ¬ ∀ i < nNodes, y.get i < nStates then .error .indexError
  else .ok ⟨nNodes, nStates, fun i s => if s = y.get i then 1 else 0⟩

/-- Row selection `a[edges[:, c]]`; `IndexError` for node indices out of range.
`pystruct/models/graph_crf.py` lines 202-203. -/
def takeRows (a : Mat) (idx : List ℕ) : Except PyErr Mat :=
  if ¬ ∀ i ∈ idx, i < a.rows then .error .indexError
  else .ok ⟨idx.length, a.cols, fun e s => a.get (idx.getD e 0) s⟩

/-- `p.reshape(-1, n_states, n_states)`: the leading dimension is inferred; `ValueError` if the size
does not divide (or nothing can be inferred). `pystruct/models/graph_crf.py` line 191. -/
def reshapeInfer (p : Vec) (nStates : ℕ) : Except PyErr Ten :=
  if nStates = 0 then .error .valueError
  else if p.size % (nStates * nStates) ≠ 0 then .error .valueError
  else p.reshape3 (p.size / (nStates * nStates)) nStates nStates

/-- The unary and accumulated pairwise marginals of a labelling,
`pystruct/models/graph_crf.py` lines 186-203. -/
def marginals (nStates : ℕ) (x : X) (y : YVal) : Except PyErr (Mat × Mat) :=
  match y with
  | .relaxed u p => do
    let unaryMarginals ← u.reshape2 x.features.rows nStates
    let t ← reshapeInfer p nStates
    return (unaryMarginals, ⟨nStates, nStates, fun a b => ∑ e ∈ range t.d0, t.get e a b⟩)
  | .discrete l => do
    let unaryMarginals ← oneHot x.features.rows nStates l
    let a ← takeRows unaryMarginals (x.edges.map Prod.fst)
    let b ← takeRows unaryMarginals (x.edges.map Prod.snd)
    let pw ← a.T.mul b
    return (unaryMarginals, pw)

/-- `joint_feature`, `pystruct/models/graph_crf.py` lines 159-212. -/
def jointFeature (m : Model) (x : X) (y : YVal) : Except PyErr Vec := do
  checkSizeX m x
  let (unaryMarginals, pw) ← marginals m.nStates x y
  let unariesAcc ← unaryMarginals.T.mul x.features
  let pwVec ← if m.directed then pure pw.ravel else Sym.compressSym pw
  return unariesAcc.ravel.append pwVec

/-- `make_chain_edges`, `pystruct/models/chain_crf.py` lines 6-11, for a chain of `n` nodes. -/
def makeChainEdges (n : ℕ) : Edges :=
  let inds := List.range n
  inds.dropLast.zip inds.tail

/-- `ChainCRF._get_features` / `_get_edges`, `pystruct/models/chain_crf.py` lines 56-60: an instance is
just the feature array; edges are generated. -/
def chainX (features : Mat) : X := ⟨features, makeChainEdges features.rows⟩

/-- An inference backend as called through `inference_dispatch`. `pystruct/models/crf.py` lines
179-183. What the backends do is in `Verif.Dispatch`. -/
abbrev Infer := Mat → Pairwise → Edges → Except PyErr YVal

/-- `CRF.inference` without constraints, `pystruct/models/crf.py` lines 165-183, for a backend `inf`
(the counter `inference_calls` is not modelled). -/
def inference (inf : Infer) (m : Model) (x : X) (w : Vec) : Except PyErr YVal := do
  checkSizeW (sizeJointFeature m) w
  let unary ← unaryPotentials m x w
  let pairwise ← pairwisePotentials m x w
  inf unary (.mat pairwise) x.edges

/-- `CRF.loss_augmented_inference`, `pystruct/models/crf.py` lines 108-118, for a backend `inf`. -/
def lossAugmentedInference (inf : Infer) (cw : Vec) (m : Model) (x : X) (y : Labels) (w : Vec) :
    Except PyErr YVal := do
  checkSizeW (sizeJointFeature m) w
  let unary ← unaryPotentials m x w
  let pairwise ← pairwisePotentials m x w
  let unary ← Loss.lossAugmentUnaries unary y cw
  inf unary (.mat pairwise) x.edges

end GraphCRF
end Verif
