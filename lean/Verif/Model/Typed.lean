import Verif.Model.GraphCRF
import Verif.Model.EdgeFeature

/-!
# Model of `pystruct/models/typed_crf.py`, `node_type_edge_feature_graph_crf.py` and of the multi-type
part of `inference_ad3` / `inference_ad3plus`

Labels are Python integers (`ℤ`), since negative labels are rejected explicitly by the code.
-/

namespace Verif.Typed

open Finset Verif.Common Verif.GraphCRF

/-- Edges of one type as given by the user: an integer array with two columns. (Arrays of other
shapes, rejected in `pystruct/models/typed_crf.py` lines 204-207, are not modelled.) -/
abbrev RawEdges := List (ℤ × ℤ)

/-- Attributes of a `NodeTypeEdgeFeatureGraphCRF` after construction. `pystruct/models/typed_crf.py`
lines 62-111. -/
structure Model where
  nTypes : ℕ
  nStates : List ℕ
  nFeatures : List ℕ
  nEdgeFeatures : ℕ → ℕ → ℕ
  classWeight : List Vec

/-- An instance `([node_features, ..], [edges, ..], [edge_features, ..])`; every entry may be
`None`. `pystruct/models/typed_crf.py` lines 264-275. -/
structure X where
  nodeFeatures : List (Option Mat)
  edges : List (Option RawEdges)
  edgeFeatures : List (Option Mat)

/-- `np.ones(n)`. `pystruct/models/typed_crf.py` line 92. -/
def ones (n : ℕ) : Vec := ⟨n, fun _ => 1⟩

/-- The constructors `NodeTypeEdgeFeatureGraphCRF.__init__`,
`pystruct/models/node_type_edge_feature_graph_crf.py` lines 104-139, and `TypedCRF.__init__`,
`pystruct/models/typed_crf.py` lines 45-111. `edgeRows`, `edgeCols` is the shape of
`a_n_edge_features`. `np.hstack` of an empty list raises `ValueError`. An empty list of class weights
counts as "not given". `l_n_features=None` (which fails in `sum(None)`) and the choice of the
inference method are not modelled. -/
def construct (nTypes : ℕ) (nStates nFeatures : List ℕ) (edgeRows edgeCols : ℕ)
    (nEdgeFeatures : ℕ → ℕ → ℕ) (classWeight : Option (List Vec)) : Except PyErr Model :=
  if ¬ (edgeRows = nTypes ∧ edgeCols = nTypes) then .error .valueError
  else if ¬ ∀ a < nTypes, ∀ b < nTypes, nEdgeFeatures a b = nEdgeFeatures b a then .error .valueError
  else if nStates.length ≠ nTypes then .error .valueError
  else if nFeatures.length ≠ nTypes then .error .valueError
  else if (classWeight.getD []).length ≠ 0 ∧ (classWeight.getD []).map Vec.size ≠ nStates then
    .error .valueError
  else if nTypes = 0 then .error .valueError
  else .ok ⟨nTypes, nStates, nFeatures, nEdgeFeatures,
    if (classWeight.getD []).length = 0 then nStates.map ones else classWeight.getD []⟩

/-- `_iter_type_pairs`, `pystruct/models/typed_crf.py` lines 277-281. -/
def typePairs (n : ℕ) : List (ℕ × ℕ) :=
  (List.range n).flatMap fun a => (List.range n).map fun b => (a, b)

/-- Number of states of a type, `self.l_n_states[typ]`. `pystruct/models/typed_crf.py` line 67. -/
def Model.states (m : Model) (t : ℕ) : ℕ := m.nStates.getD t 0

/-- `_l_type_startindex`, `pystruct/models/typed_crf.py` lines 100-101 (one entry more than types).
-/
def Model.starts (m : Model) : List ℕ := (List.range (m.nTypes + 1)).map fun i => (m.nStates.take i).sum

/-- `size_unaries`, `pystruct/models/node_type_edge_feature_graph_crf.py` lines 152-154. (With an
empty list of feature numbers the attribute is not set; the constructor then fails anyway.) -/
def Model.sizeUnaries (m : Model) : ℕ := ((m.nStates.zip m.nFeatures).map fun p => p.1 * p.2).sum

/-- `size_pairwise`, `pystruct/models/node_type_edge_feature_graph_crf.py` lines 157-161. -/
def Model.sizePairwise (m : Model) : ℕ :=
  ((typePairs m.nTypes).map fun p => m.nEdgeFeatures p.1 p.2 * m.states p.1 * m.states p.2).sum

/-- `size_joint_feature`, `pystruct/models/node_type_edge_feature_graph_crf.py` line 163. -/
def Model.size (m : Model) : ℕ := m.sizeUnaries + m.sizePairwise

/-- `np.hstack` of a list of vectors; `ValueError` for an empty list. `pystruct/models/typed_crf.py`
lines 93 and 131. -/
def hstack : List Vec → Except PyErr Vec
  | [] => .error .valueError
  | v :: vs => .ok (vs.foldl Vec.append v)

/-- `_get_node_features`, `pystruct/models/typed_crf.py` lines 264-268 (`zip` drops surplus arrays).
-/
def nodeMats (m : Model) (x : X) : List Mat :=
  (x.nodeFeatures.zip m.nFeatures).map fun p => p.1.getD ⟨0, p.2, fun _ _ => 0⟩

/-- `_get_edges`, `pystruct/models/typed_crf.py` lines 270-272. -/
def edgeLists (x : X) : List RawEdges := x.edges.map fun e => e.getD []

/-- `_get_edge_features`, `pystruct/models/node_type_edge_feature_graph_crf.py` lines 215-220 (`zip`
drops surplus arrays). -/
def edgeMats (m : Model) (x : X) : List Mat :=
  (x.edgeFeatures.zip (typePairs m.nTypes)).map fun p =>
    p.1.getD ⟨0, m.nEdgeFeatures p.2.1 p.2.2, fun _ _ => 0⟩

/-- Both ends of all edges are existing nodes, `pystruct/models/typed_crf.py` lines 217-227. -/
def EdgesInside (n1 n2 : ℕ) (es : RawEdges) : Prop :=
  ∀ e ∈ es, 0 ≤ e.1 ∧ 0 ≤ e.2 ∧ e.1 < n1 ∧ e.2 < n2

instance (n1 n2 : ℕ) (es : RawEdges) : Decidable (EdgesInside n1 n2 es) := by
  unfold EdgesInside; infer_instance

/-- the number of nodes of a type. `pystruct/models/typed_crf.py` lines 143 and 246. -/
def nodeCount (m : Model) (x : X) (t : ℕ) : ℕ := ((nodeMats m x).map Mat.rows).getD t 0

/-- `_check_size_x`, `pystruct/models/node_type_edge_feature_graph_crf.py` lines 171-213 and
`typed_crf.py` lines 188-228. -/
def checkSizeX (m : Model) (x : X) : Except PyErr Unit :=
  if (edgeLists x).length ≠ m.nTypes ^ 2 then .error .valueError
  else if (edgeMats m x).length ≠ m.nTypes ^ 2 then .error .valueError
  else if (nodeMats m x).length ≠ m.nTypes then .error .valueError
  else if ¬ ∀ p ∈ (nodeMats m x).zip m.nFeatures, p.1.cols = p.2 then .error .valueError
  else if ¬ ∀ p ∈ (typePairs m.nTypes).zip (edgeLists x),
      EdgesInside (nodeCount m x p.1.1) (nodeCount m x p.1.2) p.2 then .error .valueError
  else if ¬ ∀ p ∈ (edgeLists x).zip (edgeMats m x), p.1.length = p.2.rows then .error .valueError
  else if ¬ ∀ p ∈ (typePairs m.nTypes).zip (edgeMats m x),
      p.2.cols = m.nEdgeFeatures p.1.1 p.1.2 then .error .valueError
  else .ok ()

/-- `Y[i:i+n]`. `pystruct/models/typed_crf.py` lines 144 and 249. -/
def slice (y : List ℤ) (i n : ℕ) : List ℤ := (y.drop i).take n

/-- The loop of `_check_size_xy`, `pystruct/models/typed_crf.py` lines 243-261, over (number of
nodes, first label of the type, first label of the next type). -/
def checkLabels (y : List ℤ) : ℕ → List (ℕ × ℕ × ℕ) → Except PyErr Unit
  | _, [] => .ok ()
  | i, (n, lo, hi) :: rest =>
    if n = 0 then checkLabels y i rest
    else if ∃ l ∈ slice y i n, l < 0 then .error .valueError
    else if ∃ l ∈ slice y i n, l < lo then .error .inconsistentLabel
    else if ∃ l ∈ slice y i n, (hi : ℤ) ≤ l then .error .inconsistentLabel
    else checkLabels y (i + n) rest

/-- Numbers of nodes with first and last label of each type. `pystruct/models/typed_crf.py` lines
242-261. -/
def layout (m : Model) (x : X) : List (ℕ × ℕ × ℕ) :=
  ((nodeMats m x).map Mat.rows).zip (m.starts.zip (m.starts.drop 1))

/-- `_check_size_xy` for `Y` not `None`, `pystruct/models/typed_crf.py` lines 230-262. -/
def checkSizeXY (m : Model) (x : X) (y : List ℤ) : Except PyErr Unit :=
  if y.length ≠ ((nodeMats m x).map Mat.rows).sum then .error .valueError
  else checkLabels y 0 (layout m x)

/-- The samples given to `initialize`: a list of instances with optional labels, or a single
instance. `pystruct/models/typed_crf.py` lines 153-163. -/
inductive InitArg where
  | many (xs : List X) (ys : Option (List (List ℤ)))
  | one (x : X) (y : Option (List ℤ))

/-- `initialize`, `pystruct/models/typed_crf.py` lines 153-163: with a list, the `map` objects are
created but (in Python 3) never consumed, so nothing is checked. -/
def initializeX (m : Model) : InitArg → Except PyErr Unit
  | .many _ _ => .ok ()
  | .one x y => do
    checkSizeX m x
    match y with
    | none => .ok ()
    | some y => checkSizeXY m x y

/-- `flattenY`, `pystruct/models/typed_crf.py` lines 120-131. -/
def flattenY (m : Model) (ys : List (List ℤ)) : Except PyErr (List ℤ) :=
  match m.starts.zip ys with
  | [] => .error .valueError
  | p :: ps => .ok ((p :: ps).flatMap fun q => q.2.map fun l => l + (q.1 : ℤ))

/-- The loop of `unflattenY`, `pystruct/models/typed_crf.py` lines 142-146: `AttributeError` if node
features are `None`. -/
def unflattenLoop (flat : List ℤ) : ℕ → List (ℕ × Option Mat) → Except PyErr (List (List ℤ) × ℕ)
  | i, [] => .ok ([], i)
  | _, (_, none) :: _ => .error .attributeError
  | i, (start, some f) :: rest => do
    let (ys, stop) ← unflattenLoop flat (i + f.rows) rest
    return ((slice flat i f.rows).map (fun l => l - (start : ℤ)) :: ys, stop)

/-- `unflattenY`, `pystruct/models/typed_crf.py` lines 133-151. -/
def unflattenY (m : Model) (x : X) (flat : List ℤ) : Except PyErr (List (List ℤ)) := do
  let (ys, stop) ← unflattenLoop flat 0 (m.starts.zip x.nodeFeatures)
  if flat.length ≠ stop then .error .valueError else .ok ys

/-- `w[i:j]` for `i ≤ j` with numpy's truncation at the end of the array.
`pystruct/models/typed_crf.py` line 311. -/
def npSlice (w : Vec) (i j : ℕ) : Vec := ⟨min j w.size - min i w.size, fun k => w.get (min i w.size + k)⟩

/-- The loop of `_get_unary_potentials`, `pystruct/models/typed_crf.py` lines 303-315, over
(features, number of states, number of features); also returns the final `i_w`. -/
def unaryLoop (w : Vec) : ℕ → List (Mat × ℕ × ℕ) → Except PyErr (List Mat × ℕ)
  | i, [] => .ok ([], i)
  | i, (f, s, k) :: rest => do
    let p ← (npSlice w i (i + s * k)).reshape2 s k
    let u ← f.mul p.T
    let (us, stop) ← unaryLoop w (i + s * k) rest
    return (u :: us, stop)

/-- `_get_unary_potentials`, `pystruct/models/typed_crf.py` lines 283-319. -/
def unaryPotentials (m : Model) (x : X) (w : Vec) : Except PyErr (List Mat) := do
  checkSizeW m.size w
  let (us, stop) ← unaryLoop w 0 ((nodeMats m x).zip (m.nStates.zip m.nFeatures))
  if stop ≠ m.sizeUnaries then .error .assertionError else .ok us

/-- The pairwise potentials of one type of edges,
`pystruct/models/node_type_edge_feature_graph_crf.py` lines 279-294; `none` is the empty array
`np.array([])`. -/
def pairwiseBlock (wpw : Vec) (i s1 s2 : ℕ) (ef : Mat) : Except PyErr (Option Ten) :=
  if ef.cols * s1 * s2 = 0 then .ok none
  else do
    let p ← EdgeFeature.reshapeRows (npSlice wpw i (i + ef.cols * s1 * s2)) ef.cols
    let q ← ef.mul p
    let t ← q.ravel.reshape3 ef.rows s1 s2
    return some t

/-- The loop of `_get_pairwise_potentials`, `pystruct/models/node_type_edge_feature_graph_crf.py`
lines 275-295. -/
def pairwiseLoop (m : Model) (wpw : Vec) : ℕ → List ((ℕ × ℕ) × Mat) → Except PyErr (List (Option Ten))
  | _, [] => .ok []
  | i, (p, ef) :: rest => do
    let t ← pairwiseBlock wpw i (m.states p.1) (m.states p.2) ef
    let ts ← pairwiseLoop m wpw (i + ef.cols * m.states p.1 * m.states p.2) rest
    return t :: ts

/-- `_get_pairwise_potentials`, `pystruct/models/node_type_edge_feature_graph_crf.py` lines 252-297.
(The cache built by `_get_pairwise_potentials_initialize`, lines 222-250, is not used anywhere.) -/
def pairwisePotentials (m : Model) (x : X) (w : Vec) : Except PyErr (List (Option Ten)) := do
  checkSizeW m.size w
  pairwiseLoop m (npSlice w m.sizeUnaries w.size) 0 ((typePairs m.nTypes).zip (edgeMats m x))

/-- A labelling as accepted by `joint_feature`: flat labels, lists of marginals per type (as
returned by ad3), or marginal matrices for all types together.
`pystruct/models/node_type_edge_feature_graph_crf.py` lines 330-367. -/
inductive TVal where
  | discrete (y : List ℤ)
  | lists (unary pw : List Mat)
  | blocks (unary pw : Mat)

/-- One-hot encoding of one type, `pystruct/models/node_type_edge_feature_graph_crf.py` lines
379-382. `ValueError` if there are too few labels, `IndexError` for labels out of range (negative
indices, which would wrap around, cannot occur after the check of the labels and count as out of
range here). -/
def oneHot (ys : List ℤ) (n s : ℕ) : Except PyErr Mat :=
  if ys.length ≠ n then .error .valueError
  else if ¬ ∀ l ∈ ys, 0 ≤ l ∧ l < s then .error .indexError
  else .ok ⟨n, s, fun i k => if (k : ℤ) = ys.getD i 0 then 1 else 0⟩

/-- The loop of `pystruct/models/node_type_edge_feature_graph_crf.py` lines 370-384 over (number of
nodes, number of states, first label). -/
def oneHotLoop (y : List ℤ) : ℕ → List (ℕ × ℕ × ℕ) → Except PyErr (List Mat)
  | _, [] => .ok []
  | i, (n, s, start) :: rest => do
    let u ← oneHot ((slice y i n).map fun l => l - (start : ℤ)) n s
    let us ← oneHotLoop y (i + n) rest
    return u :: us

/-- Local label of a node, `y[offset + node] - start`,
`pystruct/models/node_type_edge_feature_graph_crf.py` lines 398-401. -/
def localLabel (y : List ℤ) (offset start : ℕ) (node : ℤ) : ℤ :=
  y.getD (offset + node.toNat) 0 - (start : ℤ)

/-- Pair indicators of one type of edges, `pystruct/models/node_type_edge_feature_graph_crf.py`
lines 391-409. `s1`, `s2` are the numbers of states, `o1`, `o2` the positions of the first node,
`l1`, `l2` the first labels. Node indices are in range after the check of the instance (line 323).
-/
def pairIndicators (y : List ℤ) (s1 s2 o1 o2 l1 l2 : ℕ) (es : RawEdges) : Except PyErr Mat :=
  if ¬ ∀ e ∈ es, o1 + e.1.toNat < y.length ∧ o2 + e.2.toNat < y.length then .error .indexError
  else if ¬ ∀ e ∈ es, 0 ≤ localLabel y o1 l1 e.1 ∧ localLabel y o1 l1 e.1 ≤ s1 ∧
      0 ≤ localLabel y o2 l2 e.2 ∧ localLabel y o2 l2 e.2 ≤ s2 then .error .assertionError
  else if ¬ ∀ e ∈ es, localLabel y o2 l2 e.2 + s2 * localLabel y o1 l1 e.1 < s1 * s2 then
    .error .indexError
  else .ok ⟨es.length, s1 * s2, fun e k =>
    if (k : ℤ) = localLabel y o2 l2 (es.getD e (0, 0)).2 +
      s2 * localLabel y o1 l1 (es.getD e (0, 0)).1 then 1 else 0⟩

/-- `node_offset_by_typ`, `pystruct/models/node_type_edge_feature_graph_crf.py` lines 389-390. -/
def nodeOffset (x : X) (t : ℕ) : ℕ :=
  ((x.nodeFeatures.map fun f => (f.map Mat.rows).getD 0).take t).sum

/-- The loop of `pystruct/models/node_type_edge_feature_graph_crf.py` lines 391-410. -/
def pairLoop (m : Model) (x : X) (y : List ℤ) : List ((ℕ × ℕ) × RawEdges) → Except PyErr (List Mat)
  | [] => .ok []
  | (p, es) :: rest => do
    let u ← pairIndicators y (m.states p.1) (m.states p.2) (nodeOffset x p.1) (nodeOffset x p.2)
      (m.starts.getD p.1 0) (m.starts.getD p.2 0) es
    let us ← pairLoop m x y rest
    return u :: us

/-- `a[i:i+r, j:j+c]` with numpy's truncation. `pystruct/models/node_type_edge_feature_graph_crf.py`
lines 340-367. -/
def subMat (a : Mat) (i r j c : ℕ) : Mat :=
  ⟨min (i + r) a.rows - min i a.rows, min (j + c) a.cols - min j a.cols,
    fun p q => a.get (min i a.rows + p) (min j a.cols + q)⟩

/-- `pystruct/models/node_type_edge_feature_graph_crf.py` lines 340-349: unary marginals of all
types together are cut into blocks. -/
def cutUnary (u : Mat) : ℕ → ℕ → List (ℕ × ℕ) → List Mat
  | _, _, [] => []
  | i, j, (n, s) :: rest => subMat u i n j s :: cutUnary u (i + n) (j + s) rest

/-- `pystruct/models/node_type_edge_feature_graph_crf.py` lines 356-367: the same for the pairwise marginals; the first column of a pair of types is
`a_startindex_by_typ_typ` (`pystruct/models/typed_crf.py` lines 105-111). -/
def cutPairs (m : Model) (pw : Mat) : ℕ → ℕ → List ((ℕ × ℕ) × RawEdges) → List Mat
  | _, _, [] => []
  | i, j, (p, es) :: rest =>
    subMat pw i es.length j (m.states p.1 * m.states p.2) ::
      cutPairs m pw (i + es.length) (j + m.states p.1 * m.states p.2) rest

/-- The marginals per type of a labelling, `pystruct/models/node_type_edge_feature_graph_crf.py`
lines 330-410. -/
def marginals (m : Model) (x : X) : TVal → Except PyErr (List Mat × List Mat)
  | .lists us pws => .ok (us, pws)
  | .blocks u pw => .ok
    (cutUnary u 0 0 (((nodeMats m x).map Mat.rows).zip m.nStates),
      cutPairs m pw 0 0 ((typePairs m.nTypes).zip (edgeLists x)))
  | .discrete y => do
    checkSizeXY m x y
    let us ← oneHotLoop y 0 (((nodeMats m x).map Mat.rows).zip (m.nStates.zip m.starts))
    let pws ← pairLoop m x y ((typePairs m.nTypes).zip (edgeLists x))
    return (us, pws)

/-- `[np.dot(a.T, b).ravel() for (a, b) in l]`,
`pystruct/models/node_type_edge_feature_graph_crf.py` lines 412-414 and 418-419. -/
def accumulate : List (Mat × Mat) → Except PyErr (List Vec)
  | [] => .ok []
  | (a, b) :: rest => do
    let p ← a.T.mul b
    let ps ← accumulate rest
    return p.ravel :: ps

/-- `joint_feature`, `pystruct/models/node_type_edge_feature_graph_crf.py` lines 299-425. -/
def jointFeature (m : Model) (x : X) (y : TVal) : Except PyErr Vec := do
  checkSizeX m x
  let (us, pws) ← marginals m x y
  let un ← accumulate (us.zip (nodeMats m x))
  let un ← hstack un
  let pw ← accumulate ((edgeMats m x).zip pws)
  let pw ← hstack pw
  return un.append pw

/-! ### loss -/

/-- `class_weight`, `pystruct/models/typed_crf.py` line 93: the class weights of all types one after
the other (never fails after construction). -/
def Model.allWeights (m : Model) : Vec := m.classWeight.foldl Vec.append ⟨0, fun _ => 0⟩

/-- A label array (all labels non-negative). `pystruct/models/typed_crf.py` lines 250-251. -/
def toLabels (y : List ℤ) : Labels := ⟨y.length, fun i => (y.getD i 0).toNat⟩

/-- `StructuredModel.loss` on flat labels, `pystruct/models/base.py` lines 60-66, with the class weights of
a typed CRF. Negative true labels are reported as `IndexError` (in numpy they wrap around). -/
def loss (m : Model) (y yhat : List ℤ) : Except PyErr ℚ :=
  if ∃ l ∈ y, l < 0 then .error .indexError
  else if y.length ≠ yhat.length then .error .valueError
  else if ∃ l ∈ y, (m.allWeights.size : ℤ) ≤ l then .error .indexError
  else .ok (∑ i ∈ range y.length,
    m.allWeights.get (y.getD i 0).toNat * (if y.getD i 0 ≠ yhat.getD i 0 then 1 else 0))

/-- The loop of `NodeTypeEdgeFeatureGraphCRF.loss_augment_unaries`,
`pystruct/models/node_type_edge_feature_graph_crf.py` lines 427-440, over (potentials, class
weights, first label). Negative local labels are read out of bounds by the Cython code. -/
def augmentLoop (y : List ℤ) : ℕ → List (Mat × Vec × ℕ) → Except PyErr (List Mat)
  | _, [] => .ok []
  | i, (u, cw, start) :: rest => do
    let ys := (slice y i u.rows).map fun l => l - (start : ℤ)
    let a ← if ∃ l ∈ ys, l < 0 then .error .undefinedRead
      else Loss.lossAugmentUnaries u (toLabels ys) cw
    let us ← augmentLoop y (i + u.rows) rest
    return a :: us

/-- `loss_augment_unaries`, `pystruct/models/node_type_edge_feature_graph_crf.py` lines 427-440. -/
def augment (m : Model) (us : List Mat) (y : List ℤ) : Except PyErr (List Mat) :=
  augmentLoop y 0 (us.zip (m.classWeight.zip m.starts))

/-- The loop of `continuous_loss`, `pystruct/models/typed_crf.py` lines 325-338: the loss of every
node. `IndexError` for labels out of range (negative ones would wrap around in numpy) or too few
labels. -/
def lossLoop (y : List ℤ) : ℕ → ℕ → List Mat → Except PyErr (List ℚ)
  | _, _, [] => .ok []
  | i, j, u :: rest => do
    let ys := (slice y i u.rows).map fun l => l - (j : ℤ)
    let r ← if ¬ ∀ l ∈ ys, 0 ≤ l ∧ l < u.cols then .error .indexError
      else .ok ((List.range ys.length).map fun k => 1 - u.get k (ys.getD k 0).toNat)
    let rs ← lossLoop y (i + u.rows) (j + u.cols) rest
    return r ++ rs

/-- `continuous_loss`, `pystruct/models/typed_crf.py` lines 321-342. A number of entries different
from the number of labels is reported as `ValueError` (numpy broadcasts if one of them is 1). -/
def continuousLoss (m : Model) (y : List ℤ) (us : List Mat) : Except PyErr ℚ := do
  let r ← lossLoop y 0 0 us
  if us.length = 0 then .error .valueError
  else if ∃ l ∈ y, l < 0 ∨ (m.allWeights.size : ℤ) ≤ l then .error .indexError
  else if r.length ≠ y.length then .error .valueError
  else .ok (∑ i ∈ range y.length, m.allWeights.get (y.getD i 0).toNat * r.getD i 0)

/-! ### inference with several types -/

/-- The result of a call of the solver: marginals, energy, and whether the status is `"fractional"`
or `"unsolved"`. `pystruct/inference/inference_methods.py` lines 389-401. -/
structure Solution where
  unary : List Mat
  pairwise : List Mat
  energy : ℚ
  unsolved : Bool

/-- The external solver (`ad3.general_graph`, `ad3.general_constrained_graph`).
`pystruct/inference/inference_methods.py` lines 389-399 and 507-511. -/
abbrev Solver := List Mat → List (Option Ten) → List RawEdges → Except PyErr Solution

/-- The decoding loop, `pystruct/inference/inference_methods.py` lines 419-425 (`inference_ad3`) and
523-529 (`inference_ad3plus`): `np.argmax` along an axis of length zero raises `ValueError`. -/
def decodeLoop : ℕ → List Mat → Except PyErr (List ℤ)
  | _, [] => .ok []
  | c, u :: rest =>
    if u.cols = 0 then .error .valueError
    else do
      let ys ← decodeLoop (c + u.cols) rest
      return (List.range u.rows).map (fun i => ((c + argmaxN (u.get i) u.cols : ℕ) : ℤ)) ++ ys

/-- `np.hstack` fails on an empty list. `pystruct/inference/inference_methods.py` lines 419-425 and
524-530. -/
def decode (us : List Mat) : Except PyErr (List ℤ) :=
  if us.length = 0 then .error .valueError else decodeLoop 0 us

/-- `inference_ad3` with lists (several types), `pystruct/inference/inference_methods.py` lines
386-432, and `inference_ad3plus` without constraints with lists, lines 494-539: both treat the
result of the solver in the same way. Returns the labelling and the value returned as energy. -/
def inferenceMulti (solver : Solver) (us : List Mat) (pws : List (Option Ten)) (es : List RawEdges)
    (relaxed inferenceException : Bool) : Except PyErr (TVal × ℚ) := do
  let r ← solver us pws es
  if r.unsolved && relaxed then return (.lists r.unary r.pairwise, -r.energy)
  else if inferenceException && r.unsolved then .error .inferenceException
  else do
    let y ← decode r.unary
    return (.discrete y, -r.energy)

/-- `CRF.inference` for a typed CRF, `pystruct/models/crf.py` lines 165-183: `inference_exception` is not
passed on, whatever `setInferenceException` (`typed_crf.py` lines 165-170) has stored. -/
def inference (solver : Solver) (m : Model) (_inferenceException : Bool) (x : X) (w : Vec)
    (relaxed : Bool) : Except PyErr (TVal × ℚ) := do
  checkSizeW m.size w
  let us ← unaryPotentials m x w
  let pws ← pairwisePotentials m x w
  inferenceMulti solver us pws (edgeLists x) relaxed false

/-- `CRF.loss_augmented_inference` for a typed CRF, `pystruct/models/crf.py` lines 108-118. -/
def lossAugmentedInference (solver : Solver) (m : Model) (x : X) (y : List ℤ) (w : Vec)
    (relaxed : Bool) : Except PyErr (TVal × ℚ) := do
  checkSizeW m.size w
  let us ← unaryPotentials m x w
  let pws ← pairwisePotentials m x w
  let us ← augment m us y
  inferenceMulti solver us pws (edgeLists x) relaxed false

end Verif.Typed
