import Verif.Model.GraphCRF

/-!
# Model of `pystruct/models/latent_graph_crf.py`
-/

namespace Verif.LatentGraph

open Finset Verif.Common Verif.GraphCRF

/-- The constructor argument `n_states_per_label`: an integer or an array-like.
`pystruct/models/latent_graph_crf.py` lines 95-98 and 106-116. -/
inductive StatesSpec where
  | int (k : ℕ)
  | list (l : List ℕ)

/-- First part of `_set_size_joint_feature`, `pystruct/models/latent_graph_crf.py` lines 105-116. -/
def statesPerLabel (nLabels : ℕ) : StatesSpec → Except PyErr (List ℕ)
  | .int k => .ok (List.replicate nLabels k)
  | .list l => if l.length ≠ nLabels then .error .valueError else .ok l

/-- `np.cumsum(n)[l]`. `pystruct/models/latent_graph_crf.py` lines 43 and 120. -/
def cumsum (n : List ℕ) (l : ℕ) : ℕ := (n.take (l + 1)).sum

/-- `states_map`, `pystruct/models/latent_graph_crf.py` lines 119-124: zeros, then one slice
assignment per label from 1 on. -/
def statesMap (n : List ℕ) : Labels :=
  ⟨n.sum, ((List.range (n.length - 1)).map (· + 1)).foldl
    (fun m l => fun s => if cumsum n (l - 1) ≤ s ∧ s < cumsum n l then l else m s) (fun _ => 0)⟩

/-- An initialised `LatentGraphCRF`, `pystruct/models/latent_graph_crf.py` lines 95-125 (class
weights are all one: the constructor takes none). -/
structure Model where
  nStatesPerLabel : List ℕ
  nFeatures : ℕ
  directed : Bool

/-- `n_states`, `pystruct/models/latent_graph_crf.py` line 117. -/
def Model.nStates (m : Model) : ℕ := m.nStatesPerLabel.sum

/-- `n_labels`; the length test of `pystruct/models/latent_graph_crf.py` line 112 makes it the
number of state counts. -/
def Model.nLabels (m : Model) : ℕ := m.nStatesPerLabel.length

/-- The underlying `GraphCRF` over latent states, `pystruct/models/latent_graph_crf.py` line 125. -/
def Model.graph (m : Model) : GraphCRF.Model := ⟨m.nStates, m.nFeatures, m.directed⟩

/-- `label_from_latent`, `pystruct/models/latent_graph_crf.py` lines 144-145: `IndexError` for
states that do not exist. -/
def labelFromLatent (m : Model) (h : Labels) : Except PyErr Labels :=
  if ¬ ∀ i < h.size, h.get i < m.nStates then .error .indexError
  else .ok ⟨h.size, fun i => (statesMap m.nStatesPerLabel).get (h.get i)⟩

/-- The augmentation loop of `loss_augmented_inference`, `pystruct/models/latent_graph_crf.py` lines
161-166. -/
def augment (m : Model) (U : Mat) (h : Labels) : Except PyErr Mat :=
  match labelFromLatent m h with
  | .error err => .error err
  | .ok lab =>
    if lab.size ≠ U.rows then .error .indexError
    else .ok ⟨U.rows, U.cols, (List.range m.nStates).foldl
      (fun u l => fun i s =>
        if s = l ∧ lab.get i ≠ (statesMap m.nStatesPerLabel).get l then u i s + 1 else u i s) U.get⟩

/-- `loss_augmented_inference`, `pystruct/models/latent_graph_crf.py` lines 154-170, for a backend
`inf`. -/
def lossAugmentedInference (inf : Infer) (m : Model) (x : GraphCRF.X) (h : Labels) (w : Vec) :
    Except PyErr YVal := do
  checkSizeW (sizeJointFeature m.graph) w
  let unary ← unaryPotentials m.graph x w
  let pairwise ← pairwisePotentials m.graph x w
  let unary ← augment m unary h
  inf unary (.mat pairwise) x.edges

/-- `np.max(U)` of a matrix. `pystruct/models/latent_graph_crf.py` line 177. -/
def matMax (U : Mat) : ℚ := maxN (fun k => U.get (k / U.cols) (k % U.cols)) (U.rows * U.cols)

/-- The potentials `latent` decodes, `pystruct/models/latent_graph_crf.py` lines 173-178: states of
other labels get `-1e2 * max_entry`. `np.max` of an empty array raises `ValueError`; a mask of the
wrong shape `IndexError`. -/
def maskedUnaries (m : Model) (U : Mat) (y : Labels) : Except PyErr Mat :=
  if U.rows * U.cols = 0 then .error .valueError
  else if y.size ≠ U.rows then .error .indexError
  else
    let maxEntry := max (matMax U) 1
    .ok ⟨U.rows, U.cols, fun i s =>
      if (statesMap m.nStatesPerLabel).get s ≠ y.get i then -100 * maxEntry else U.get i s⟩

/-- `np.hstack([0, np.cumsum(n_states_per_label)])[y]`, `pystruct/models/latent_graph_crf.py` line
185. -/
def firstStates (m : Model) (y : Labels) : Except PyErr Labels :=
  if ¬ ∀ i < y.size, y.get i < m.nLabels + 1 then .error .indexError
  else .ok ⟨y.size, fun i => (m.nStatesPerLabel.take (y.get i)).sum⟩

/-- `latent`, `pystruct/models/latent_graph_crf.py` lines 172-186, for a backend `inf`. The backend
is called with `relaxed=False`; a tuple of marginals instead of a labelling would raise when used as
an index. Label arrays of unequal lengths are compared to a `ValueError` (simplification). -/
def latent (inf : Infer) (m : Model) (x : GraphCRF.X) (y : Labels) (w : Vec) :
    Except PyErr Labels := do
  let unary ← unaryPotentials m.graph x w
  let unary ← maskedUnaries m unary y
  let pairwise ← pairwisePotentials m.graph x w
  match ← inf unary (.mat pairwise) x.edges with
  | .relaxed _ _ => .error .indexError
  | .discrete h =>
    let lab ← labelFromLatent m h
    if lab.size ≠ y.size then .error .valueError
    else if ∃ i, i < y.size ∧ lab.get i ≠ y.get i then firstStates m y
    else .ok h

/-- `loss`, `pystruct/models/latent_graph_crf.py` lines 188-192, on discrete labellings; class
weights are ones. -/
def loss (m : Model) (h hhat : Labels) : Except PyErr ℚ := do
  let a ← labelFromLatent m h
  let b ← labelFromLatent m hhat
  Loss.loss (some ⟨m.nLabels, fun _ => 1⟩) a b

/-- `y_hat_org` of `continuous_loss`, `pystruct/models/latent_graph_crf.py` lines 197-199. -/
def marginalsOfLabels (m : Model) (yhat : Mat) : Mat :=
  ⟨yhat.rows, m.nLabels, (List.range m.nStates).foldl
    (fun acc s => fun i l =>
      if l = (statesMap m.nStatesPerLabel).get s then acc i l + yhat.get i s else acc i l)
    (fun _ _ => 0)⟩

/-- `continuous_loss`, `pystruct/models/latent_graph_crf.py` lines 194-201. -/
def continuousLoss (m : Model) (h : Labels) (yhat : Mat) : Except PyErr ℚ :=
  if yhat.cols < m.nStates then .error .indexError
  else do
    let a ← labelFromLatent m h
    Loss.continuousLoss (some ⟨m.nLabels, fun _ => 1⟩) a (marginalsOfLabels m yhat)

/-! ### k-means initialisation -/

/-- Number of `j < i` with `y[j] == label`: position of node `i` among those selected by the mask.
`pystruct/models/latent_graph_crf.py` lines 54-57. -/
def rankIn (y : Labels) (label i : ℕ) : ℕ := ((List.range i).filter (fun j => y.get j = label)).length

/-- Inner loop body of `kmeans_init`, `pystruct/models/latent_graph_crf.py` lines 53-57, for one
sample: nodes with this label get the predicted cluster plus the first state of the label
(`h.ravel()` is a view). `pred` is what `km.predict` returns for the selected nodes, in order. -/
def assignLabel (n : List ℕ) (label : ℕ) (pred : ℕ → ℕ) (y h : Labels) : Labels :=
  ⟨h.size, fun i => if i < y.size ∧ y.get i = label then
    pred (rankIn y label i) + (n.take label).sum else h.get i⟩

/-- `np.unique(np.hstack(Y))`: the labels below `bound` that occur, in increasing order.
`pystruct/models/latent_graph_crf.py` line 44. -/
def labelsPresent (bound : ℕ) (Y : List Labels) : List ℕ :=
  (List.range bound).filter fun l => Y.any fun y => (List.range y.size).any fun i => y.get i = l

/-- `kmeans_init`, `pystruct/models/latent_graph_crf.py` lines 39-58, for fitted clusterings: `pred
label k` is what `km.predict` for that label returns for the nodes of sample `k`. The features the
clusterings are fitted to (lines 14-37) do not influence the rest. Labels out of range raise
`IndexError`. -/
def kmeansInit (n : List ℕ) (Y : List Labels) (pred : ℕ → ℕ → ℕ → ℕ) : Except PyErr (List Labels) :=
  if ¬ ∀ y ∈ Y, ∀ i < y.size, y.get i < n.length then .error .indexError
  else .ok ((labelsPresent n.length Y).foldl
    (fun H label => (List.range Y.length).map fun k =>
      assignLabel n label (pred label k) (Y.getD k ⟨0, fun _ => 0⟩) (H.getD k ⟨0, fun _ => 0⟩))
    (Y.map fun y => ⟨y.size, fun _ => 0⟩))

end Verif.LatentGraph
