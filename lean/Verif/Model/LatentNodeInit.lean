import Verif.Model.LatentNode

/-!
# Model of `kmeans_init` in `pystruct/models/latent_node_crf.py`

`LatentNode.kmeansInit` is its last loop; here the features that are clustered are computed.
-/

namespace Verif.LatentNode

open Finset Verif.Common

/-- What `kmeans_init` uses of a sample `(features, edges, n_hidden)` or `(features, edges, edge_features, n_hidden)` and its labels,
`pystruct/models/latent_node_crf.py` lines 24-31; `rows` is `features.shape[0]`. -/
structure Sample where
  rows : ℕ
  edges : Edges
  nHidden : ℕ
  y : Labels

/-- The sample of a `LatentNodeCRF`, `pystruct/models/latent_node_crf.py` lines 26-27. -/
def X.sample (x : X) (y : Labels) : Sample := ⟨x.features.rows, x.edges, x.nHidden, y⟩

/-- The sample of an `EdgeFeatureLatentNodeCRF`, `pystruct/models/latent_node_crf.py` lines 28-30: edge features are discarded. -/
def EX.sample (x : EX) (y : Labels) : Sample := ⟨x.features.rows, x.edges, x.nHidden, y⟩

/-- `n_visible`, `pystruct/models/latent_node_crf.py` lines 33-35. A negative number is rejected by line 36 or by `np.zeros` in line 39,
in both cases with `ValueError`. -/
def visibleCount (latentFeatures : Bool) (s : Sample) : Except PyErr ℕ :=
  if latentFeatures then (if s.rows < s.nHidden then .error .valueError else .ok (s.rows - s.nHidden)) else .ok s.rows

/-- The check "Edges don't add up", `pystruct/models/latent_node_crf.py` lines 36-37; `np.max` of no edges raises `ValueError`, too. -/
def edgesAddUp (nVisible : ℕ) (s : Sample) : Prop :=
  match (s.edges.map fun e => max e.1 e.2).max? with
  | none => False
  | some k => k + 1 = s.nHidden + nVisible

instance (nVisible : ℕ) (s : Sample) : Decidable (edgesAddUp nVisible s) := by
  unfold edgesAddUp
  split <;> infer_instance

/-- Label of a visible node in `labels_one_hot`, `pystruct/models/latent_node_crf.py` lines 39-42: a label array with one entry is
broadcast. -/
def broadcastLabel (y : Labels) (j : ℕ) : ℕ := if y.size = 1 then y.get 0 else y.get j

/-- Entry of `graph + graph.T`, `pystruct/models/latent_node_crf.py` lines 44-46: edges between the two nodes in either direction, with
multiplicities (entries of a `coo_matrix` at the same position are added). -/
def adjacency (edges : Edges) (i j : ℕ) : ℚ :=
  (edges.map fun e => if e = (i, j) then (1 : ℚ) else 0).sum + (edges.map fun e => if e = (j, i) then (1 : ℚ) else 0).sum

/-- First row of the slice `[-n_hidden:]` of an array with `n_visible + n_hidden` rows, `pystruct/models/latent_node_crf.py` line 46: the
whole array if there are no hidden nodes. -/
def sliceStart (nVisible nHidden : ℕ) : ℕ := if nHidden = 0 then 0 else nVisible

/-- `graph * labels_one_hot`, `pystruct/models/latent_node_crf.py` line 48. -/
def neighborCount (nVisible : ℕ) (s : Sample) (i l : ℕ) : ℚ :=
  ∑ j ∈ range nVisible, adjacency s.edges (sliceStart nVisible s.nHidden + i) j * if broadcastLabel s.y j = l then 1 else 0

/-- The neighbour counts of the hidden nodes of a sample, normalised, `pystruct/models/latent_node_crf.py` lines 33-50. `IndexError` for
labels of the wrong number or range, `ValueError` (of `reshape`) if there is no visible node. -/
def hiddenFeatures (nLabels : ℕ) (latentFeatures : Bool) (s : Sample) : Except PyErr Mat := do
  let nVisible ← visibleCount latentFeatures s
  if ¬ edgesAddUp nVisible s then .error .valueError
  else if s.y.size ≠ nVisible ∧ s.y.size ≠ 1 then .error .indexError
  else if nVisible = 0 then .error .valueError
  else if ¬ ∀ j < s.y.size, s.y.get j < nLabels then .error .indexError
  else .ok ⟨nVisible + s.nHidden - sliceStart nVisible s.nHidden, nLabels, fun i l =>
    neighborCount nVisible s i l / max (∑ l' ∈ range nLabels, neighborCount nVisible s i l') 1⟩

/-- The features of all samples, or the first exception, `pystruct/models/latent_node_crf.py` lines 22-52. -/
def allFeatures (nLabels : ℕ) (latentFeatures : Bool) : List Sample → Except PyErr (List Mat)
  | [] => .ok []
  | s :: l =>
    match hiddenFeatures nLabels latentFeatures s with
    | .error err => .error err
    | .ok F =>
      match allFeatures nLabels latentFeatures l with
      | .error err => .error err
      | .ok Fs => .ok (F :: Fs)

/-- `np.vstack(all_feats)`, `pystruct/models/latent_node_crf.py` line 53, for a list that is not empty. -/
def stack (cols : ℕ) (Fs : List Mat) : Mat :=
  let rows := Fs.flatMap fun F => (List.range F.rows).map F.get
  ⟨rows.length, cols, fun i => rows.getD i fun _ => 0⟩

/-- scikit-learn's `KMeans(n_clusters=k).fit(A)`, `pystruct/models/latent_node_crf.py` lines 54-60: raises, or gives the function that
`predict` applies to every row. -/
abbrev KMeans := Mat → ℕ → Except PyErr ((ℕ → ℚ) → ℕ)

/-- `kmeans_init`, `pystruct/models/latent_node_crf.py` lines 21-65, and `init_latent` of both classes (lines 319-323 and 630-634).
`np.vstack` of no arrays raises `ValueError`. -/
def initLatent (km : KMeans) (nLabels nHiddenStates : ℕ) (latentFeatures : Bool) (samples : List Sample) :
    Except PyErr (List Labels) := do
  let feats ← allFeatures nLabels latentFeatures samples
  if feats.isEmpty then .error .valueError
  else do
    let predict ← km (stack nLabels feats) nHiddenStates
    .ok (kmeansInit nLabels (samples.map Sample.y) (fun k => (feats.getD k ⟨0, 0, fun _ _ => 0⟩).rows)
      fun k j => predict ((feats.getD k ⟨0, 0, fun _ _ => 0⟩).get j))

end Verif.LatentNode
