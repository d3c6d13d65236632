import Verif.Model.EdgeFeature
import Verif.Model.MultiLabel
import Verif.Model.Unstructured

/-!
# Model of `joint_feature` for label arrays with negative entries

The other models take labels as natural numbers. Numpy reads a negative index as counted from the end; here the
labels are integers and each use of a label as an index follows numpy's rule.
-/

namespace Verif.SignedLabels

open Finset Verif.Common Verif.GraphCRF
open Verif.Unstructured (ILabels)

/-- Whether numpy accepts index `i` along an axis of length `n`. `pystruct/models/graph_crf.py` line 199. -/
def npOk (n : ℕ) (i : ℤ) : Bool := decide (-n ≤ i) && decide (i < n)

/-- The position that numpy takes for an accepted index. `pystruct/models/graph_crf.py` line 199. -/
def npPos (n : ℕ) (i : ℤ) : ℕ := if i < 0 then (i + n).toNat else i.toNat

/-- One-hot encoding, `pystruct/models/graph_crf.py` lines 193-199 and
`pystruct/models/edge_feature_graph_crf.py` lines 179-185. -/
def oneHot (nNodes nStates : ℕ) (y : ILabels) : Except PyErr Mat :=
  if y.size ≠ nNodes then .error .valueError
  else if ¬ ∀ i < nNodes, npOk nStates (y.get i) then .error .indexError
  else .ok ⟨nNodes, nStates, fun i s => if s = npPos nStates (y.get i) then 1 else 0⟩

/-- `GraphCRF.joint_feature` of a discrete labelling, `pystruct/models/graph_crf.py` lines 159-212. -/
def graph (m : GraphCRF.Model) (x : GraphCRF.X) (y : ILabels) : Except PyErr Vec := do
  GraphCRF.checkSizeX m x
  let unaryMarginals ← oneHot x.features.rows m.nStates y
  let a ← takeRows unaryMarginals (x.edges.map Prod.fst)
  let b ← takeRows unaryMarginals (x.edges.map Prod.snd)
  let pw ← a.T.mul b
  let unariesAcc ← unaryMarginals.T.mul x.features
  let pwVec ← if m.directed then pure pw.ravel else Sym.compressSym pw
  return unariesAcc.ravel.append pwVec

/-- `class_pair_ind` of an edge, `pystruct/models/edge_feature_graph_crf.py` lines 189-190. -/
def pairIndex (nStates : ℕ) (y : ILabels) (e : ℕ × ℕ) : ℤ := y.get e.2 + nStates * y.get e.1

/-- Pairwise indicators of a discrete labelling, `pystruct/models/edge_feature_graph_crf.py` lines 188-191. -/
def pairIndicators (nStates nNodes : ℕ) (edges : Edges) (y : ILabels) : Except PyErr Mat :=
  if ¬ ∀ e ∈ edges, e.1 < nNodes ∧ e.2 < nNodes then .error .indexError
  else if ¬ ∀ e ∈ edges, npOk (nStates ^ 2) (pairIndex nStates y e) then .error .indexError
  else .ok ⟨edges.length, nStates ^ 2, fun e k =>
    if k = npPos (nStates ^ 2) (pairIndex nStates y (edge edges e)) then 1 else 0⟩

/-- `EdgeFeatureGraphCRF.joint_feature` of a discrete labelling,
`pystruct/models/edge_feature_graph_crf.py` lines 146-206. -/
def edgeFeature (check : EdgeFeature.Model → EdgeFeature.X → Except PyErr Unit) (m : EdgeFeature.Model)
    (x : EdgeFeature.X) (y : ILabels) : Except PyErr Vec := do
  check m x
  let unaryMarginals ← oneHot x.features.rows m.nStates y
  let pw ← pairIndicators m.nStates x.features.rows x.edges y
  let pw ← x.edgeFeatures.T.mul pw
  if ¬ ∀ i ∈ m.sym ++ m.anti, i < pw.rows then .error .indexError
  else do
    let unariesAcc ← unaryMarginals.T.mul x.features
    return unariesAcc.ravel.append
      (Mat.ravel ⟨pw.rows, pw.cols, EdgeFeature.symmetrise m.nStates m.sym m.anti pw.get⟩)

/-- `MultiLabelClf.joint_feature` of a discrete labelling, `pystruct/models/multilabel_svm.py` lines 90-106. -/
def multiLabel (m : MultiLabel.Model) (x : Vec) (y : ILabels) : Except PyErr Vec :=
  if ¬ ∀ e ∈ m.edges, e.1 < y.size ∧ e.2 < y.size ∧ npOk 2 (y.get e.1) ∧ npOk 2 (y.get e.2) then .error .indexError
  else .ok ((MultiLabel.unaryMarginals x y.size (fun l => 2 * (y.get l : ℚ) - 1)).ravel.append
    (Ten.ravel ⟨m.edges.length, 2, 2, fun e a b =>
      if a = npPos 2 (y.get (edge m.edges e).1) ∧ b = npPos 2 (y.get (edge m.edges e).2) then 1 else 0⟩))

end Verif.SignedLabels
