import Verif.Model.GraphCRF
import Verif.Model.MultiLabel

/-!
# Model of model construction and initialisation from data (`crf.py`, `pystruct/models/chain_crf.py`, `base.py`,
`multilabel_svm.py`)
-/

namespace Verif.Init

open Verif.Common

/-- The attributes of a model that depend on the data; `none` stands for `None`, or a missing
attribute for `sizeJointFeature` and `uniform`. `pystruct/models/crf.py` lines 12-21. -/
structure State where
  nStates : Option ℕ
  nFeatures : Option ℕ
  directed : Bool
  sizeJointFeature : Option ℕ
  classWeight : Option Vec
  uniform : Option Bool

/-- `GraphCRF._set_size_joint_feature`, `pystruct/models/graph_crf.py` lines 95-104. -/
def setSize (st : State) : State :=
  match st.nFeatures, st.nStates with
  | some f, some s => { st with sizeJointFeature := some (GraphCRF.sizeJointFeature ⟨s, f, st.directed⟩) }
  | _, _ => st

/-- `StructuredModel._set_class_weight`, `pystruct/models/base.py` lines 100-119; `things` is `n_labels` for
the models that have this attribute and `n_states` otherwise. `np.ones(None)` has one entry. -/
def setClassWeight (st : State) (things : Option ℕ) : Except PyErr State :=
  match st.sizeJointFeature with
  | none => .ok st
  | some _ =>
    match st.classWeight with
    | some c =>
      if things ≠ some c.size then .error .valueError
      else .ok { st with uniform := some false }
    | none => .ok { st with classWeight := some ⟨things.getD 1, fun _ => 1⟩, uniform := some true }

/-- `CRF.__init__` of a `GraphCRF` or `ChainCRF`, `pystruct/models/crf.py` lines 10-21 (without the inference
method) and `graph_crf.py` lines 88-93. -/
def construct (nStates nFeatures : Option ℕ) (classWeight : Option Vec) (directed : Bool) : Except PyErr State :=
  let st := setSize ⟨nStates, nFeatures, directed, none, classWeight, none⟩
  setClassWeight st st.nStates

/-- `if self.n is None: self.n = n` / `elif self.n != n: raise ValueError`. `pystruct/models/crf.py`
lines 27-31 and 34-38. -/
def reconcile (own : Option ℕ) (found : ℕ) : Except PyErr ℕ :=
  match own with
  | none => .ok found
  | some n => if n ≠ found then .error .valueError else .ok n

/-- `len(np.unique(np.hstack([y.ravel() for y in Y])))`; `np.hstack` of nothing raises `ValueError`.
`pystruct/models/crf.py` line 33. -/
def countLabels (Y : List (List ℤ)) : Except PyErr ℕ :=
  if Y = [] then .error .valueError else .ok Y.flatten.dedup.length

/-- `CRF.initialize`, `pystruct/models/crf.py` lines 23-41, and `ChainCRF.initialize`, `pystruct/models/chain_crf.py` lines
62-78. `X` are the numbers of features of the samples; only the first is looked at. -/
def initializeCRF (st : State) (X : List ℕ) (Y : List (List ℤ)) : Except PyErr State :=
  match X with
  | [] => .error .indexError
  | f :: _ =>
    match reconcile st.nFeatures f with
    | .error err => .error err
    | .ok nf =>
      match countLabels Y with
      | .error err => .error err
      | .ok found =>
        match reconcile st.nStates found with
        | .error err => .error err
        | .ok ns =>
          let st := setSize { st with nFeatures := some nf, nStates := some ns }
          setClassWeight st st.nStates

/-- The data-dependent attributes of a `MultiLabelClf` (`n_states` is always 2).
`pystruct/models/multilabel_svm.py` lines 37-49. -/
structure MLState where
  nLabels : Option ℕ
  nFeatures : Option ℕ
  edges : Option Edges
  sizeJointFeature : Option ℕ
  classWeight : Option Vec
  uniform : Option Bool

/-- `MultiLabelClf._set_size_joint_feature`, `pystruct/models/multilabel_svm.py` lines 43-49: `TypeError` if the
number of labels is not known (`n_features * None`). -/
def mlSetSize (st : MLState) : Except PyErr MLState :=
  match st.nFeatures with
  | none => .ok st
  | some f =>
    let edges := st.edges.getD []
    match st.nLabels with
    | none => .error .typeError
    | some l => .ok { st with edges := some edges, sizeJointFeature := some (f * l + 4 * edges.length) }

/-- `_set_class_weight` for a `MultiLabelClf`: the number of things is `n_labels`.
`pystruct/models/base.py` lines 100-119. -/
def mlSetClassWeight (st : MLState) : Except PyErr MLState :=
  match setClassWeight ⟨some 2, st.nFeatures, false, st.sizeJointFeature, st.classWeight, st.uniform⟩ st.nLabels with
  | .error err => .error err
  | .ok r => .ok { st with classWeight := r.classWeight, uniform := r.uniform }

/-- `MultiLabelClf.__init__`, `pystruct/models/multilabel_svm.py` lines 37-41 (no class weights can be
given). -/
def mlConstruct (nLabels nFeatures : Option ℕ) (edges : Option Edges) : Except PyErr MLState :=
  match mlSetSize ⟨nLabels, nFeatures, edges, none, none, none⟩ with
  | .error err => .error err
  | .ok st => mlSetClassWeight st

/-- `MultiLabelClf.initialize`, `pystruct/models/multilabel_svm.py` lines 51-67, for `X` with `xCols` columns and
`Y` with `yCols` columns. -/
def mlInitialize (st : MLState) (xCols yCols : ℕ) : Except PyErr MLState :=
  match reconcile st.nFeatures xCols with
  | .error err => .error err
  | .ok nf =>
    match reconcile st.nLabels yCols with
    | .error err => .error err
    | .ok nl =>
      match mlSetSize { st with nFeatures := some nf, nLabels := some nl } with
      | .error err => .error err
      | .ok st => mlSetClassWeight st

end Verif.Init
