import Verif.Model.Init
import Verif.Model.EdgeFeature
import Verif.Model.LatentGraph
import Verif.Model.LatentNode

/-!
# Model of construction and initialisation of the remaining model classes
(`edge_feature_graph_crf.py`, `grid_crf.py`, `latent_graph_crf.py`, `latent_grid_crf.py`, `latent_node_crf.py`,
`unstructured_svm.py`)

As in `Verif.Model.Init`, `none` stands for `None` or for a missing attribute, the choice of the inference method
is left out, and attribute updates made before an exception is raised are not modelled.
-/

namespace Verif.Init

open Verif.Common

/-- The attributes set by `_set_size_joint_feature` and `_set_class_weight`.
`pystruct/models/base.py` lines 100-119. See the classes for the sizes. -/
structure Derived where
  size : Option ℕ
  classWeight : Option Vec
  uniform : Option Bool

/-- `StructuredModel._set_class_weight`, `pystruct/models/base.py` lines 100-119 (`setClassWeight` on the attributes
it reads and writes). -/
def deriveWeights (d : Derived) (things : Option ℕ) : Except PyErr Derived :=
  match setClassWeight ⟨none, none, false, d.size, d.classWeight, d.uniform⟩ things with
  | .error err => .error err
  | .ok r => .ok ⟨d.size, r.classWeight, r.uniform⟩

/-- `n_features = X[0][0].shape[1]` and the comparison with the attribute, `pystruct/models/crf.py`
lines 26-31, `latent_graph_crf.py` lines 128-133, `latent_node_crf.py` lines 135-140. `X` are the
numbers of features of the samples. -/
def takeFeatures (own : Option ℕ) (X : List ℕ) : Except PyErr ℕ :=
  match X with
  | [] => .error .indexError
  | f :: _ => reconcile own f

/-- `len(np.unique(…))` and the comparison with the attribute, `pystruct/models/crf.py` lines 33-38,
`latent_graph_crf.py` lines 135-140, `latent_node_crf.py` lines 142-147, `unstructured_svm.py` lines
188-193. -/
def takeLabels (own : Option ℕ) (Y : List (List ℤ)) : Except PyErr ℕ :=
  match countLabels Y with
  | .error err => .error err
  | .ok found => reconcile own found

/-! ### EdgeFeatureGraphCRF, DirectionalGridCRF -/

/-- Attributes of an `EdgeFeatureGraphCRF`. `pystruct/models/edge_feature_graph_crf.py` lines 58-72.
-/
structure EFState where
  nStates : Option ℕ
  nFeatures : Option ℕ
  nEdgeFeatures : Option ℕ
  sym : List ℕ
  anti : List ℕ
  derived : Derived

/-- First part of `EdgeFeatureGraphCRF._set_size_joint_feature`,
`pystruct/models/edge_feature_graph_crf.py` lines 74-78, and all of
`DirectionalGridCRF._set_size_joint_feature`, `grid_crf.py` lines 126-130 (there the number of edge
features is always known). -/
def efSize (st : EFState) : EFState :=
  match st.nStates, st.nFeatures, st.nEdgeFeatures with
  | some s, some f, some e =>
    { st with derived := { st.derived with size := some (EdgeFeature.sizeJointFeature ⟨s, f, e, st.sym, st.anti⟩) } }
  | _, _, _ => st

/-- `EdgeFeatureGraphCRF._set_size_joint_feature`, `pystruct/models/edge_feature_graph_crf.py` lines
74-91. -/
def efSetSize (st : EFState) : Except PyErr EFState :=
  match st.nEdgeFeatures with
  | none => .ok (efSize st)
  | some e =>
    match EdgeFeature.checkModel ⟨0, 0, e, st.sym, st.anti⟩ with
    | .error err => .error err
    | .ok _ => .ok (efSize st)

/-- `_set_class_weight` of these classes. `pystruct/models/base.py` lines 100-119. -/
def efSetClassWeight (st : EFState) : Except PyErr EFState :=
  match deriveWeights st.derived st.nStates with
  | .error err => .error err
  | .ok d => .ok { st with derived := d }

/-- `EdgeFeatureGraphCRF.__init__`, `pystruct/models/edge_feature_graph_crf.py` lines 58-72. -/
def efConstruct (nStates nFeatures nEdgeFeatures : Option ℕ) (classWeight : Option Vec) (sym anti : List ℕ) :
    Except PyErr EFState :=
  match efSetSize ⟨nStates, nFeatures, nEdgeFeatures, sym, anti, none, classWeight, none⟩ with
  | .error err => .error err
  | .ok st => efSetClassWeight st

/-- `CRF.initialize`, `pystruct/models/crf.py` lines 23-41, for these classes; `setSize` is the
class's `_set_size_joint_feature`. -/
def efBase (setSize : EFState → Except PyErr EFState) (st : EFState) (X : List ℕ) (Y : List (List ℤ)) :
    Except PyErr EFState :=
  match takeFeatures st.nFeatures X with
  | .error err => .error err
  | .ok f =>
    match takeLabels st.nStates Y with
    | .error err => .error err
    | .ok s =>
      match setSize { st with nFeatures := some f, nStates := some s } with
      | .error err => .error err
      | .ok st => efSetClassWeight st

/-- `EdgeFeatureGraphCRF.initialize`, `pystruct/models/edge_feature_graph_crf.py` lines 93-100; `X`
are the numbers of features and of edge features of the samples. -/
def efInitialize (st : EFState) (X : List (ℕ × ℕ)) (Y : List (List ℤ)) : Except PyErr EFState :=
  match takeFeatures st.nEdgeFeatures (X.map Prod.snd) with
  | .error err => .error err
  | .ok e => efBase efSetSize { st with nEdgeFeatures := some e } (X.map Prod.fst) Y

/-- `DirectionalGridCRF.__init__`, `pystruct/models/grid_crf.py` lines 118-124 (it takes no class
weights). -/
def dirConstruct (nStates nFeatures : Option ℕ) (neighborhood : ℕ) : Except PyErr EFState :=
  efSetClassWeight
    (efSize ⟨nStates, nFeatures, some (EdgeFeature.gridEdgeFeatures neighborhood), [], [], none, none, none⟩)

/-- `DirectionalGridCRF.initialize`, `pystruct/models/grid_crf.py` lines 135-137. -/
def dirInitialize (st : EFState) (X : List ℕ) (Y : List (List ℤ)) : Except PyErr EFState :=
  efBase (fun st => .ok (efSize st)) st X Y

/-! ### LatentGraphCRF, LatentGridCRF, LatentDirectionalGridCRF -/

/-- Attributes of a `LatentGraphCRF` or of a latent grid; `neighborhood` and `nEdgeFeatures` are
used by the grids only. `pystruct/models/latent_graph_crf.py` lines 95-125. -/
structure LGState where
  nLabels : Option ℕ
  nFeatures : Option ℕ
  perLabel : LatentGraph.StatesSpec
  nStates : Option ℕ
  neighborhood : ℕ
  nEdgeFeatures : Option ℕ
  derived : Derived

/-- `LatentGraphCRF._set_size_joint_feature`, `pystruct/models/latent_graph_crf.py` lines 102-125.
The model is undirected. The map from states to labels is `LatentGraph.statesMap` of the resulting
list. -/
def lgSetSize (st : LGState) : Except PyErr LGState :=
  match st.nFeatures, st.nLabels with
  | some f, some l =>
    match LatentGraph.statesPerLabel l st.perLabel with
    | .error err => .error err
    | .ok n => .ok { st with
        perLabel := .list n
        nStates := some n.sum
        derived := { st.derived with size := some (GraphCRF.sizeJointFeature ⟨n.sum, f, false⟩) } }
  | _, _ => .ok st

/-- `LatentDirectionalGridCRF._set_size_joint_feature`, `pystruct/models/latent_grid_crf.py` lines
71-73: the size of the grid model is overwritten by the one with edge features. -/
def ldSetSize (st : LGState) : Except PyErr LGState :=
  match lgSetSize st with
  | .error err => .error err
  | .ok st =>
    let r := efSize ⟨st.nStates, st.nFeatures, st.nEdgeFeatures, [], [], st.derived⟩
    .ok { st with derived := r.derived }

/-- `_set_class_weight` of these classes: the number of things is `n_labels`.
`pystruct/models/base.py` lines 100-119. -/
def lgSetClassWeight (st : LGState) : Except PyErr LGState :=
  match deriveWeights st.derived st.nLabels with
  | .error err => .error err
  | .ok d => .ok { st with derived := d }

/-- `CRF.__init__`, `pystruct/models/crf.py` lines 10-21, of these classes, without class weights;
`setSize` is the class's `_set_size_joint_feature`. -/
def lgBase (setSize : LGState → Except PyErr LGState) (nStates nFeatures : Option ℕ) (st : LGState) :
    Except PyErr LGState :=
  match setSize { st with nStates := nStates, nFeatures := nFeatures, derived := ⟨st.derived.size, none, st.derived.uniform⟩ } with
  | .error err => .error err
  | .ok st => lgSetClassWeight st

/-- `LatentGraphCRF.__init__`, `pystruct/models/latent_graph_crf.py` lines 95-100, on an object with
some attributes. -/
def lgConstructOn (setSize : LGState → Except PyErr LGState) (st : LGState) (nLabels nFeatures : Option ℕ)
    (perLabel : LatentGraph.StatesSpec) : Except PyErr LGState :=
  lgBase setSize none nFeatures { st with nLabels := nLabels, perLabel := perLabel }

/-- A new object. `pystruct/models/latent_graph_crf.py` lines 95-100. -/
def lgFresh : LGState := ⟨none, none, .int 2, none, 4, none, none, none, none⟩

/-- `LatentGraphCRF.__init__`, `pystruct/models/latent_graph_crf.py` lines 95-100. -/
def lgConstruct (nLabels nFeatures : Option ℕ) (perLabel : LatentGraph.StatesSpec) : Except PyErr LGState :=
  lgConstructOn lgSetSize lgFresh nLabels nFeatures perLabel

/-- `LatentGridCRF.__init__`, `pystruct/models/latent_grid_crf.py` lines 11-17: the constructor of
`LatentGraphCRF` and then the one of `GridCRF`, which sets the neighbourhood (`grid_crf.py` lines
39-43). -/
def gridConstructOn (setSize : LGState → Except PyErr LGState) (st : LGState) (nLabels nFeatures : Option ℕ)
    (perLabel : LatentGraph.StatesSpec) (neighborhood : ℕ) : Except PyErr LGState :=
  match lgConstructOn setSize st nLabels nFeatures perLabel with
  | .error err => .error err
  | .ok st => lgBase setSize st.nStates st.nFeatures { st with neighborhood := neighborhood }

/-- `LatentGridCRF.__init__`, `pystruct/models/latent_grid_crf.py` lines 11-17. -/
def gridConstruct (nLabels nFeatures : Option ℕ) (perLabel : LatentGraph.StatesSpec) (neighborhood : ℕ) :
    Except PyErr LGState :=
  gridConstructOn lgSetSize lgFresh nLabels nFeatures perLabel neighborhood

/-- `LatentDirectionalGridCRF.__init__`, `pystruct/models/latent_grid_crf.py` lines 62-69: the
constructor of `LatentGridCRF` is called without the neighbourhood, whose default is 4. -/
def ldConstruct (nLabels nFeatures : Option ℕ) (perLabel : LatentGraph.StatesSpec) (neighborhood : ℕ) :
    Except PyErr LGState :=
  gridConstructOn ldSetSize
    { lgFresh with neighborhood := neighborhood, nEdgeFeatures := some (EdgeFeature.gridEdgeFeatures neighborhood) }
    nLabels nFeatures perLabel 4

/-- `LatentGraphCRF.initialize`, `pystruct/models/latent_graph_crf.py` lines 127-142, also used by
the latent grids (`latent_grid_crf.py` lines 22-23 and 75-76). -/
def lgInitialize (setSize : LGState → Except PyErr LGState) (st : LGState) (X : List ℕ) (Y : List (List ℤ)) :
    Except PyErr LGState :=
  match takeFeatures st.nFeatures X with
  | .error err => .error err
  | .ok f =>
    match takeLabels st.nLabels Y with
    | .error err => .error err
    | .ok l =>
      match setSize { st with nFeatures := some f, nLabels := some l } with
      | .error err => .error err
      | .ok st => lgSetClassWeight st

/-! ### LatentNodeCRF, EdgeFeatureLatentNodeCRF -/

/-- Attributes of a `LatentNodeCRF`, or of an `EdgeFeatureLatentNodeCRF` if the number of edge
features is given. `pystruct/models/latent_node_crf.py` lines 107-120 and 383-422. -/
structure LNState where
  nLabels : Option ℕ
  nFeatures : Option ℕ
  nHidden : ℕ
  nStates : Option ℕ
  latentFeatures : Bool
  nEdgeFeatures : Option ℕ
  nInput : Option ℕ
  derived : Derived

/-- `n_input_states * n_features + …`, `pystruct/models/latent_node_crf.py` lines 131-132 and
433-435. -/
def lnSize (nEdgeFeatures : Option ℕ) (input f s : ℕ) : ℕ :=
  match nEdgeFeatures with
  | none => input * f + s * (s + 1) / 2
  | some e => input * f + e * s ^ 2

/-- `_set_size_joint_feature`, `pystruct/models/latent_node_crf.py` lines 122-132 and 424-435.
`n_labels` is known whenever `n_states` is (see the constructors and `initialize`); `None *
n_features` would be a `TypeError`. -/
def lnSetSize (st : LNState) : Except PyErr LNState :=
  match st.nStates, st.nFeatures with
  | some s, some f =>
    match (if st.latentFeatures then some s else st.nLabels) with
    | none => .error .typeError
    | some i => .ok { st with
        nInput := some i
        derived := { st.derived with size := some (lnSize st.nEdgeFeatures i f s) } }
  | _, _ => .ok st

/-- `_set_class_weight` of these classes: the number of things is `n_labels`.
`pystruct/models/base.py` lines 100-119. -/
def lnSetClassWeight (st : LNState) : Except PyErr LNState :=
  match deriveWeights st.derived st.nLabels with
  | .error err => .error err
  | .ok d => .ok { st with derived := d }

/-- `LatentNodeCRF.__init__`, `pystruct/models/latent_node_crf.py` lines 107-120. -/
def lnConstruct (nLabels nFeatures : Option ℕ) (nHidden : ℕ) (classWeight : Option Vec) (latentFeatures : Bool) :
    Except PyErr LNState :=
  match lnSetSize ⟨nLabels, nFeatures, nHidden, nLabels.map (nHidden + ·), latentFeatures, none, none, none,
      classWeight, none⟩ with
  | .error err => .error err
  | .ok st => lnSetClassWeight st

/-- `EdgeFeatureLatentNodeCRF.__init__`, `pystruct/models/latent_node_crf.py` lines 383-422:
`n_labels=None` is a `TypeError` (`n_hidden_states + None`, or `None * n_features`), and
`n_features=None` means `n_labels`. -/
def elnConstruct (nLabels nFeatures : Option ℕ) (nEdgeFeatures nHidden : ℕ) (classWeight : Option Vec)
    (latentFeatures : Bool) (sym anti : List ℕ) : Except PyErr LNState :=
  match nLabels with
  | none => .error .typeError
  | some l =>
    if ¬ ∀ i ∈ sym, i ∉ anti then .error .valueError
    else
      match lnSetSize ⟨some l, some (nFeatures.getD l), nHidden, some (nHidden + l), latentFeatures,
          some nEdgeFeatures, none, none, classWeight, none⟩ with
      | .error err => .error err
      | .ok st => lnSetClassWeight st

/-- `LatentNodeCRF.initialize`, `pystruct/models/latent_node_crf.py` lines 134-150, inherited by
`EdgeFeatureLatentNodeCRF`. -/
def lnInitialize (st : LNState) (X : List ℕ) (Y : List (List ℤ)) : Except PyErr LNState :=
  match takeFeatures st.nFeatures X with
  | .error err => .error err
  | .ok f =>
    match takeLabels st.nLabels Y with
    | .error err => .error err
    | .ok l =>
      match lnSetSize { st with nFeatures := some f, nLabels := some l, nStates := some (st.nHidden + l) } with
      | .error err => .error err
      | .ok st => lnSetClassWeight st

/-! ### BinaryClf, MultiClassClf -/

/-- `BinaryClf.initialize`, `pystruct/models/unstructured_svm.py` lines 32-38, for `X` with `cols`
columns; the attribute is `size_joint_feature`, set by the constructor (lines 27-30) to the argument
`n_features`. -/
def binInitialize (size : Option ℕ) (cols : ℕ) : Except PyErr (Option ℕ) :=
  match reconcile size cols with
  | .error err => .error err
  | .ok n => .ok (some n)

/-- Attributes of a `MultiClassClf`. `pystruct/models/unstructured_svm.py` lines 165-174. -/
structure MCState where
  nStates : Option ℕ
  nFeatures : Option ℕ
  derived : Derived

/-- `MultiClassClf._set_size_joint_feature`, `pystruct/models/unstructured_svm.py` lines 176-178. -/
def mcSetSize (st : MCState) : MCState :=
  match st.nStates, st.nFeatures with
  | some s, some f => { st with derived := { st.derived with size := some (s * f) } }
  | _, _ => st

/-- `_set_class_weight` of a `MultiClassClf`. `pystruct/models/base.py` lines 100-119. -/
def mcSetClassWeight (st : MCState) : Except PyErr MCState :=
  match deriveWeights st.derived st.nStates with
  | .error err => .error err
  | .ok d => .ok { st with derived := d }

/-- `MultiClassClf.__init__`, `pystruct/models/unstructured_svm.py` lines 165-174. -/
def mcConstruct (nFeatures nClasses : Option ℕ) (classWeight : Option Vec) : Except PyErr MCState :=
  mcSetClassWeight (mcSetSize ⟨nClasses, nFeatures, none, classWeight, none⟩)

/-- `MultiClassClf.initialize`, `pystruct/models/unstructured_svm.py` lines 180-195, for `X` with
`cols` columns. -/
def mcInitialize (st : MCState) (cols : ℕ) (Y : List (List ℤ)) : Except PyErr MCState :=
  match reconcile st.nFeatures cols with
  | .error err => .error err
  | .ok f =>
    match takeLabels st.nStates Y with
    | .error err => .error err
    | .ok s => mcSetClassWeight (mcSetSize { st with nFeatures := some f, nStates := some s })

end Verif.Init
