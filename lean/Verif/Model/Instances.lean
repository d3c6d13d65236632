import Verif.Model.Learner
import Verif.Model.Unstructured
import Verif.Model.GraphCRF
import Verif.Model.Loss

/-!
# Concrete models seen through the learner interface
-/

namespace Verif.Learner

open Verif.Unstructured

/-- Value of a computation that does not raise. Used for calls in `pystruct/utils/inference.py`
lines 64-83. Simplification: learners that call a method that raises are not covered. -/
def okD {α : Type} (d : α) : Except PyErr α → α
  | .ok a => a
  | .error _ => d

/-- An initialised `MultiClassClf` (`pystruct/models/unstructured_svm.py` lines 133-335) behind the
learner interface: samples are feature vectors of the right length, labels are class indices.
`max_loss` is that of `pystruct/models/base.py` lines 72-76 on a scalar label. -/
def multiClassModel (m : MultiClass) : SModel (ℕ → ℚ) ℕ where
  dim := m.size
  jointFeature x y := (okD ⟨0, fun _ => 0⟩ (mcJointFeature m ⟨m.nFeatures, x⟩ y none)).get
  rescaleC := m.rescaleC
  jointFeatureR x y t := (okD ⟨0, fun _ => 0⟩ (mcJointFeature m ⟨m.nFeatures, x⟩ y (some t))).get
  lossAug x y w _ := okD 0 (mcLossAugmented m ⟨m.nFeatures, x⟩ y ⟨m.size, w⟩)
  inference x w := okD 0 (mcInference m ⟨m.nFeatures, x⟩ ⟨m.size, w⟩)
  isTuple _ := false
  loss y yhat := okD 0 (mcLoss m y yhat)
  continuousLoss _ _ := 0
  maxLoss y := m.classWeight.get y

/-- `joint_feature(x, y)` of a `GraphCRF` (`pystruct/models/graph_crf.py` lines 159-212), as a function on indices. -/
def graphFeature (m : GraphCRF.Model) (x : GraphCRF.X) (y : YVal) : W :=
  (okD ⟨0, fun _ => 0⟩ (GraphCRF.jointFeature m x y)).get

/-- `loss_augmented_inference` of a `GraphCRF` (`pystruct/models/crf.py` lines 108-118); the true label of a sample is a label array (`np.asarray` of
a tuple of marginals would not be). -/
def graphLossAug (backend : Bool → GraphCRF.Infer) (cw : Vec) (m : GraphCRF.Model) (x : GraphCRF.X) (y : YVal)
    (w : W) (relaxed : Bool) : YVal :=
  match y with
  | .discrete t => okD y (GraphCRF.lossAugmentedInference (backend relaxed) cw m x t
      ⟨GraphCRF.sizeJointFeature m, w⟩)
  | .relaxed _ _ => y

/-- `continuous_loss(y, y_hat[0])` of a `GraphCRF`, `pystruct/models/base.py` lines 78-89, for a label array and
a tuple of marginals whose first component has one row of length `n_states` per node. -/
def graphContinuousLoss (cw : Vec) (nStates : ℕ) (y yhat : YVal) : ℚ :=
  match y, yhat with
  | .discrete t, .relaxed u _ => okD 0 (Loss.continuousLoss (some cw) t
      ⟨u.size / nStates, nStates, fun i s => u.get (i * nStates + s)⟩)
  | _, _ => 1

/-- `loss(y, y_hat)` of a `GraphCRF`, `pystruct/models/base.py` lines 60-66: tuples of marginals are passed on to
`continuous_loss`. -/
def graphLoss (cw : Vec) (nStates : ℕ) (y yhat : YVal) : ℚ :=
  match y, yhat with
  | .discrete t, .discrete yh => okD 0 (Loss.loss (some cw) t yh)
  | y, yhat => graphContinuousLoss cw nStates y yhat

/-- `max_loss(y)` of a `GraphCRF`, `pystruct/models/base.py` lines 72-76, for a label array. -/
def graphMaxLoss (cw : Vec) (y : YVal) : ℚ :=
  match y with
  | .discrete t => okD 0 (Loss.maxLoss (some cw) t)
  | .relaxed _ _ => 1

/-- An initialised `GraphCRF` (`pystruct/models/graph_crf.py`, `pystruct/models/crf.py`) or, on chain instances,
`ChainCRF` behind the learner interface. `backend relaxed` is the inference method called with that value of
`relaxed`; `cw` are the class weights. Values for arguments that raise, such as a tuple of marginals in place of
a true label, are arbitrary. -/
def graphModel (backend : Bool → GraphCRF.Infer) (cw : Vec) (m : GraphCRF.Model) : SModel GraphCRF.X YVal where
  dim := GraphCRF.sizeJointFeature m
  jointFeature x y := graphFeature m x y
  rescaleC := false
  jointFeatureR x y _ := graphFeature m x y
  lossAug x y w relaxed := graphLossAug backend cw m x y w relaxed
  inference x w := okD (.discrete ⟨0, fun _ => 0⟩)
    (GraphCRF.inference (backend false) m x ⟨GraphCRF.sizeJointFeature m, w⟩)
  isTuple y := match y with
    | .discrete _ => false
    | .relaxed _ _ => true
  loss y yhat := graphLoss cw m.nStates y yhat
  continuousLoss y yhat := graphContinuousLoss cw m.nStates y yhat
  maxLoss y := graphMaxLoss cw y

/-- The comparison of plain outputs in `NSlackSSVM._check_bad_constraint` (`pystruct/learners/n_slack_ssvm.py` lines 209-213,
`unwrap_pairwise` in `pystruct/utils/inference.py` lines 7-11), for outputs of a `GraphCRF`: label arrays entry by entry, and
of tuples of marginals only the unary marginals. Arrays of different shapes are taken to be different (broadcasting is not
modelled). -/
def graphEq (a b : YVal) : Bool :=
  match a, b with
  | .discrete y, .discrete z => decide (y.size = z.size ∧ ∀ i < y.size, y.get i = z.get i)
  | .relaxed u _, .relaxed v _ => decide (u.size = v.size ∧ ∀ i < u.size, u.get i = v.get i)
  | _, _ => false

end Verif.Learner
