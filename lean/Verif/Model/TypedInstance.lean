import Verif.Model.Instances
import Verif.Model.Typed

/-!
# `NodeTypeEdgeFeatureGraphCRF` seen through the learner interface
-/

namespace Verif.Learner

open Verif.Typed

/-- `joint_feature(x, y)` of a `NodeTypeEdgeFeatureGraphCRF`, `pystruct/models/node_type_edge_feature_graph_crf.py` lines 299-425, as
a function on indices. -/
def typedFeature (m : Typed.Model) (x : Typed.X) (y : TVal) : W := (okD ⟨0, fun _ => 0⟩ (Typed.jointFeature m x y)).get

/-- `loss_augmented_inference` of a `NodeTypeEdgeFeatureGraphCRF`, `pystruct/models/crf.py` lines 108-118; the true label of a sample is
an array of labels (marginals would not be accepted, the value is arbitrary). -/
def typedLossAug (solver : Typed.Solver) (m : Typed.Model) (x : Typed.X) (y : TVal) (w : W) (relaxed : Bool) : TVal :=
  match y with
  | .discrete t => (okD (y, 0) (Typed.lossAugmentedInference solver m x t ⟨m.size, w⟩ relaxed)).1
  | y => y

/-- `continuous_loss(y, y_hat[0])` of a typed CRF, `pystruct/models/typed_crf.py` lines 321-342, for a label array and the lists of
marginals that AD3 returns. -/
def typedContinuousLoss (m : Typed.Model) (y yhat : TVal) : ℚ :=
  match y, yhat with
  | .discrete t, .lists us _ => okD 0 (Typed.continuousLoss m t us)
  | _, _ => 1

/-- `loss(y, y_hat)` of a typed CRF, `pystruct/models/base.py` lines 60-66: tuples of marginals are passed on to `continuous_loss`. -/
def typedPlainLoss (m : Typed.Model) (y yhat : TVal) : ℚ :=
  match y, yhat with
  | .discrete t, .discrete z => okD 0 (Typed.loss m t z)
  | y, yhat => typedContinuousLoss m y yhat

/-- `max_loss(y)` of a typed CRF, `pystruct/models/base.py` lines 72-76, for an array of non-negative labels. -/
def typedMaxLoss (m : Typed.Model) (y : TVal) : ℚ :=
  match y with
  | .discrete t => okD 0 (Loss.maxLoss (some m.allWeights) (toLabels t))
  | _ => 1

/-- `isinstance(y_hat, tuple)` of what inference returns, `pystruct/utils/inference.py` line 77. -/
def typedTuple (y : TVal) : Bool :=
  match y with
  | .discrete _ => false
  | _ => true

/-- A constructed `NodeTypeEdgeFeatureGraphCRF` (`pystruct/models/node_type_edge_feature_graph_crf.py` lines 104-440,
`pystruct/models/typed_crf.py` lines 45-342) behind the learner interface; `solver` is AD3. Values for arguments that raise, such as
marginals in place of a true label, are arbitrary. -/
def typedModel (solver : Typed.Solver) (m : Typed.Model) : SModel Typed.X TVal where
  dim := m.size
  jointFeature x y := typedFeature m x y
  rescaleC := false
  jointFeatureR x y _ := typedFeature m x y
  lossAug x y w relaxed := typedLossAug solver m x y w relaxed
  inference x w := (okD (.discrete [], 0) (Typed.inference solver m false x ⟨m.size, w⟩ false)).1
  isTuple y := typedTuple y
  loss y yhat := typedPlainLoss m y yhat
  continuousLoss y yhat := typedContinuousLoss m y yhat
  maxLoss y := typedMaxLoss m y

/-- The comparison of outputs in `NSlackSSVM._check_bad_constraint` (`pystruct/learners/n_slack_ssvm.py` lines 209-213) for outputs of a
typed CRF: label arrays entry by entry, of equal length. Comparing lists of arrays is not modelled (counts as different). -/
def typedEq (a b : TVal) : Bool :=
  match a, b with
  | .discrete y, .discrete z => decide (y = z)
  | _, _ => false

end Verif.Learner
