import Verif.Basic.Arr
import Verif.Model.Batch

/-!
# What learners see of a model; `pystruct/utils/inference.py` and `pystruct/learners/ssvm.py`

Learners access a structured model only through a few methods. `SModel` records these for a model whose
methods succeed on all the samples considered (an exception of the model propagates unchanged and is
not represented here).
-/

namespace Verif.Learner

open Finset

/-- Weight vectors and joint features: entries by index; only the first `dim` matter.
`pystruct/models/base.py` lines 21-24 and 34. -/
abbrev W := ℕ → ℚ

/-- The interface `StructuredModel` (`pystruct/models/base.py` lines 14-119) as used by learners.
`X` are samples, `Y` labels: discrete ones and the tuples of marginals that relaxed inference
returns. Methods are modelled as functions of their arguments: the only state a model changes is the
counter `inference_calls`, which no learner reads. -/
structure SModel (X Y : Type) where
  /-- `size_joint_feature` -/
  dim : ℕ
  /-- `joint_feature(x, y)` -/
  jointFeature : X → Y → W
  /-- `getattr(model, 'rescale_C', False)` -/
  rescaleC : Bool
  /-- `joint_feature(x, y, y_true)`, used only if `rescaleC` -/
  jointFeatureR : X → Y → Y → W
  /-- `loss_augmented_inference(x, y, w, relaxed=relaxed)` -/
  lossAug : X → Y → W → Bool → Y
  /-- `inference(x, w)` -/
  inference : X → W → Y
  /-- `isinstance(y, tuple)` -/
  isTuple : Y → Bool
  /-- `loss(y, y_hat)` -/
  loss : Y → Y → ℚ
  /-- `continuous_loss(y, y_hat[0])` -/
  continuousLoss : Y → Y → ℚ
  /-- `max_loss(y)` -/
  maxLoss : Y → ℚ

/-- Joint feature of the candidate `yhat` for a sample with true label `y`, as selected by
`find_constraint`, `pystruct/utils/inference.py` lines 67-75. -/
def SModel.feat {X Y : Type} (m : SModel X Y) (x : X) (yhat y : Y) : W :=
  if m.rescaleC then m.jointFeatureR x yhat y else m.jointFeature x yhat

/-- Loss of the candidate `yhat`, as selected by `find_constraint`,
`pystruct/utils/inference.py` lines 77-81. -/
def SModel.lossOf {X Y : Type} (m : SModel X Y) (y yhat : Y) : ℚ :=
  if m.isTuple yhat then m.continuousLoss y yhat else m.loss y yhat

/-- Result of `find_constraint`: the tuple `y_hat, delta_joint_feature, slack, loss`.
`pystruct/utils/inference.py` line 83. -/
structure Constraint (Y : Type) where
  yhat : Y
  delta : W
  slack : ℚ
  loss : ℚ

/-- `find_constraint`, `pystruct/utils/inference.py` lines 54-83, all of its arguments. -/
def findConstraint {X Y : Type} (m : SModel X Y) (x : X) (y : Y) (w : W) (yhat : Option Y)
    (relaxed computeDifference : Bool) : Constraint Y :=
  let yh := match yhat with
    | some yh => yh
    | none => m.lossAug x y w relaxed
  let delta : W :=
    if computeDifference then fun k => -m.feat x yh y k + m.feat x y y k
    else fun k => -m.feat x yh y k
  let l := m.lossOf y yh
  ⟨yh, delta, max (l - dot m.dim w delta) 0, l⟩

/-- `objective_primal`, `pystruct/utils/inference.py` lines 115-127; the defaults of `find_constraint`
are `relaxed=True`, `compute_difference=True`. `nSlack` says whether `variant == 'n_slack'`. Without
samples `list(zip(*constraints))[2]` raises `IndexError`. The parallel map of joblib returns the
results in order (see `Verif.Batch.parallelRun`). -/
def objectivePrimal {X Y : Type} (m : SModel X Y) (w : W) (samples : List (X × Y)) (C : ℚ)
    (nSlack : Bool) : Except PyErr ℚ :=
  if samples.isEmpty then .error .indexError
  else
    let slacks := samples.map fun s => (findConstraint m s.1 s.2 w none true true).slack
    let slacks := if nSlack then slacks.map (fun s => max s 0) else slacks
    .ok (max slacks.sum 0 * C + (∑ k ∈ range m.dim, w k ^ 2) / 2)

/-- `BaseSSVM.score`, `pystruct/learners/ssvm.py` lines 59-84, for the predictions `pred` of `predict`;
`batch_loss` is the list of losses of the pairs. A zero denominator gives `nan` in numpy and `0/0 = 0`
here: theorems assume it is positive. -/
def score {X Y : Type} (m : SModel X Y) (Ys pred : List Y) : ℚ :=
  1 - ((Ys.zip pred).map fun p => m.loss p.1 p.2).sum / (Ys.map m.maxLoss).sum

/-- `BaseSSVM.predict` with `n_jobs == 1`, `pystruct/learners/ssvm.py` lines 48-57. -/
def predict {X Y : Type} (m : SModel X Y) (w : W) (X : List X) : List Y :=
  X.map fun x => m.inference x w

/-- `BaseSSVM._compute_training_loss`, `pystruct/learners/ssvm.py` lines 86-95: appends to
`loss_curve_` in iterations divisible by `show_loss_every`. -/
def computeTrainingLoss {X Y : Type} (m : SModel X Y) (showLossEvery : ℕ) (w : W)
    (samples : List (X × Y)) (iteration : ℕ) (curve : List ℚ) : List ℚ :=
  if showLossEvery ≠ 0 ∧ iteration % showLossEvery = 0 then
    curve ++ [1 - score m (samples.map Prod.snd) (predict m w (samples.map Prod.fst))]
  else curve

/-- `BaseSSVM._objective`, `pystruct/learners/ssvm.py` lines 97-103. -/
def objective {X Y : Type} (m : SModel X Y) (isOneSlack : Bool) (w : W) (samples : List (X × Y))
    (C : ℚ) : Except PyErr ℚ :=
  objectivePrimal m w samples C (!isOneSlack)

end Verif.Learner
