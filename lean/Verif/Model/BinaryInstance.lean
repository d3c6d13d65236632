import Verif.Model.Instances
import Verif.Model.OneSlack

/-!
# `BinaryClf` behind the learner interface

`loss_augmented_inference` of a `BinaryClf` may return 0, for which `joint_feature` raises `ValueError` but
`batch_joint_feature` does not. Code that works on one sample at a time (`find_constraint` and all its callers) and code that
works on batches (the main loop of `OneSlackSSVM`) therefore see different models.
-/

namespace Verif.Learner

open Finset Verif.Common Verif.Unstructured

/-- An initialised `BinaryClf` (`pystruct/models/unstructured_svm.py` lines 7-130) as `OneSlackSSVM` sees it in its main loop: the
joint feature of one sample is its summand of `batch_joint_feature` (lines 67-68), which is defined for the label 0, too. Samples are
feature vectors of the right length. `max_loss` is that of `pystruct/models/base.py` lines 72-76 on a label of type `np.int64`. -/
def binaryModel (F : ℕ) : SModel (ℕ → ℚ) ℤ where
  dim := F
  jointFeature x y := (okD ⟨0, fun _ => 0⟩ (binBatchJointFeature ⟨1, F, fun _ => x⟩ ⟨1, fun _ => y⟩)).get
  rescaleC := false
  jointFeatureR x y _ := (okD ⟨0, fun _ => 0⟩ (binBatchJointFeature ⟨1, F, fun _ => x⟩ ⟨1, fun _ => y⟩)).get
  lossAug x y w _ := okD 0 (binLossAugmented ⟨F, x⟩ y ⟨F, w⟩)
  inference x w := okD 0 (binInference ⟨F, x⟩ ⟨F, w⟩)
  isTuple _ := false
  loss := binLoss
  continuousLoss _ _ := 0
  maxLoss _ := 1

/-- `find_constraint(model, x, y, w)` of `pystruct/utils/inference.py` lines 54-83, for a `BinaryClf`, with the exceptions its
methods raise. -/
def binFindConstraint (F : ℕ) (x : ℕ → ℚ) (y : ℤ) (w : W) : Except PyErr (Constraint ℤ) :=
  match binLossAugmented ⟨F, x⟩ y ⟨F, w⟩ with
  | .error err => .error err
  | .ok yh =>
    match binJointFeature ⟨F, x⟩ yh with
    | .error err => .error err
    | .ok a =>
      match binJointFeature ⟨F, x⟩ y with
      | .error err => .error err
      | .ok b =>
        let delta : W := fun k => -a.get k + b.get k
        let l := binLoss y yh
        .ok ⟨yh, delta, max (l - dot F w delta) 0, l⟩

/-- The loop of `objective_primal`, `pystruct/utils/inference.py` lines 117-121, for a `BinaryClf`: the slacks, or the first
exception. -/
def binSlacks (F : ℕ) (w : W) : List ((ℕ → ℚ) × ℤ) → Except PyErr (List ℚ)
  | [] => .ok []
  | s :: r =>
    match binFindConstraint F s.1 s.2 w with
    | .error err => .error err
    | .ok c =>
      match binSlacks F w r with
      | .error err => .error err
      | .ok l => .ok (c.slack :: l)

/-- `objective_primal`, `pystruct/utils/inference.py` lines 115-127, for a `BinaryClf`, with the exceptions of its methods. -/
def binObjectivePrimal (F : ℕ) (w : W) (samples : List ((ℕ → ℚ) × ℤ)) (C : ℚ) (nSlack : Bool) : Except PyErr ℚ :=
  if samples.isEmpty then .error .indexError
  else
    match binSlacks F w samples with
    | .error err => .error err
    | .ok slacks =>
      let slacks := if nSlack then slacks.map (fun s => max s 0) else slacks
      .ok (max slacks.sum 0 * C + (∑ k ∈ range F, w k ^ 2) / 2)

/-- `OneSlackSSVM(BinaryClf(...), ...).fit(X, Y)`, `pystruct/learners/one_slack_ssvm.py` lines 398-552, without cache of inference
results (`inference_cache=0`, the default): the main loop works on batches; the final call of `_objective` (line 541) works on single
samples and may raise. -/
def binOneSlackFit (F : ℕ) (qp : QP.Solver) (o : OneSlack.Obj ℤ) (samples : List ((ℕ → ℚ) × ℤ)) :
    Except PyErr (OneSlack.Obj ℤ) :=
  match OneSlack.fit (binaryModel F) qp (fun a b => .ok (decide (a = b))) none (fun _ => none) o samples .no with
  | .error err => .error err
  | .ok o' =>
    match o'.attrs with
    | none => .ok o'
    | some a =>
      match binObjectivePrimal F a.w samples o.cfg.C false with
      | .error err => .error err
      | .ok _ => .ok o'

end Verif.Learner
