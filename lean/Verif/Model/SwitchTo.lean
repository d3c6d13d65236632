import Verif.Model.OneSlack
import Verif.Model.NSlack

/-!
# Model of the parameter `switch_to` of the cutting-plane learners

`OneSlack.fit` and `NSlack.fit` are given the methods to switch to; here the inference method is an attribute of the model, which
is read and overwritten by `fit`.
-/

namespace Verif.SwitchTo

open Verif.Common Verif.Learner

/-- A model whose decoding depends on the attribute `inference_method` (`pystruct/models/crf.py` lines 115-118 and 171-183); `M` are
the values of the attribute, and `base` the rest of the model (its own decoding is not used). -/
structure MethodModel (X Y M : Type) where
  base : SModel X Y
  lossAug : M → X → Y → W → Bool → Y
  inference : M → X → W → Y

/-- The model while its attribute `inference_method` is `μ`. `pystruct/learners/one_slack_ssvm.py`
lines 484-492. Also `pystruct/learners/n_slack_ssvm.py` lines 368-375. -/
def MethodModel.using {X Y M : Type} (mm : MethodModel X Y M) (μ : M) : SModel X Y :=
  { mm.base with lossAug := mm.lossAug μ, inference := mm.inference μ }

/-- What `fit` may switch to: the test `self.switch_to is not None and self.model.inference_method != self.switch_to`,
`pystruct/learners/one_slack_ssvm.py` lines 484-486 and `pystruct/learners/n_slack_ssvm.py` lines 368-369. -/
def MethodModel.alt {X Y M : Type} [DecidableEq M] (mm : MethodModel X Y M) (μ : M) (switchTo : Option M) :
    Option ((X → Y → W → Bool → Y) × (X → W → Y)) :=
  match switchTo with
  | none => none
  | some t => if μ ≠ t then some (mm.lossAug t, mm.inference t) else none

/-- The attribute `inference_method` after training, `pystruct/learners/one_slack_ssvm.py` line 492 and
`pystruct/learners/n_slack_ssvm.py` line 375: `switch_to` if training switched. It is not restored. -/
def methodAfter {M : Type} (μ : M) (switchTo : Option M) (switched : Bool) : M :=
  if switched then switchTo.getD μ else μ

/-- `OneSlackSSVM.fit`, `pystruct/learners/one_slack_ssvm.py` lines 398-552, for a learner with the parameter `switch_to` and a model
with `inference_method = μ`: the learner and the inference method of the model afterwards. (The loop is run for the flag and, inside
of `fit`, for the attributes; both runs are the same.) -/
def oneSlackFit {X Y M : Type} [DecidableEq M] (mm : MethodModel X Y M) (qp : QP.Solver) (eq : Y → Y → Except PyErr Bool) (μ : M)
    (switchTo : Option M) (intr : ℕ → Option OneSlack.Phase) (o : OneSlack.Obj Y) (samples : List (X × Y)) (warm : OneSlack.Warm) :
    Except PyErr (OneSlack.Obj Y × M) := do
  let st ← OneSlack.start (mm.using μ) o warm
  let st ← OneSlack.loop qp eq (mm.alt μ switchTo) o.cfg samples (OneSlack.jointFeatureGt (mm.using μ) samples) intr o.cfg.maxIter 0 st
  let o' ← OneSlack.fit (mm.using μ) qp eq (mm.alt μ switchTo) intr o samples warm
  .ok (o', methodAfter μ switchTo st.switched)

/-- `NSlackSSVM.fit`, `pystruct/learners/n_slack_ssvm.py` lines 240-400, in the same way. -/
def nSlackFit {X Y M : Type} [DecidableEq M] (mm : MethodModel X Y M) (qp : QP.Solver) (eq : Y → Y → Bool) (μ : M)
    (switchTo : Option M) (intr : ℕ → ℕ → Option OneSlack.Phase) (o : NSlack.Obj Y) (samples : List (X × Y))
    (constraints : Option (List (List (NSlack.NCon Y)))) : Except PyErr (NSlack.Obj Y × NSlack.Outcome × M) := do
  let st ← NSlack.start (mm.using μ) qp o samples.length constraints
  let (st, _) ← NSlack.loop qp eq (mm.alt μ switchTo) o.cfg samples intr o.cfg.maxIter 0 st
  let (o', out) ← NSlack.fit (mm.using μ) qp eq (mm.alt μ switchTo) intr o samples constraints
  .ok (o', out, methodAfter μ switchTo st.switched)

end Verif.SwitchTo
