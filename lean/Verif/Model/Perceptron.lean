import Verif.Model.Learner

/-!
# Model of `pystruct/learners/structured_perceptron.py`
-/

namespace Verif.Perceptron

open Verif.Learner

/-- The parameter `average`: `False`, `True` or an integer.
`pystruct/learners/structured_perceptron.py` lines 80 and 103-110. -/
inductive Average where
  | off
  | on
  | after (k : ℤ)
  deriving DecidableEq

/-- Constructor parameters, `pystruct/learners/structured_perceptron.py` lines 72-80. `lr t` is the
effective learning rate `(t + decay_t0) ** decay_exponent` of lines 122-123 (a real power, hence a
parameter here; without decay it is constantly 1). -/
structure Config where
  maxIter : ℕ
  batch : Bool
  lr : ℕ → ℚ

/-- One visit of a sample (ghost state, recorded for specifications only): epoch, weights used for
inference, loss of the prediction, weights afterwards. `pystruct/learners/structured_perceptron.py`
lines 128-154. -/
structure Visit where
  epoch : ℕ
  before : W
  loss : ℚ
  after : W

/-- Local variables and attributes during `fit`. `visits` is ghost state: every visit of a sample.
An entry `none` of the loss curve stands for a value that is not a number (`max_losses` zero).
`pystruct/learners/structured_perceptron.py` lines 101-124. -/
structure St where
  w : W
  wbar : W
  nObs : ℕ
  curve : List (Option ℚ)
  visits : List Visit

/-- `self.w += effective_lr * (joint_feature(x, y) - joint_feature(x, y_hat))` if the loss is not
zero, `pystruct/learners/structured_perceptron.py` lines 134-136 and 147-149. Simplification: for a model with `rescale_C` these calls
of `joint_feature` lack the true label and raise `ValueError`, which is not modelled. -/
def update {X Y : Type} (m : SModel X Y) (lr : ℚ) (w : W) (x : X) (y yhat : Y) : W :=
  if m.loss y yhat ≠ 0 then fun k => w k + lr * (m.jointFeature x y k - m.jointFeature x yhat k)
  else w

/-- The running mean, `pystruct/learners/structured_perceptron.py` lines 137-140 and 150-154; `avg`
is `none` for `False`. -/
def observe (avg : Option ℤ) (iteration : ℕ) (st : St) : St :=
  match avg with
  | none => st
  | some k =>
    if k ≤ iteration then
      { st with
        nObs := st.nObs + 1
        wbar := fun j => (1 - 1 / ((st.nObs + 1 : ℕ) : ℚ)) * st.wbar j +
          1 / ((st.nObs + 1 : ℕ) : ℚ) * st.w j }
    else st

/-- Body of the online loop, `pystruct/learners/structured_perceptron.py` lines 143-154; the second
component is `losses`. -/
def onlineStep {X Y : Type} (m : SModel X Y) (avg : Option ℤ) (lr : ℚ) (it : ℕ) (st : St × ℚ)
    (s : X × Y) : St × ℚ :=
  let yhat := m.inference s.1 st.1.w
  let w := update m lr st.1.w s.1 s.2 yhat
  (observe avg it { st.1 with
      w := w
      visits := st.1.visits ++ [⟨it, st.1.w, m.loss s.2 yhat, w⟩] },
    st.2 + m.loss s.2 yhat)

/-- Body of the batch loop, `pystruct/learners/structured_perceptron.py` lines 128-136: all
predictions were made with the weights `w0`. -/
def batchStep {X Y : Type} (m : SModel X Y) (lr : ℚ) (it : ℕ) (w0 : W) (st : St × ℚ)
    (s : X × Y) : St × ℚ :=
  let yhat := m.inference s.1 w0
  let w := update m lr st.1.w s.1 s.2 yhat
  ({ st.1 with
      w := w
      visits := st.1.visits ++ [⟨it, w0, m.loss s.2 yhat, w⟩] },
    st.2 + m.loss s.2 yhat)

/-- One pass over the data, `pystruct/learners/structured_perceptron.py` lines 117-154. -/
def pass {X Y : Type} (m : SModel X Y) (cfg : Config) (avg : Option ℤ) (samples : List (X × Y))
    (it : ℕ) (st : St) : St × ℚ :=
  let st := if avg = some (-1) then { st with nObs := 0, wbar := fun _ => 0 } else st
  let lr := cfg.lr it
  if cfg.batch then
    let r := samples.foldl (batchStep m lr it st.w) (st, 0)
    (observe avg it r.1, r.2)
  else samples.foldl (onlineStep m avg lr it) (st, 0)

/-- `float(losses) / max_losses`, `pystruct/learners/structured_perceptron.py` line 155; `none` if
the division does not give a number. -/
def curveEntry (losses maxLosses : ℚ) : Option ℚ :=
  if maxLosses = 0 then none else some (losses / maxLosses)

/-- The loop over iterations with early stopping, `pystruct/learners/structured_perceptron.py` lines
116-163. `KeyboardInterrupt`: see `Interrupt`. -/
def loop {X Y : Type} (m : SModel X Y) (cfg : Config) (avg : Option ℤ) (samples : List (X × Y))
    (maxLosses : ℚ) : ℕ → ℕ → St → St
  | 0, _, st => st
  | n + 1, it, st =>
    let r := pass m cfg avg samples it st
    let st := { r.1 with
      curve := r.1.curve ++ [curveEntry r.2 maxLosses] }
    if curveEntry r.2 maxLosses = some 0 then st
    else loop m cfg avg samples maxLosses n (it + 1) st

/-- A learner object: constructor parameters and the attributes written by `fit`.
`pystruct/learners/structured_perceptron.py` lines 72-80 and 102-114. -/
structure Obj where
  cfg : Config
  average : Average
  w : W
  lossCurve : List (Option ℚ)

/-- The value of `self.average` after `pystruct/learners/structured_perceptron.py` lines 103-110;
`raise NotImplemented(...)` is a `TypeError` since `NotImplemented` cannot be called. -/
def normAverage : Average → Except PyErr (Option ℤ)
  | .off => .ok none
  | .on => .ok (some 0)
  | .after k => if k < -1 then .error .typeError else .ok (some k)

/-- State at the start of training, `pystruct/learners/structured_perceptron.py` lines 101-114. -/
def start : St := ⟨fun _ => 0, fun _ => 0, 0, [], []⟩

/-- The state when the loop of `fit` ends, `pystruct/learners/structured_perceptron.py` lines
101-163. -/
def train {X Y : Type} (m : SModel X Y) (cfg : Config) (avg : Option ℤ) (samples : List (X × Y)) : St :=
  loop m cfg avg samples (samples.map fun s => m.maxLoss s.2).sum cfg.maxIter 0 start

/-- `fit`, `pystruct/learners/structured_perceptron.py` lines 82-170, after `model.initialize`. -/
def fit {X Y : Type} (m : SModel X Y) (o : Obj) (samples : List (X × Y)) : Except PyErr Obj :=
  match normAverage o.average with
  | .error err => .error err
  | .ok avg =>
    let st := train m o.cfg avg samples
    .ok { o with
      average := match avg with
        | none => .off
        | some k => .after k
      w := if avg = none then st.w else st.wbar
      lossCurve := st.curve }

end Verif.Perceptron
