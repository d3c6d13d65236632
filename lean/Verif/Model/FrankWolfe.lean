import Verif.Model.Learner

/-!
# Model of `pystruct/learners/frankwolfe_ssvm.py`

Not modelled: `logger` (see `TrainingLog`), printing, `timestamps_` (see `Timing`), `KeyboardInterrupt` (see `Interrupt`). The order in which samples are visited
(lines 214-218: a random permutation, random draws with replacement, or sequential) is a parameter.
-/

namespace Verif.FrankWolfe

open Finset Verif.Learner

/-- Constructor parameters, `pystruct/learners/frankwolfe_ssvm.py` lines 106-127; `sample_method` and
`random_state` appear as the parameter `order` of `fit`. -/
structure Config where
  maxIter : ℕ
  C : ℚ
  tol : ℚ
  batchMode : Bool
  lineSearch : Bool
  checkDualEvery : ℕ
  averaging : Bool

/-- The constant `eps` of `pystruct/learners/frankwolfe_ssvm.py` lines 170 and 230. -/
def eps : ℚ := 1 / 10 ^ 15

/-- `max(0.0, min(1.0, gamma))`, `pystruct/learners/frankwolfe_ssvm.py` lines 172 and 234. -/
def clip (g : ℚ) : ℚ := max 0 (min 1 g)

/-- `joint_feature_gt - batch_joint_feature(X, Y_hat)` with `Y_hat` from batch loss-augmented inference,
`pystruct/learners/frankwolfe_ssvm.py` lines 132-135 and 156-161, for a model with the default batch methods of `pystruct/models/base.py` lines
33-41 and 95-98. -/
def batchDelta {X Y : Type} (m : SModel X Y) (samples : List (X × Y)) (w : W) : W := fun k =>
  (samples.map fun s => m.jointFeature s.1 s.2 k).sum -
    (samples.map fun s => m.jointFeature s.1 (m.lossAug s.1 s.2 w true) k).sum

/-- `np.sum(batch_loss(Y, Y_hat))`, `pystruct/learners/frankwolfe_ssvm.py` line 136; `loss` of `pystruct/models/base.py` lines 60-66 passes
relaxed outputs on to `continuous_loss`. -/
def batchLossSum {X Y : Type} (m : SModel X Y) (samples : List (X × Y)) (w : W) : ℚ :=
  (samples.map fun s => m.lossOf s.2 (m.lossAug s.1 s.2 w true)).sum

/-- `_calc_dual_gap`, `pystruct/learners/frankwolfe_ssvm.py` lines 129-144, for `self.w = w` and
`self.l = l`: dual value, gap, primal value. With `rescale_C` the second call of
`batch_joint_feature` lacks the true labels; `MultiClassClf`, the only class with that option, raises `ValueError`
(`pystruct/models/unstructured_svm.py` lines 238-240). -/
def calcDualGap {X Y : Type} (m : SModel X Y) (C : ℚ) (samples : List (X × Y)) (w : W) (l : ℚ) :
    Except PyErr (ℚ × ℚ × ℚ) :=
  if m.rescaleC then .error .valueError
  else
    let ls := batchLossSum m samples w
    let ws : W := fun k => batchDelta m samples w k * C
    let lRescaled := l * samples.length * C
    let dualVal := -(1 / 2) * (∑ k ∈ range m.dim, w k ^ 2) + lRescaled
    let wDiff : W := fun k => w k - ws k
    let gap := dot m.dim wDiff w - lRescaled + ls * C
    .ok (dualVal, gap, dualVal + gap)

/-- One iteration of `_frank_wolfe_batch`, `pystruct/learners/frankwolfe_ssvm.py` lines 159-189:
dual value, gap (normalised), primal value before the step; weights and `l` after it. -/
def batchStep {X Y : Type} (m : SModel X Y) (cfg : Config) (samples : List (X × Y)) (it : ℕ)
    (w : W) (l : ℚ) : (ℚ × ℚ × ℚ) × (W × ℚ) :=
  let n : ℚ := samples.length
  let ls := batchLossSum m samples w / n
  let ws : W := fun k => batchDelta m samples w k * cfg.C
  let wDiff : W := fun k => w k - ws k
  let gap := 1 / (cfg.C * n) * dot m.dim wDiff w - l + ls
  let gamma :=
    if cfg.lineSearch then clip (gap / ((∑ k ∈ range m.dim, wDiff k ^ 2) / (cfg.C * n) + eps))
    else 2 / (it + 2)
  let dualVal := -(1 / 2) * (∑ k ∈ range m.dim, w k ^ 2) + l * (n * cfg.C)
  ((dualVal, gap, dualVal + gap * n * cfg.C),
    (fun k => (1 - gamma) * w k + gamma * ws k, (1 - gamma) * l + gamma * ls))

/-- Dual and primal objective curves. `pystruct/learners/frankwolfe_ssvm.py` line 291. -/
structure Curves where
  dual : List ℚ
  primal : List ℚ

/-- The loop of `_frank_wolfe_batch`, `pystruct/learners/frankwolfe_ssvm.py` lines 158-195;
arguments: iterations left, iteration, `self.w`, `l`, curves. Result: `self.w` and the curves. -/
def batchLoop {X Y : Type} (m : SModel X Y) (cfg : Config) (samples : List (X × Y)) :
    ℕ → ℕ → W → ℚ → Curves → W × Curves
  | 0, _, w, _, c => (w, c)
  | n + 1, it, w, l, c =>
    let r := batchStep m cfg samples it w l
    let c : Curves := ⟨c.dual ++ [r.1.1], c.primal ++ [r.1.2.2]⟩
    if r.1.2.1 < cfg.tol then (r.2.1, c)
    else batchLoop m cfg samples n (it + 1) r.2.1 r.2.2 c

/-- Local variables of `_frank_wolfe_bc` and the attributes `self.w`, `self.l`.
`pystruct/learners/frankwolfe_ssvm.py` lines 203-207. -/
structure BC where
  w : W
  wMat : ℕ → W
  lMat : ℕ → ℚ
  l : ℚ
  k : ℕ
  selfW : W
  selfL : ℚ

/-- The numerator of the line search, `pystruct/learners/frankwolfe_ssvm.py` lines 231-233. -/
def lineNum {X Y : Type} (m : SModel X Y) (cfg : Config) (n : ℕ) (st : BC) (i : ℕ) (ws : W) (ls : ℚ) :
    ℚ :=
  dot m.dim (fun k => st.wMat i k - ws k) st.w - cfg.C * n * (st.lMat i - ls)

/-- Body of the inner loop of `_frank_wolfe_bc`, `pystruct/learners/frankwolfe_ssvm.py` lines
221-253, for sample `i`. Without averaging `self.w` and `w` are one array. -/
def bcStep {X Y : Type} (m : SModel X Y) (cfg : Config) (samples : List (X × Y)) (st : BC) (i : ℕ) : BC :=
  match samples[i]? with
  | none => st
  | some (x, y) =>
    let n := samples.length
    let c := findConstraint m x y st.w none true true
    let ws : W := fun k => c.delta k * cfg.C
    let ls := c.loss / n
    let gamma :=
      if cfg.lineSearch then
        clip (lineNum m cfg n st i ws ls / ((∑ k ∈ range m.dim, (st.wMat i k - ws k) ^ 2) + eps))
      else 2 * n / (st.k + 2 * n)
    let wi : W := fun k => (1 - gamma) * st.wMat i k + gamma * ws k
    let li := (1 - gamma) * st.lMat i + gamma * ls
    let w : W := fun k => st.w k - st.wMat i k + wi k
    let l := st.l - st.lMat i + li
    let rho : ℚ := 2 / (st.k + 2)
    { w := w
      wMat := Function.update st.wMat i wi
      lMat := Function.update st.lMat i li
      l := l
      k := st.k + 1
      selfW := if cfg.averaging then fun k => (1 - rho) * st.selfW k + rho * w k else w
      selfL := if cfg.averaging then (1 - rho) * st.selfL + rho * l else l }

/-- State at the start of `_frank_wolfe_bc`, `pystruct/learners/frankwolfe_ssvm.py` lines 203-207.
-/
def bcStart (selfW : W) (selfL : ℚ) : BC :=
  ⟨selfW, fun _ _ => 0, fun _ => 0, 0, 0, selfW, selfL⟩

/-- The outer loop of `_frank_wolfe_bc`, `pystruct/learners/frankwolfe_ssvm.py` lines 210-268; `gap`
is the variable `dual_gap`, unbound before the first check. `order it` lists the samples visited in
iteration `it`. -/
def bcLoop {X Y : Type} (m : SModel X Y) (cfg : Config) (order : ℕ → List ℕ) (samples : List (X × Y)) :
    ℕ → ℕ → BC → Option ℚ → Curves → Except PyErr (BC × Curves)
  | 0, _, st, _, c => .ok (st, c)
  | n + 1, it, st, gap, c =>
    let st := (order it).foldl (bcStep m cfg samples) st
    if cfg.checkDualEvery ≠ 0 ∧ it % cfg.checkDualEvery = 0 then
      match calcDualGap m cfg.C samples st.selfW st.selfL with
      | .error err => .error err
      | .ok (d, g, p) =>
        let c : Curves := ⟨c.dual ++ [d], c.primal ++ [p]⟩
        if g < cfg.tol then .ok (st, c)
        else bcLoop m cfg order samples n (it + 1) st (some g) c
    else
      match gap with
      | none => .error .unboundLocalError
      | some g => if g < cfg.tol then .ok (st, c)
        else bcLoop m cfg order samples n (it + 1) st (some g) c

/-- A learner object; `w` and `l` are `none` before the first `fit`.
`pystruct/learners/frankwolfe_ssvm.py` lines 106-127 and 291-294. -/
structure Obj where
  cfg : Config
  w : Option W
  l : Option ℚ
  curves : Curves

/-- `fit`, `pystruct/learners/frankwolfe_ssvm.py` lines 270-309, after `model.initialize`.
`batch_joint_feature(X, Y, Y)` of line 156 and the later call without true labels: the latter raises `ValueError`
for a model with `rescale_C`, as soon as an iteration is done. -/
def fit {X Y : Type} (m : SModel X Y) (order : ℕ → List ℕ) (o : Obj) (samples : List (X × Y)) :
    Except PyErr Obj :=
  let w0 : W := match o.w with
    | some w => w
    | none => fun _ => 0
  let l0 : ℚ := match o.l with
    | some l => l
    | none => 0
  let run : Except PyErr (W × ℚ × Curves) :=
    if o.cfg.batchMode then
      if m.rescaleC ∧ o.cfg.maxIter ≠ 0 then .error .valueError
      else
        let r := batchLoop m o.cfg samples o.cfg.maxIter 0 w0 0 ⟨[], []⟩
        .ok (r.1, l0, r.2)
    else
      match bcLoop m o.cfg order samples o.cfg.maxIter 0 (bcStart w0 l0) none ⟨[], []⟩ with
      | .error err => .error err
      | .ok (st, c) => .ok (st.selfW, st.selfL, c)
  match run with
  | .error err => .error err
  | .ok (w, l, c) =>
    match objectivePrimal m w samples o.cfg.C true with
    | .error err => .error err
    | .ok p =>
      match c.dual.getLast? with
      | none => .error .indexError
      | some d => .ok ⟨o.cfg, some w, some l, ⟨c.dual ++ [d], c.primal ++ [p]⟩⟩

end Verif.FrankWolfe
