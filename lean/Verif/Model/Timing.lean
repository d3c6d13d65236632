import Verif.Model.OneSlack
import Verif.Model.NSlack
import Verif.Model.SubgradientLatent
import Verif.Model.FrankWolfe

/-!
# The attribute `timestamps_` of the learners

A learner with its timestamps is a pair of the learner object of the other model files and the list `timestamps_`,
which is empty for a learner that was never fitted. `clock 0` is the time at which `fit` starts, `clock 1`,
`clock 2`, … are what the following calls of `time()` return. Rounding of the times is not modelled.
-/

namespace Verif.Timing

open Verif.Learner

/-- `self.timestamps_.append(time() - self.timestamps_[0])`, for example `pystruct/learners/one_slack_ssvm.py` line
497. The second component counts the calls of `time()`. At these points the list is never empty; for an empty list
nothing is added here, where Python raises `IndexError`. -/
def push (clock : ℕ → ℚ) (s : List ℚ × ℕ) : List ℚ × ℕ :=
  match s.1 with
  | [] => (s.1, s.2 + 1)
  | t0 :: _ => (s.1 ++ [clock s.2 - t0], s.2 + 1)

/-! ### `OneSlackSSVM` -/

/-- Whether an iteration reaches line 497: it is not interrupted before and a constraint is found.
`pystruct/learners/one_slack_ssvm.py` lines 465-497. -/
def oneFinds {X Y : Type} (cfg : OneSlack.Config) (samples : List (X × Y)) (gt : W) (intr : Option OneSlack.Phase)
    (st : OneSlack.St X Y) : Bool :=
  if intr = some .search then false
  else
    match OneSlack.fromCache cfg st gt samples.length with
    | .ok (some _) => true
    | .ok none =>
      match OneSlack.findNew cfg st gt samples with
      | .ok (some _) => true
      | _ => false
    | .error _ => false

/-- The timestamps added in the loop, `pystruct/learners/one_slack_ssvm.py` lines 462-535. -/
def oneLoop {X Y : Type} (clock : ℕ → ℚ) (qp : QP.Solver) (eq : Y → Y → Except PyErr Bool)
    (alt : Option ((X → Y → W → Bool → Y) × (X → W → Y))) (cfg : OneSlack.Config)
    (samples : List (X × Y)) (gt : W) (intr : ℕ → Option OneSlack.Phase) :
    ℕ → ℕ → OneSlack.St X Y → List ℚ × ℕ → List ℚ × ℕ
  | 0, _, _, s => s
  | fuel + 1, it, st, s =>
    let s := if oneFinds cfg samples gt (intr it) st then push clock s else s
    match OneSlack.iteration qp eq alt cfg samples gt it (intr it) st with
    | .error _ => s
    | .ok (_, false) => s
    | .ok (st, true) => oneLoop clock qp eq alt cfg samples gt intr fuel (it + 1) st s

/-- `timestamps_` at the start of the loop, `pystruct/learners/one_slack_ssvm.py` lines 432-452: it is only reset
without warm start. -/
def oneStart (clock : ℕ → ℚ) (warm : OneSlack.Warm) (ts : List ℚ) : List ℚ :=
  match warm with
  | .no => [clock 0]
  | _ => ts

/-- `fit` with timestamps, `pystruct/learners/one_slack_ssvm.py` lines 398-552. -/
def oneFit {X Y : Type} (clock : ℕ → ℚ) (m : SModel X Y) (qp : QP.Solver) (eq : Y → Y → Except PyErr Bool)
    (alt : Option ((X → Y → W → Bool → Y) × (X → W → Y))) (intr : ℕ → Option OneSlack.Phase)
    (o : OneSlack.Obj Y × List ℚ) (samples : List (X × Y)) (warm : OneSlack.Warm) :
    Except PyErr (OneSlack.Obj Y × List ℚ) :=
  match OneSlack.start m o.1 warm with
  | .error err => .error err
  | .ok st =>
    match OneSlack.fit m qp eq alt intr o.1 samples warm with
    | .error err => .error err
    | .ok o' =>
      .ok (o', (push clock (oneLoop clock qp eq alt o.1.cfg samples (OneSlack.jointFeatureGt m samples) intr
        o.1.cfg.maxIter 0 st (oneStart clock warm o.2, 1))).1)

/-! ### `NSlackSSVM` -/

/-- The timestamps added in the loop, `pystruct/learners/n_slack_ssvm.py` lines 283-387: one at the start of every
iteration. An interrupt arrives later. -/
def nLoop {X Y : Type} (clock : ℕ → ℚ) (qp : QP.Solver) (eq : Y → Y → Bool)
    (alt : Option ((X → Y → W → Bool → Y) × (X → W → Y))) (cfg : NSlack.Config) (samples : List (X × Y))
    (intr : ℕ → ℕ → Option OneSlack.Phase) : ℕ → ℕ → NSlack.St X Y → List ℚ × ℕ → List ℚ × ℕ
  | 0, _, _, s => s
  | fuel + 1, it, st, s =>
    match NSlack.iteration qp eq alt cfg samples it (intr it) st with
    | .ok (st, .goOn) => nLoop clock qp eq alt cfg samples intr fuel (it + 1) st (push clock s)
    | _ => push clock s

/-- `fit` with timestamps, `pystruct/learners/n_slack_ssvm.py` lines 240-400: they are reset unless constraints are
given (lines 273-282). -/
def nFit {X Y : Type} (clock : ℕ → ℚ) (m : SModel X Y) (qp : QP.Solver) (eq : Y → Y → Bool)
    (alt : Option ((X → Y → W → Bool → Y) × (X → W → Y))) (intr : ℕ → ℕ → Option OneSlack.Phase)
    (o : NSlack.Obj Y × List ℚ) (samples : List (X × Y)) (constraints : Option (List (List (NSlack.NCon Y)))) :
    Except PyErr ((NSlack.Obj Y × List ℚ) × NSlack.Outcome) :=
  match NSlack.start m qp o.1 samples.length constraints with
  | .error err => .error err
  | .ok st =>
    match NSlack.fit m qp eq alt intr o.1 samples constraints with
    | .error err => .error err
    | .ok (o', out) =>
      .ok ((o', (push clock (nLoop clock qp eq alt o.1.cfg samples intr o.1.cfg.maxIter 0 st
        (if constraints.isSome then o.2 else [clock 0], 1))).1), out)

/-! ### `SubgradientSSVM` -/

/-- `timestamps_` at the start of the loop, `pystruct/learners/subgradient_ssvm.py` lines 184-192: with warm start the
current time is subtracted from all entries. -/
def subStart (clock : ℕ → ℚ) (warmStart : Bool) (ts : List ℚ) : List ℚ :=
  if warmStart then ts.map (· - clock 0) else [clock 0]

/-- The timestamps added in the loop, `pystruct/learners/subgradient_ssvm.py` lines 195-223: one for every iteration
that does not end the loop. -/
def subLoop {X Y : Type} (clock : ℕ → ℚ) (m : SModel X Y) (cfg : Subgradient.Config) (lr : ℚ)
    (order : ℕ → List (X × Y)) : ℕ → ℕ → List (X × Y) → Subgradient.St → List ℚ × ℕ → List ℚ × ℕ
  | 0, _, _, _, s => s
  | n + 1, it, data, st, s =>
    let data := if cfg.shuffle then order it else data
    match Subgradient.learn m cfg lr data st with
    | .error _ => s
    | .ok (st, positive) =>
      if positive = 0 ∧ cfg.breakOnNoConstraints = true then s
      else subLoop clock m cfg lr order n (it + 1) data st (push clock s)

/-- `fit` with timestamps, `pystruct/learners/subgradient_ssvm.py` lines 154-243. -/
def subFit {X Y : Type} (clock : ℕ → ℚ) (m : SModel X Y) (order : ℕ → List (X × Y)) (o : Subgradient.Obj × List ℚ)
    (samples : List (X × Y)) (warmStart : Bool) : Except PyErr (Subgradient.Obj × List ℚ) :=
  match Subgradient.setup o.1 samples.length warmStart with
  | .error err => .error err
  | .ok (lr, _) =>
    match Subgradient.fit m order o.1 samples warmStart with
    | .error err => .error err
    | .ok o' =>
      .ok (o', (push clock (subLoop clock m o.1.cfg lr order o.1.cfg.maxIter 0 samples
        ⟨o.1.w.getD (fun _ => 0), fun _ => 0, o.1.w.getD (fun _ => 0), o.1.t⟩ (subStart clock warmStart o.2, 1))).1)

/-! ### `SubgradientLatentSSVM` -/

/-- `timestamps_` at the start of the loop, `pystruct/learners/subgradient_latent_ssvm.py` lines 136-147: with warm
start the first entry is replaced. A learner that was fitted has timestamps; for an empty list, where Python raises
`IndexError`, nothing is changed here. -/
def latStart (clock : ℕ → ℚ) (warmStart : Bool) (ts : List ℚ) : List ℚ :=
  if warmStart then
    match ts.getLast? with
    | none => ts
    | some last => ts.set 0 (clock 0 - last)
  else [clock 0]

/-- The timestamps added in the loop, `pystruct/learners/subgradient_latent_ssvm.py` lines 152-224: one at the start
of every iteration. -/
def latLoop {X Y H : Type} (clock : ℕ → ℚ) (L : SubgradientLatent.SLModel X Y H) (cfg : Subgradient.Config)
    (jobs : SubgradientLatent.Jobs) (lr : ℚ) (samples : List (X × Y)) :
    ℕ → Subgradient.St → List ℚ × ℕ → List ℚ × ℕ
  | 0, _, s => s
  | n + 1, st, s =>
    match SubgradientLatent.pass L cfg jobs lr samples st with
    | .error _ => push clock s
    | .ok (st, positive, _) =>
      if positive = 0 ∧ cfg.breakOnNoConstraints = true then push clock s
      else latLoop clock L cfg jobs lr samples n st (push clock s)

/-- `fit` with timestamps, `pystruct/learners/subgradient_latent_ssvm.py` lines 108-237. -/
def latFit {X Y H : Type} (clock : ℕ → ℚ) (L : SubgradientLatent.SLModel X Y H) (jobs : SubgradientLatent.Jobs)
    (w0 : W) (o : Subgradient.Obj × List ℚ) (samples : List (X × Y)) (warmStart : Bool) :
    Except PyErr (Subgradient.Obj × List ℚ) :=
  match Subgradient.setup o.1 samples.length warmStart with
  | .error err => .error err
  | .ok (lr, _) =>
    match SubgradientLatent.fit L jobs w0 o.1 samples warmStart with
    | .error err => .error err
    | .ok o' =>
      .ok (o', (push clock (latLoop clock L o.1.cfg jobs lr samples o.1.cfg.maxIter
        ⟨o.1.w.getD w0, fun _ => 0, o.1.w.getD w0, o.1.t⟩ (latStart clock warmStart o.2, 1))).1)

/-! ### `FrankWolfeSSVM` -/

/-- The timestamps added by `_frank_wolfe_batch`, `pystruct/learners/frankwolfe_ssvm.py` lines 158-195: one in every
iteration. -/
def batchLoop {X Y : Type} (clock : ℕ → ℚ) (m : SModel X Y) (cfg : FrankWolfe.Config) (samples : List (X × Y)) :
    ℕ → ℕ → W → ℚ → List ℚ × ℕ → List ℚ × ℕ
  | 0, _, _, _, s => s
  | n + 1, it, w, l, s =>
    let r := FrankWolfe.batchStep m cfg samples it w l
    if r.1.2.1 < cfg.tol then push clock s
    else batchLoop clock m cfg samples n (it + 1) r.2.1 r.2.2 (push clock s)

/-- The timestamps added by `_frank_wolfe_bc`, `pystruct/learners/frankwolfe_ssvm.py` lines 210-268: one whenever the
dual gap was computed. -/
def bcLoop {X Y : Type} (clock : ℕ → ℚ) (m : SModel X Y) (cfg : FrankWolfe.Config) (order : ℕ → List ℕ)
    (samples : List (X × Y)) : ℕ → ℕ → FrankWolfe.BC → Option ℚ → List ℚ × ℕ → List ℚ × ℕ
  | 0, _, _, _, s => s
  | n + 1, it, st, gap, s =>
    let st := (order it).foldl (FrankWolfe.bcStep m cfg samples) st
    if cfg.checkDualEvery ≠ 0 ∧ it % cfg.checkDualEvery = 0 then
      match FrankWolfe.calcDualGap m cfg.C samples st.selfW st.selfL with
      | .error _ => s
      | .ok (_, g, _) =>
        if g < cfg.tol then push clock s
        else bcLoop clock m cfg order samples n (it + 1) st (some g) (push clock s)
    else
      match gap with
      | none => s
      | some g => if g < cfg.tol then s else bcLoop clock m cfg order samples n (it + 1) st (some g) s

/-- `fit` with timestamps, `pystruct/learners/frankwolfe_ssvm.py` lines 270-309. -/
def fwFit {X Y : Type} (clock : ℕ → ℚ) (m : SModel X Y) (order : ℕ → List ℕ) (o : FrankWolfe.Obj)
    (samples : List (X × Y)) : Except PyErr (FrankWolfe.Obj × List ℚ) :=
  match FrankWolfe.fit m order o samples with
  | .error err => .error err
  | .ok o' =>
    .ok (o', (push clock (
      if o.cfg.batchMode then
        batchLoop clock m o.cfg samples o.cfg.maxIter 0 (o.w.getD fun _ => 0) 0 ([clock 0], 1)
      else bcLoop clock m o.cfg order samples o.cfg.maxIter 0
        (FrankWolfe.bcStart (o.w.getD fun _ => 0) (o.l.getD 0)) none ([clock 0], 1))).1)

end Verif.Timing
