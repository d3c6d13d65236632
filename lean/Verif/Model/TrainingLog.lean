import Verif.Model.Logger
import Verif.Model.OneSlack
import Verif.Model.NSlack
import Verif.Model.LatentSSVM
import Verif.Model.SubgradientLatent
import Verif.Model.FrankWolfe

/-!
# The calls of `logger` during training

For every learner the list of calls `logger(self, iteration)` that `fit` makes, with the learner as it is at that
moment. The calls are listed for a logger that raises nothing; with a logger that raises, training ends with the
exception at that call (`Logger.run`). Not modelled: timestamps (see `Timing`). A call may not change the learner.
-/

namespace Verif.TrainingLog

open Finset Verif.Learner Verif.Logger

/-- A call: the learner and the argument `iteration`. `pystruct/utils/logging.py` line 35. -/
abbrev Call (σ γ : Type) := Logger.Learner σ γ × Iter

/-! ### `OneSlackSSVM` -/

section OneSlack

open Verif.OneSlack

/-- A learner during training as `SaveLogger` sees it, `pystruct/learners/one_slack_ssvm.py` lines 526-530: the
attribute `inference_cache_` is kept apart. -/
def oneSnapshot {X Y : Type} (cfg : OneSlack.Config) (st : OneSlack.St X Y) :
    Logger.Learner (OneSlack.Obj Y) (List (List (Cached Y))) :=
  ⟨⟨cfg, some ⟨st.w, some st.constraints, st.alphas, st.objectiveCurve, st.primalCurve, st.cachedFlags, none⟩,
    st.lossCurve⟩, some st.cache⟩

/-- A learner after training as `SaveLogger` sees it, `pystruct/learners/one_slack_ssvm.py` lines
545-546. -/
def oneFinal {Y : Type} (o : OneSlack.Obj Y) : Logger.Learner (OneSlack.Obj Y) (List (List (Cached Y))) :=
  ⟨{ o with attrs := o.attrs.map fun a => { a with cache := none } }, (o.attrs.map (·.cache))⟩

/-- The learner that `SaveLogger.load` returns, as an object. `pystruct/utils/logging.py` lines
67-71. -/
def oneLoaded {Y : Type} (l : Logger.Learner (OneSlack.Obj Y) (List (List (Cached Y)))) : OneSlack.Obj Y :=
  { l.state with attrs := l.state.attrs.map fun a => { a with cache := l.cache.join } }

/-- The calls in the loop, `pystruct/learners/one_slack_ssvm.py` lines 462-535: one at the end of
every iteration that adds a constraint; none when the inference method is switched (`continue`),
when the loop ends or is interrupted. -/
def oneLoopCalls {X Y : Type} (qp : QP.Solver) (eq : Y → Y → Except PyErr Bool)
    (alt : Option ((X → Y → W → Bool → Y) × (X → W → Y))) (cfg : OneSlack.Config)
    (samples : List (X × Y)) (gt : W) (intr : ℕ → Option Phase) :
    ℕ → ℕ → OneSlack.St X Y → List (Call (OneSlack.Obj Y) (List (List (Cached Y))))
  | 0, _, _ => []
  | fuel + 1, it, st =>
    match OneSlack.iteration qp eq alt cfg samples gt it (intr it) st with
    | .error _ => []
    | .ok (_, false) => []
    | .ok (st', true) =>
      if st'.switched = st.switched then
        (oneSnapshot cfg st', .num it) :: oneLoopCalls qp eq alt cfg samples gt intr fuel (it + 1) st'
      else oneLoopCalls qp eq alt cfg samples gt intr fuel (it + 1) st'

/-- All calls of `fit`, `pystruct/learners/one_slack_ssvm.py` lines 398-552; the final one is only
made if nothing is raised before. -/
def oneCalls {X Y : Type} (m : SModel X Y) (qp : QP.Solver) (eq : Y → Y → Except PyErr Bool)
    (alt : Option ((X → Y → W → Bool → Y) × (X → W → Y))) (intr : ℕ → Option Phase)
    (o : OneSlack.Obj Y) (samples : List (X × Y)) (warm : Warm) :
    List (Call (OneSlack.Obj Y) (List (List (Cached Y)))) :=
  match OneSlack.start m o warm with
  | .error _ => []
  | .ok st =>
    oneLoopCalls qp eq alt o.cfg samples (jointFeatureGt m samples) intr o.cfg.maxIter 0 st ++
      match OneSlack.fit m qp eq alt intr o samples warm with
      | .error _ => []
      | .ok o' => [(oneFinal o', .final)]

end OneSlack

/-! ### `NSlackSSVM` -/

/-- The attributes of a `NSlackSSVM` during training; `constraints` is the attribute `constraints_`, which is only set
after the loop (`pystruct/learners/n_slack_ssvm.py` line 389) and hence is missing or that of an earlier training. -/
structure NSnapshot (Y : Type) where
  w : W
  constraints : Option (NSlack.WS Y)
  lastActive : ℕ → List ℕ
  objectiveCurve : List ℚ
  primalCurve : List ℚ
  lossCurve : List ℚ

/-- A learner during training, `pystruct/learners/n_slack_ssvm.py` lines 384-385. -/
def nSnapshot {X Y : Type} (old : Option (NSlack.WS Y)) (st : NSlack.St X Y) : Logger.Learner (NSnapshot Y) Empty :=
  ⟨⟨st.w, old, st.lastActive, st.objectiveCurve, st.primalCurve, st.lossCurve⟩, none⟩

/-- A learner after training, `pystruct/learners/n_slack_ssvm.py` lines 398-399. -/
def nFinal {Y : Type} (a : NSlack.Attrs Y) (loss : List ℚ) : Logger.Learner (NSnapshot Y) Empty :=
  ⟨⟨a.w, some a.constraints, a.lastActive, a.objectiveCurve, a.primalCurve, loss⟩, none⟩

/-- The calls in the loop, `pystruct/learners/n_slack_ssvm.py` lines 283-387: one at the end of
every iteration, except when the loop ends, is interrupted, or the inference method is switched. -/
def nLoopCalls {X Y : Type} (qp : QP.Solver) (eq : Y → Y → Bool)
    (alt : Option ((X → Y → W → Bool → Y) × (X → W → Y))) (cfg : NSlack.Config) (samples : List (X × Y))
    (intr : ℕ → ℕ → Option OneSlack.Phase) (old : Option (NSlack.WS Y)) :
    ℕ → ℕ → NSlack.St X Y → List (Call (NSnapshot Y) Empty)
  | 0, _, _ => []
  | fuel + 1, it, st =>
    match NSlack.iteration qp eq alt cfg samples it (intr it) st with
    | .error _ => []
    | .ok (st', .goOn) =>
      if st'.switched = st.switched then
        (nSnapshot old st', .num it) :: nLoopCalls qp eq alt cfg samples intr old fuel (it + 1) st'
      else nLoopCalls qp eq alt cfg samples intr old fuel (it + 1) st'
    | .ok _ => []

/-- All calls of `fit`, `pystruct/learners/n_slack_ssvm.py` lines 240-400. -/
def nCalls {X Y : Type} (m : SModel X Y) (qp : QP.Solver) (eq : Y → Y → Bool)
    (alt : Option ((X → Y → W → Bool → Y) × (X → W → Y))) (intr : ℕ → ℕ → Option OneSlack.Phase)
    (o : NSlack.Obj Y) (samples : List (X × Y)) (constraints : Option (List (List (NSlack.NCon Y)))) :
    List (Call (NSnapshot Y) Empty) :=
  match NSlack.start m qp o samples.length constraints with
  | .error _ => []
  | .ok st =>
    nLoopCalls qp eq alt o.cfg samples intr (o.attrs.map (·.constraints)) o.cfg.maxIter 0 st ++
      match NSlack.fit m qp eq alt intr o samples constraints with
      | .error _ => []
      | .ok (o', _) =>
        match o'.attrs with
        | none => []
        | some a => [(nFinal a o'.lossCurve, .final)]

/-! ### `SubgradientSSVM`, `SubgradientLatentSSVM` -/

/-- The calls in the loop, `pystruct/learners/subgradient_ssvm.py` lines 195-225: none in the iteration in which the
loop is left early. -/
def subLoopCalls {X Y : Type} (m : SModel X Y) (cfg : Subgradient.Config) (lr : ℚ) (order : ℕ → List (X × Y)) :
    ℕ → ℕ → List (X × Y) → Subgradient.St → Subgradient.Curves → List (Call Subgradient.Obj Empty)
  | 0, _, _, _, _ => []
  | n + 1, it, data, st, c =>
    let data := if cfg.shuffle then order it else data
    match Subgradient.learn m cfg lr data st with
    | .error _ => []
    | .ok (st, positive) =>
      if positive = 0 ∧ cfg.breakOnNoConstraints = true then []
      else
        match objectivePrimal m st.selfW data cfg.C true with
        | .error _ => []
        | .ok obj =>
          let c : Subgradient.Curves :=
            ⟨c.objective ++ [obj], computeTrainingLoss m cfg.showLossEvery st.selfW data it c.loss⟩
          (⟨⟨cfg, some st.selfW, st.t, some lr, c⟩, none⟩, .num it) :: subLoopCalls m cfg lr order n (it + 1) data st c

/-- All calls of `fit`, `pystruct/learners/subgradient_ssvm.py` lines 154-243. -/
def subCalls {X Y : Type} (m : SModel X Y) (order : ℕ → List (X × Y)) (o : Subgradient.Obj) (samples : List (X × Y))
    (warmStart : Bool) : List (Call Subgradient.Obj Empty) :=
  match Subgradient.setup o samples.length warmStart with
  | .error _ => []
  | .ok (lr, curve) =>
    subLoopCalls m o.cfg lr order o.cfg.maxIter 0 samples
        ⟨o.w.getD (fun _ => 0), fun _ => 0, o.w.getD (fun _ => 0), o.t⟩ ⟨curve, o.curves.loss⟩ ++
      match Subgradient.fit m order o samples warmStart with
      | .error _ => []
      | .ok o' => [(⟨o', none⟩, .final)]

/-- The calls in the loop, `pystruct/learners/subgradient_latent_ssvm.py` lines 152-224. -/
def subLatentLoopCalls {X Y H : Type} (L : SubgradientLatent.SLModel X Y H) (cfg : Subgradient.Config)
    (jobs : SubgradientLatent.Jobs) (lr : ℚ) (samples : List (X × Y)) :
    ℕ → ℕ → Subgradient.St → Subgradient.Curves → List (Call Subgradient.Obj Empty)
  | 0, _, _, _ => []
  | n + 1, it, st, c =>
    match SubgradientLatent.pass L cfg jobs lr samples st with
    | .error _ => []
    | .ok (st, positive, obj) =>
      if positive = 0 ∧ cfg.breakOnNoConstraints = true then []
      else
        let c : Subgradient.Curves :=
          ⟨c.objective ++ [obj * cfg.C + (∑ k ∈ range L.m.dim, st.selfW k ^ 2) / 2],
            SubgradientLatent.trainingLoss L cfg.showLossEvery st.selfW samples it c.loss⟩
        (⟨⟨cfg, some st.selfW, st.t, some lr, c⟩, none⟩, .num it) ::
          subLatentLoopCalls L cfg jobs lr samples n (it + 1) st c

/-- All calls of `fit`, `pystruct/learners/subgradient_latent_ssvm.py` lines 108-237. -/
def subLatentCalls {X Y H : Type} (L : SubgradientLatent.SLModel X Y H) (jobs : SubgradientLatent.Jobs) (w0 : W)
    (o : Subgradient.Obj) (samples : List (X × Y)) (warmStart : Bool) : List (Call Subgradient.Obj Empty) :=
  match Subgradient.setup o samples.length warmStart with
  | .error _ => []
  | .ok (lr, curve) =>
    subLatentLoopCalls L o.cfg jobs lr samples o.cfg.maxIter 0 ⟨o.w.getD w0, fun _ => 0, o.w.getD w0, o.t⟩
        ⟨curve, o.curves.loss⟩ ++
      match SubgradientLatent.fit L jobs w0 o samples warmStart with
      | .error _ => []
      | .ok o' => [(⟨o', none⟩, .final)]

/-! ### `LatentSSVM` -/

/-- The calls of `fit`, `pystruct/learners/latent_structured_svm.py` lines 90-127: one at the end of every iteration
in which the base learner was trained, none at the end. The state holds the base learner and the local variables; the
completions are not attributes of the learner. -/
def latentCalls {σ X Y H : Type} (L : LatentSSVM.LModel X Y H) (B : LatentSSVM.Base σ X H) (same : H → H → Bool)
    (samples : List (X × Y)) : ℕ → ℕ → LatentSSVM.St σ H → List (Call σ Empty)
  | 0, _, _ => []
  | fuel + 1, it, st =>
    match LatentSSVM.iteration L B same samples it st with
    | .error _ => []
    | .ok (_, true) => []
    | .ok (st, false) => (⟨st.base, none⟩, .num it) :: latentCalls L B same samples fuel (it + 1) st

/-! ### `FrankWolfeSSVM` -/

/-- The calls of `_frank_wolfe_batch`, `pystruct/learners/frankwolfe_ssvm.py` lines 158-195, also in the iteration
in which it stops; `l` is the attribute `l`, which batch mode does not change. -/
def fwBatchCalls {X Y : Type} (m : SModel X Y) (cfg : FrankWolfe.Config) (samples : List (X × Y)) (selfL : ℚ) :
    ℕ → ℕ → W → ℚ → FrankWolfe.Curves → List (Call FrankWolfe.Obj Empty)
  | 0, _, _, _, _ => []
  | n + 1, it, w, l, c =>
    let r := FrankWolfe.batchStep m cfg samples it w l
    let c : FrankWolfe.Curves := ⟨c.dual ++ [r.1.1], c.primal ++ [r.1.2.2]⟩
    (⟨⟨cfg, some r.2.1, some selfL, c⟩, none⟩, .num it) ::
      if r.1.2.1 < cfg.tol then [] else fwBatchCalls m cfg samples selfL n (it + 1) r.2.1 r.2.2 c

/-- The calls of `_frank_wolfe_bc`, `pystruct/learners/frankwolfe_ssvm.py` lines 210-268: in every
iteration whose dual gap could be computed, before the variable `dual_gap` is read. -/
def fwCalls {X Y : Type} (m : SModel X Y) (cfg : FrankWolfe.Config) (order : ℕ → List ℕ) (samples : List (X × Y)) :
    ℕ → ℕ → FrankWolfe.BC → Option ℚ → FrankWolfe.Curves → List (Call FrankWolfe.Obj Empty)
  | 0, _, _, _, _ => []
  | n + 1, it, st, gap, c =>
    let st := (order it).foldl (FrankWolfe.bcStep m cfg samples) st
    if cfg.checkDualEvery ≠ 0 ∧ it % cfg.checkDualEvery = 0 then
      match FrankWolfe.calcDualGap m cfg.C samples st.selfW st.selfL with
      | .error _ => []
      | .ok (d, g, p) =>
        let c : FrankWolfe.Curves := ⟨c.dual ++ [d], c.primal ++ [p]⟩
        (⟨⟨cfg, some st.selfW, some st.selfL, c⟩, none⟩, .num it) ::
          if g < cfg.tol then [] else fwCalls m cfg order samples n (it + 1) st (some g) c
    else
      (⟨⟨cfg, some st.selfW, some st.selfL, c⟩, none⟩, .num it) ::
        match gap with
        | none => []
        | some g => if g < cfg.tol then [] else fwCalls m cfg order samples n (it + 1) st (some g) c

/-- All calls of `FrankWolfeSSVM.fit`, `pystruct/learners/frankwolfe_ssvm.py` lines 270-309. -/
def fwFitCalls {X Y : Type} (m : SModel X Y) (order : ℕ → List ℕ) (o : FrankWolfe.Obj) (samples : List (X × Y)) :
    List (Call FrankWolfe.Obj Empty) :=
  (if o.cfg.batchMode then
      if m.rescaleC ∧ o.cfg.maxIter ≠ 0 then []
      else fwBatchCalls m o.cfg samples (o.l.getD 0) o.cfg.maxIter 0 (o.w.getD fun _ => 0) 0 ⟨[], []⟩
    else fwCalls m o.cfg order samples o.cfg.maxIter 0 (FrankWolfe.bcStart (o.w.getD fun _ => 0) (o.l.getD 0)) none
      ⟨[], []⟩) ++
    match FrankWolfe.fit m order o samples with
    | .error _ => []
    | .ok o' => [(⟨o', none⟩, .final)]

end Verif.TrainingLog
