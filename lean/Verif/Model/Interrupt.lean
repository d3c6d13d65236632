import Verif.Model.Perceptron
import Verif.Model.SubgradientLatent
import Verif.Model.FrankWolfe

/-!
# `KeyboardInterrupt` during the training of the other learners

The cutting-plane learners are modelled with their interrupts in `OneSlack` and `NSlack`. This file adds the interrupts
of `StructuredPerceptron`, `SubgradientSSVM`, `SubgradientLatentSSVM` and `FrankWolfeSSVM`. An interrupt arrives while
inference runs, where training spends its time; interrupts between two assignments are not modelled. Iterations and the
positions in them count from 0. The results carry a flag that says whether training got as far as the interrupt.
-/

namespace Verif.Interrupt

open Finset Verif.Learner

/-! ### `StructuredPerceptron` -/

/-- The part of a pass that is done when the prediction of sample `j` is interrupted,
`pystruct/learners/structured_perceptron.py` lines 117-154. In batch mode all predictions come before the first update
(lines 128-130), and the result is the same for all `j`. -/
def percPass {X Y : Type} (m : SModel X Y) (cfg : Perceptron.Config) (avg : Option ℤ) (samples : List (X × Y))
    (it j : ℕ) (st : Perceptron.St) : Perceptron.St :=
  let st := if avg = some (-1) then { st with nObs := 0, wbar := fun _ => 0 } else st
  if cfg.batch then st
  else ((samples.take j).foldl (Perceptron.onlineStep m avg (cfg.lr it) it) (st, 0)).1

/-- The loop over iterations, `pystruct/learners/structured_perceptron.py` lines 115-166, with an interrupt in
iteration `stop`. -/
def percLoop {X Y : Type} (m : SModel X Y) (cfg : Perceptron.Config) (avg : Option ℤ) (samples : List (X × Y))
    (maxLosses : ℚ) (stop j : ℕ) : ℕ → ℕ → Perceptron.St → Perceptron.St × Bool
  | 0, _, st => (st, false)
  | n + 1, it, st =>
    if it = stop then (percPass m cfg avg samples it j st, true)
    else
      let r := Perceptron.pass m cfg avg samples it st
      let st := { r.1 with
        curve := r.1.curve ++ [Perceptron.curveEntry r.2 maxLosses] }
      if Perceptron.curveEntry r.2 maxLosses = some 0 then (st, false)
      else percLoop m cfg avg samples maxLosses stop j n (it + 1) st

/-- `fit`, `pystruct/learners/structured_perceptron.py` lines 82-170, with an interrupt while sample `j` is predicted in
iteration `stop`. -/
def percFit {X Y : Type} (m : SModel X Y) (stop j : ℕ) (o : Perceptron.Obj) (samples : List (X × Y)) :
    Except PyErr (Perceptron.Obj × Bool) :=
  match Perceptron.normAverage o.average with
  | .error err => .error err
  | .ok avg =>
    let r := percLoop m o.cfg avg samples (samples.map fun s => m.maxLoss s.2).sum stop j o.cfg.maxIter 0
      Perceptron.start
    .ok ({ o with
      average := match avg with
        | none => .off
        | some k => .after k
      w := if avg = none then r.1.w else r.1.wbar
      lossCurve := r.1.curve }, r.2)

/-! ### `SubgradientSSVM` -/

/-- What is interrupted in an iteration: the search for the constraints of step `j`, the computation of the objective,
or that of the training loss. `pystruct/learners/subgradient_ssvm.py` lines 198-201, 215 and 220. -/
inductive Place where
  | step (j : ℕ)
  | objective
  | loss

/-- The steps of a pass before step `j`, `pystruct/learners/subgradient_ssvm.py` lines 259-312. -/
def subSteps {X Y : Type} (m : SModel X Y) (cfg : Subgradient.Config) (lr : ℚ) (data : List (X × Y)) (j : ℕ)
    (st : Subgradient.St) : Except PyErr Subgradient.St :=
  if cfg.nJobs = 1 then
    match cfg.batchSize with
    | none => .ok ((data.take j).foldl (Subgradient.onlineStep m cfg lr data.length) (st, 0)).1
    | some b =>
      if b = 1 then .ok ((data.take j).foldl (Subgradient.onlineStep m cfg lr data.length) (st, 0)).1
      else
        match Subgradient.miniBatches data b with
        | .error err => .error err
        | .ok bs =>
          if m.rescaleC ∧ j ≠ 0 then .error .valueError
          else .ok ((bs.take j).foldl (Subgradient.batchStep m cfg lr data.length b) (st, 0)).1
  else if cfg.batchSize ≠ none then .error .valueError
  else if cfg.nJobs = 0 then .error .zeroDivisionError
  else
    match Subgradient.evenSlices data.length (Subgradient.ceilDiv data.length cfg.nJobs) with
    | .error err => .error err
    | .ok sl =>
      .ok (((Subgradient.cut data sl).take j).foldl (Subgradient.parallelStep m cfg lr data.length) (st, 0)).1

/-- What the loop over iterations leaves: the data as last shuffled, the state, the curves, the number of timestamps
added, and whether the loop was interrupted. `pystruct/learners/subgradient_ssvm.py` lines 193-228. -/
structure Left (D : Type) where
  data : D
  st : Subgradient.St
  curves : Subgradient.Curves
  stamps : ℕ
  hit : Bool

/-- The place of an interrupt in the steps of an iteration, if it is there.
`pystruct/learners/subgradient_ssvm.py` lines 198-201. -/
def inSteps : Option Place → Option ℕ
  | some (.step j) => some j
  | _ => none

/-- The loop over iterations, `pystruct/learners/subgradient_ssvm.py` lines 193-228; `intr it` says whether and where
iteration `it` is interrupted. -/
def subLoop {X Y : Type} (m : SModel X Y) (cfg : Subgradient.Config) (lr : ℚ) (order : ℕ → List (X × Y))
    (intr : ℕ → Option Place) : ℕ → ℕ → List (X × Y) → Subgradient.St → Subgradient.Curves → ℕ →
      Except PyErr (Left (List (X × Y)))
  | 0, _, data, st, c, k => .ok ⟨data, st, c, k, false⟩
  | n + 1, it, data, st, c, k =>
    let data := if cfg.shuffle then order it else data
    match inSteps (intr it) with
    | some j =>
      match subSteps m cfg lr data j st with
      | .error err => .error err
      | .ok st => .ok ⟨data, st, c, k, true⟩
    | none =>
      match Subgradient.learn m cfg lr data st with
      | .error err => .error err
      | .ok (st, positive) =>
        if positive = 0 ∧ cfg.breakOnNoConstraints = true then .ok ⟨data, st, c, k, false⟩
        else
          match intr it with
          | some .objective => .ok ⟨data, st, c, k + 1, true⟩
          | p =>
            match objectivePrimal m st.selfW data cfg.C true with
            | .error err => .error err
            | .ok obj =>
              match p with
              | some .loss => .ok ⟨data, st, ⟨c.objective ++ [obj], c.loss⟩, k + 1, true⟩
              | _ =>
                subLoop m cfg lr order intr n (it + 1) data st ⟨c.objective ++ [obj],
                  computeTrainingLoss m cfg.showLossEvery st.selfW data it c.loss⟩ (k + 1)

/-- A learner after an interrupted or complete training: the object, the number of timestamps added, and whether
there was an interrupt. `pystruct/learners/subgradient_ssvm.py` lines 228-243. -/
structure Trained (O : Type) where
  obj : O
  stamps : ℕ
  hit : Bool

/-- `fit`, `pystruct/learners/subgradient_ssvm.py` lines 154-243, with interrupts. The final objective is computed after
the loop, where an interrupt is no longer caught; such interrupts are not modelled. -/
def subFit {X Y : Type} (m : SModel X Y) (order : ℕ → List (X × Y)) (intr : ℕ → Option Place) (o : Subgradient.Obj)
    (samples : List (X × Y)) (warmStart : Bool) : Except PyErr (Trained Subgradient.Obj) :=
  let w0 : W := o.w.getD (fun _ => 0)
  match Subgradient.setup o samples.length warmStart with
  | .error err => .error err
  | .ok (lr, curve) =>
    match subLoop m o.cfg lr order intr o.cfg.maxIter 0 samples ⟨w0, fun _ => 0, w0, o.t⟩ ⟨curve, o.curves.loss⟩ 0 with
    | .error err => .error err
    | .ok r =>
      match objectivePrimal m r.st.selfW r.data o.cfg.C true with
      | .error err => .error err
      | .ok obj =>
        .ok ⟨⟨o.cfg, some r.st.selfW, r.st.t, some lr, ⟨r.curves.objective ++ [obj], r.curves.loss⟩⟩, r.stamps + 1, r.hit⟩

/-! ### `FrankWolfeSSVM` -/

/-- The loop of `_frank_wolfe_batch`, `pystruct/learners/frankwolfe_ssvm.py` lines 158-195, with an interrupt while
loss-augmented inference runs in iteration `stop`. -/
def fwBatchLoop {X Y : Type} (m : SModel X Y) (cfg : FrankWolfe.Config) (samples : List (X × Y)) (stop : ℕ) :
    ℕ → ℕ → W → ℚ → FrankWolfe.Curves → W × FrankWolfe.Curves × Bool
  | 0, _, w, _, c => (w, c, false)
  | n + 1, it, w, l, c =>
    if it = stop then (w, c, true)
    else
      let r := FrankWolfe.batchStep m cfg samples it w l
      let c : FrankWolfe.Curves := ⟨c.dual ++ [r.1.1], c.primal ++ [r.1.2.2]⟩
      if r.1.2.1 < cfg.tol then (r.2.1, c, false)
      else fwBatchLoop m cfg samples stop n (it + 1) r.2.1 r.2.2 c

/-- The loop of `_frank_wolfe_bc`, `pystruct/learners/frankwolfe_ssvm.py` lines 210-268, with an interrupt in iteration
`stop`: during inference for the `j`-th visited sample, or, for `j` at least the number of visits, during the check of
the duality gap that follows. -/
def fwBcLoop {X Y : Type} (m : SModel X Y) (cfg : FrankWolfe.Config) (order : ℕ → List ℕ) (samples : List (X × Y))
    (stop j : ℕ) : ℕ → ℕ → FrankWolfe.BC → Option ℚ → FrankWolfe.Curves →
      Except PyErr (FrankWolfe.BC × FrankWolfe.Curves × Bool)
  | 0, _, st, _, c => .ok (st, c, false)
  | n + 1, it, st, gap, c =>
    if it = stop then .ok (((order it).take j).foldl (FrankWolfe.bcStep m cfg samples) st, c, true)
    else
      let st := (order it).foldl (FrankWolfe.bcStep m cfg samples) st
      if cfg.checkDualEvery ≠ 0 ∧ it % cfg.checkDualEvery = 0 then
        match FrankWolfe.calcDualGap m cfg.C samples st.selfW st.selfL with
        | .error err => .error err
        | .ok (d, g, p) =>
          let c : FrankWolfe.Curves := ⟨c.dual ++ [d], c.primal ++ [p]⟩
          if g < cfg.tol then .ok (st, c, false)
          else fwBcLoop m cfg order samples stop j n (it + 1) st (some g) c
      else
        match gap with
        | none => .error .unboundLocalError
        | some g => if g < cfg.tol then .ok (st, c, false)
          else fwBcLoop m cfg order samples stop j n (it + 1) st (some g) c

/-- What training leaves before the final objective, `pystruct/learners/frankwolfe_ssvm.py` lines 293-301. In batch mode
with `rescale_C` the first iteration raises `ValueError` after inference, which the interrupt of iteration 0 comes
before. -/
def fwRun {X Y : Type} (m : SModel X Y) (order : ℕ → List ℕ) (stop j : ℕ) (o : FrankWolfe.Obj)
    (samples : List (X × Y)) : Except PyErr (W × ℚ × FrankWolfe.Curves × Bool) :=
  if o.cfg.batchMode then
    if m.rescaleC ∧ o.cfg.maxIter ≠ 0 ∧ stop ≠ 0 then .error .valueError
    else
      let r := fwBatchLoop m o.cfg samples stop o.cfg.maxIter 0 (o.w.getD fun _ => 0) 0 ⟨[], []⟩
      .ok (r.1, o.l.getD 0, r.2)
  else
    match fwBcLoop m o.cfg order samples stop j o.cfg.maxIter 0
        (FrankWolfe.bcStart (o.w.getD fun _ => 0) (o.l.getD 0)) none ⟨[], []⟩ with
    | .error err => .error err
    | .ok (st, c, hit) => .ok (st.selfW, st.selfL, c, hit)

/-- `fit`, `pystruct/learners/frankwolfe_ssvm.py` lines 270-309, with an interrupt; `objective_curve_[-1]` of line 306
raises `IndexError` if no duality gap was computed. -/
def fwFit {X Y : Type} (m : SModel X Y) (order : ℕ → List ℕ) (stop j : ℕ) (o : FrankWolfe.Obj)
    (samples : List (X × Y)) : Except PyErr (FrankWolfe.Obj × Bool) :=
  match fwRun m order stop j o samples with
  | .error err => .error err
  | .ok (w, l, c, hit) =>
    match objectivePrimal m w samples o.cfg.C true with
    | .error err => .error err
    | .ok p =>
      match c.dual.getLast? with
      | none => .error .indexError
      | some d => .ok (⟨o.cfg, some w, some l, ⟨c.dual ++ [d], c.primal ++ [p]⟩⟩, hit)

/-! ### `SubgradientLatentSSVM` -/

/-- The steps of a pass before step `j`, `pystruct/learners/subgradient_latent_ssvm.py` lines 158-201. -/
def latSteps {X Y H : Type} (L : SubgradientLatent.SLModel X Y H) (cfg : Subgradient.Config)
    (jobs : SubgradientLatent.Jobs) (lr : ℚ) (data : List (X × Y)) (j : ℕ) (st : Subgradient.St) :
    Except PyErr Subgradient.St :=
  match jobs with
  | .one => .ok ((data.take j).foldl (SubgradientLatent.onlineStep L cfg lr data.length) (st, 0, 0)).1
  | .other => .error .attributeError
  | .allCpus n =>
    if n = 0 then .error .zeroDivisionError
    else
      match Subgradient.evenSlices data.length (Subgradient.ceilDiv data.length n) with
      | .error err => .error err
      | .ok sl => .ok (((Subgradient.cut data sl).take j).foldl
          (SubgradientLatent.parallelStep L cfg lr data.length) (st, 0, 0)).1

/-- The loop over iterations, `pystruct/learners/subgradient_latent_ssvm.py` lines 150-227, with interrupts; the
objective of an iteration is the sum of slacks found in its steps, so that no inference runs at `Place.objective`, and
an interrupt there is ignored. The timestamp of an iteration is added at its start. -/
def latLoop {X Y H : Type} (L : SubgradientLatent.SLModel X Y H) (cfg : Subgradient.Config)
    (jobs : SubgradientLatent.Jobs) (lr : ℚ) (samples : List (X × Y)) (intr : ℕ → Option Place) :
    ℕ → ℕ → Subgradient.St → Subgradient.Curves → ℕ → Except PyErr (Left Unit)
  | 0, _, st, c, k => .ok ⟨(), st, c, k, false⟩
  | n + 1, it, st, c, k =>
    match inSteps (intr it) with
    | some j =>
      match latSteps L cfg jobs lr samples j st with
      | .error err => .error err
      | .ok st => .ok ⟨(), st, c, k + 1, true⟩
    | none =>
      match SubgradientLatent.pass L cfg jobs lr samples st with
      | .error err => .error err
      | .ok (st, positive, obj) =>
        if positive = 0 ∧ cfg.breakOnNoConstraints = true then .ok ⟨(), st, c, k + 1, false⟩
        else
          let entry := obj * cfg.C + (∑ k ∈ range L.m.dim, st.selfW k ^ 2) / 2
          match intr it with
          | some .loss => .ok ⟨(), st, ⟨c.objective ++ [entry], c.loss⟩, k + 1, true⟩
          | _ =>
            latLoop L cfg jobs lr samples intr n (it + 1) st ⟨c.objective ++ [entry],
              SubgradientLatent.trainingLoss L cfg.showLossEvery st.selfW samples it c.loss⟩ (k + 1)

/-- `fit`, `pystruct/learners/subgradient_latent_ssvm.py` lines 108-237, with interrupts. -/
def latFit {X Y H : Type} (L : SubgradientLatent.SLModel X Y H) (jobs : SubgradientLatent.Jobs) (w0 : W)
    (intr : ℕ → Option Place) (o : Subgradient.Obj) (samples : List (X × Y)) (warmStart : Bool) :
    Except PyErr (Trained Subgradient.Obj) :=
  match Subgradient.setup o samples.length warmStart with
  | .error err => .error err
  | .ok (lr, curve) =>
    match latLoop L o.cfg jobs lr samples intr o.cfg.maxIter 0 ⟨o.w.getD w0, fun _ => 0, o.w.getD w0, o.t⟩
      ⟨curve, o.curves.loss⟩ 0 with
    | .error err => .error err
    | .ok r =>
      match SubgradientLatent.objective L o.cfg.C r.st.selfW samples with
      | .error err => .error err
      | .ok obj =>
        .ok ⟨⟨o.cfg, some r.st.selfW, r.st.t, some lr, ⟨r.curves.objective ++ [obj], r.curves.loss⟩⟩, r.stamps + 1, r.hit⟩

end Verif.Interrupt
