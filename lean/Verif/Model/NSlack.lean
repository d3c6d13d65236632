import Verif.Model.OneSlack
import Verif.Model.Subgradient

/-!
# Model of `pystruct/learners/n_slack_ssvm.py`

Not modelled: `logger` (see `TrainingLog`), printing; `timestamps_` is in `Timing` (a learner that was never
fitted does not have it). `n_jobs ≠ 1` computes the same results in parallel and is not distinguished.
`np.float` (lines 146 and 150) is taken to exist, as in the versions of numpy that the package supports.
The result of `fit` describes a call that returns; attributes after an exception are not modelled.
-/

namespace Verif.NSlack

open Finset Verif.Learner

/-- Constructor parameters, `pystruct/learners/n_slack_ssvm.py` lines 122-139. `inactiveWindow` is a
nonnegative integer, `negativity` holds nonnegative indices. -/
structure Config where
  maxIter : ℕ
  C : ℚ
  checkConstraints : Bool
  negativity : Option (List ℕ)
  breakOnBad : Bool
  showLossEvery : ℕ
  batchSize : ℤ
  tol : ℚ
  inactiveThreshold : ℚ
  inactiveWindow : ℕ

/-- A constraint `[y_hat, delta_joint_feature, loss]` of the working set of a sample.
`pystruct/learners/n_slack_ssvm.py` line 334. -/
structure NCon (Y : Type) where
  yhat : Y
  dj : W
  loss : ℚ

/-- The working sets by sample: the variable `constraints`. `pystruct/learners/n_slack_ssvm.py` line
275. -/
abbrev WS (Y : Type) := ℕ → List (NCon Y)

/-- `[... for sample in constraints for c in sample]`, `pystruct/learners/n_slack_ssvm.py` lines
143-144, for `n` samples. -/
def flat {Y : Type} (n : ℕ) (ws : WS Y) : List OneSlack.Con :=
  (List.range n).flatMap fun i => (ws i).map fun c => (c.dj, c.loss)

/-- The quadratic program of `_solve_n_slack_qp`, `pystruct/learners/n_slack_ssvm.py` lines 143-173
and 183-184; `eps` is 0 in the first attempt and `1e-8` in the second one. Rows of `G`:
nonnegativity, one box constraint per sample, sign constraints. -/
def qpOf {Y : Type} (dim : ℕ) (negativity : Option (List ℕ)) (C : ℚ) (n : ℕ) (ws : WS Y) (eps : ℚ) :
    QP.Problem where
  P := (flat n ws).mapIdx fun i c => (flat n ws).mapIdx fun j d =>
    dot dim c.1 d.1 + if i = j then eps else 0
  q := (flat n ws).map fun c => -c.2
  G := ((List.range (flat n ws).length).map fun i => (List.range (flat n ws).length).map fun j =>
      if i = j then -1 else 0) ++
    ((List.range n).map fun i => (List.range n).flatMap fun j => (ws j).map fun _ =>
      if i = j then 1 else 0) ++
    (negativity.getD []).map fun k => (flat n ws).map fun c => c.1 k
  h := (List.range (flat n ws).length).map (fun _ => 0) ++ (List.range n).map (fun _ => C) ++
    (negativity.getD []).map fun _ => 0
  A := []
  b := []

/-- `pystruct/learners/n_slack_ssvm.py` lines 146 and 176-187: solve, and try again with a
regularised matrix. `np.vstack` of an empty list raises `ValueError`; an index in
`negativity_constraint` that is too large raises `IndexError` (line 166). -/
def solveQP {Y : Type} (qp : QP.Solver) (dim : ℕ) (negativity : Option (List ℕ)) (C : ℚ) (n : ℕ)
    (ws : WS Y) : Except PyErr QP.Solution :=
  if (flat n ws).isEmpty then .error .valueError
  else if (negativity.getD []).any (fun k => dim ≤ k) then .error .indexError
  else
    match qp (qpOf dim negativity C n ws 0) with
    | some s => .ok s
    | none =>
      match qp (qpOf dim negativity C n ws (1 / 10 ^ 8)) with
      | some s => .ok s
      | none => .error .valueError

/-- Position of the first constraint of sample `i` among all constraints, the variable `k` of
`prune_constraints`. `pystruct/learners/n_slack_ssvm.py` lines 409 and 422. -/
def offset {Y : Type} (ws : WS Y) (i : ℕ) : ℕ := ((List.range i).map fun j => (ws j).length).sum

/-- `a[k:k + len(sample)]` for sample `i`. `pystruct/learners/n_slack_ssvm.py` line 419. -/
def slice {Y : Type} (ws : WS Y) (a : List ℚ) (i : ℕ) : List ℚ :=
  (a.drop (offset ws i)).take (ws i).length

/-- `self.last_active[i]` after `pystruct/learners/n_slack_ssvm.py` line 417: one entry is added if
there are more constraints than entries. -/
def grown {Y : Type} (l : List (NCon Y)) (la : List ℕ) : List ℕ :=
  if la.length < l.length then la ++ [0] else la

/-- `self.last_active[i]` after `pystruct/learners/n_slack_ssvm.py` line 421. -/
def counted {Y : Type} (cfg : Config) (l : List (NCon Y)) (la : List ℕ) (a : List ℚ) : List ℕ :=
  List.zipWith (fun c x => if x < cfg.inactiveThreshold * cfg.C then c + 1 else c) (grown l la) a

/-- The entries of a list that stay after `pystruct/learners/n_slack_ssvm.py` lines 426-429. -/
def kept {α : Type} (cfg : Config) (la : List ℕ) (l : List α) : List α :=
  ((l.zip la).filter fun p => !decide (cfg.inactiveWindow < p.2)).map Prod.fst

/-- `prune_constraints`, `pystruct/learners/n_slack_ssvm.py` lines 402-430. A boolean index of
another length (line 421) raises `IndexError`. -/
def prune {Y : Type} (cfg : Config) (n : ℕ) (ws : WS Y) (la : ℕ → List ℕ) (a : List ℚ) :
    Except PyErr (WS Y × (ℕ → List ℕ)) :=
  if cfg.inactiveWindow = 0 then .ok (ws, la)
  else if (List.range n).any fun i => !(ws i).isEmpty && decide ((grown (ws i) (la i)).length ≠ (ws i).length)
  then .error .indexError
  else .ok (fun i => if (ws i).isEmpty then ws i else kept cfg (counted cfg (ws i) (la i) (slice ws a i)) (ws i),
    fun i => if (ws i).isEmpty then la i else
      kept cfg (counted cfg (ws i) (la i) (slice ws a i)) (counted cfg (ws i) (la i) (slice ws a i)))

/-- `_check_bad_constraint`, `pystruct/learners/n_slack_ssvm.py` lines 206-238; `eq` is the
comparison of the plain outputs in lines 211-213. -/
def checkBad {Y : Type} (cfg : Config) (eq : Y → Y → Bool) (dim : ℕ) (w : W) (yhat : Y) (slack : ℚ)
    (old : List (NCon Y)) : Except PyErr Bool :=
  if slack < 1 / 10 ^ 5 then .ok true
  else if old.any (fun c => eq yhat c.yhat) then .ok true
  else if cfg.checkConstraints then
    if old.any (fun c => decide (slack - max (c.loss - dot dim w c.dj) 0 < -(1 / 10 ^ 5))) then
      if cfg.breakOnBad then .error .valueError else .ok true
    else .ok false
  else .ok false

/-- The comparison of plain outputs in `_check_bad_constraint`, `pystruct/learners/n_slack_ssvm.py` lines 209-213, with `unwrap_pairwise`
(`pystruct/utils/inference.py` lines 7-11): of a tuple of marginals only the unary marginals are compared. Arrays of
different shapes are taken to be different (broadcasting is not modelled). Not modelled: for models with several node types
the unary marginals are lists of arrays, whose comparison may raise; they are taken to be different here. -/
def plainEq : OneSlack.Output → OneSlack.Output → Bool
  | .discrete y1, .discrete y2 => decide (y1 = y2)
  | .relaxed u1 _, .relaxed u2 _ => decide (u1 = u2)
  | _, _ => false

/-- The attributes and local variables that change during `fit`. `objective` is the local variable,
`none` while it is not assigned. `model` differs from the original model after switching to another
inference method. `pystruct/learners/n_slack_ssvm.py` lines 270-282. -/
structure St (X Y : Type) where
  model : SModel X Y
  switched : Bool
  w : W
  ws : WS Y
  lastActive : ℕ → List ℕ
  objectiveCurve : List ℚ
  primalCurve : List ℚ
  lossCurve : List ℚ
  objective : Option ℚ

/-- `_solve_n_slack_qp`, `pystruct/learners/n_slack_ssvm.py` lines 141-204, together with the
assignment of its result to `objective`. -/
def solve {X Y : Type} (qp : QP.Solver) (cfg : Config) (n : ℕ) (st : St X Y) : Except PyErr (St X Y) :=
  match solveQP qp st.model.dim cfg.negativity cfg.C n st.ws with
  | .error err => .error err
  | .ok sol =>
    match prune cfg n st.ws st.lastActive sol.x with
    | .error err => .error err
    | .ok (ws, la) =>
      .ok { st with
        w := OneSlack.weightsOf (flat n st.ws) sol.x, ws := ws, lastActive := la
        objective := some (-sol.primalObjective) }

/-- `pystruct/learners/n_slack_ssvm.py` lines 316-335 for one sample: the working sets, the sum of
the slacks, and the number of new constraints. -/
def addNew {X Y : Type} (cfg : Config) (eq : Y → Y → Bool) (m : SModel X Y) (w : W)
    (acc : WS Y × ℚ × ℕ) (s : ℕ × X × Y) : Except PyErr (WS Y × ℚ × ℕ) :=
  let c := findConstraint m s.2.1 s.2.2 w none true true
  if ¬ 0 < c.loss then .ok (acc.1, acc.2.1 + c.slack, acc.2.2)
  else
    match checkBad cfg eq m.dim w c.yhat c.slack (acc.1 s.1) with
    | .error err => .error err
    | .ok true => .ok (acc.1, acc.2.1 + c.slack, acc.2.2)
    | .ok false =>
      .ok (Function.update acc.1 s.1 (acc.1 s.1 ++ [⟨c.yhat, c.delta, c.loss⟩]), acc.2.1 + c.slack,
        acc.2.2 + 1)

/-- `addNew` for the samples of a batch. `pystruct/learners/n_slack_ssvm.py` lines 316-335. -/
def addAll {X Y : Type} (cfg : Config) (eq : Y → Y → Bool) (m : SModel X Y) (w : W) :
    List (ℕ × X × Y) → WS Y × ℚ × ℕ → Except PyErr (WS Y × ℚ × ℕ)
  | [], acc => .ok acc
  | s :: b, acc =>
    match addNew cfg eq m w acc s with
    | .error err => .error err
    | .ok acc => addAll cfg eq m w b acc

/-- The samples with their indices. `pystruct/learners/n_slack_ssvm.py` lines 302 and 307-309. -/
def indexed {X Y : Type} (samples : List (X × Y)) : List (ℕ × X × Y) :=
  (List.range samples.length).zip samples

/-- The batches, `pystruct/learners/n_slack_ssvm.py` lines 294-302 and 304-309. -/
def batches {α : Type} (data : List α) (batchSize : ℤ) : Except PyErr (List (List α)) :=
  if batchSize < 1 ∧ batchSize ≠ -1 then .error .valueError
  else
    let b : ℤ := if batchSize = -1 then data.length else batchSize
    if b = 0 then .error .zeroDivisionError
    else
      match Subgradient.evenSlices data.length (Subgradient.ceilDiv data.length b) with
      | .error err => .error err
      | .ok sl => .ok (Subgradient.cut data sl)

/-- One batch, `pystruct/learners/n_slack_ssvm.py` lines 304-341: the state, the sum of the slacks
and the number of new constraints. The flag says that an interrupt ended the loop; it arrives while
constraints are searched, after they were added but before the QP is solved, or after that. -/
def runBatch {X Y : Type} (qp : QP.Solver) (eq : Y → Y → Bool) (cfg : Config) (n : ℕ)
    (intr : Option OneSlack.Phase) (b : List (ℕ × X × Y)) (acc : St X Y × ℚ × ℕ) :
    Except PyErr ((St X Y × ℚ × ℕ) × Bool) :=
  if intr = some .search then .ok (acc, true)
  else
    match addAll cfg eq acc.1.model acc.1.w b (acc.1.ws, acc.2.1, 0) with
    | .error err => .error err
    | .ok (ws, slackSum, new) =>
      let st := { acc.1 with ws := ws }
      if intr = some .qp then .ok ((st, slackSum, acc.2.2), true)
      else if new = 0 then .ok ((st, slackSum, acc.2.2), decide (intr = some .after))
      else
        match solve qp cfg n st with
        | .error err => .error err
        | .ok st => .ok ((st, slackSum, acc.2.2 + new), decide (intr = some .after))

/-- The loop over batches; `intr` tells in which batch an interrupt arrives.
`pystruct/learners/n_slack_ssvm.py` lines 303-341. -/
def runBatches {X Y : Type} (qp : QP.Solver) (eq : Y → Y → Bool) (cfg : Config) (n : ℕ)
    (intr : ℕ → Option OneSlack.Phase) :
    List (List (ℕ × X × Y)) → ℕ → St X Y × ℚ × ℕ → Except PyErr ((St X Y × ℚ × ℕ) × Bool)
  | [], _, acc => .ok (acc, false)
  | b :: bs, j, acc =>
    match runBatch qp eq cfg n (intr j) b acc with
    | .error err => .error err
    | .ok (acc, true) => .ok (acc, true)
    | .ok (acc, false) => runBatches qp eq cfg n intr bs (j + 1) acc

/-- How the loop ends or goes on: the next iteration (or `max_iter` is reached); an interrupt; or
`break`, where the flag tells whether the message `no additional constraints`
(`pystruct/learners/n_slack_ssvm.py` line 358) belongs to this iteration. -/
inductive Outcome where
  | goOn
  | interrupted
  | stopped (noNew : Bool)
  deriving DecidableEq

/-- The test of `pystruct/learners/n_slack_ssvm.py` lines 361-362; `prev` is the objective curve
without its last entry `obj`. For `iteration > 1` it is not empty. -/
def converged (tol : ℚ) (it : ℕ) (prev : List ℚ) (obj : ℚ) : Bool :=
  match prev.getLast? with
  | some p => decide (1 < it) && decide (obj - p < tol)
  | none => false

/-- One iteration, `pystruct/learners/n_slack_ssvm.py` lines 286-385. `alt` are loss-augmented
inference and inference after switching to the method `switch_to`, if this is set and differs from
the method of the model. -/
def iteration {X Y : Type} (qp : QP.Solver) (eq : Y → Y → Bool)
    (alt : Option ((X → Y → W → Bool → Y) × (X → W → Y))) (cfg : Config) (samples : List (X × Y)) (it : ℕ)
    (intr : ℕ → Option OneSlack.Phase) (st : St X Y) : Except PyErr (St X Y × Outcome) :=
  match batches (indexed samples) cfg.batchSize with
  | .error err => .error err
  | .ok bs =>
    match runBatches qp eq cfg samples.length intr bs 0 (st, 0, 0) with
    | .error err => .error err
    | .ok ((st, _, _), true) => .ok (st, .interrupted)
    | .ok ((st, slackSum, new), false) =>
      match st.objective with
      | none => .error .unboundLocalError
      | some obj =>
        let stop := decide (new = 0) || converged cfg.tol it st.objectiveCurve obj
        let st := { st with
          objectiveCurve := st.objectiveCurve ++ [obj]
          lossCurve := computeTrainingLoss st.model cfg.showLossEvery st.w samples it st.lossCurve
          primalCurve := st.primalCurve ++ [cfg.C * slackSum + (∑ k ∈ range st.model.dim, st.w k ^ 2) / 2] }
        if stop then
          match st.switched, alt with
          | false, some (la, inf) =>
            .ok ({ st with model := { st.model with lossAug := la, inference := inf }, switched := true },
              .goOn)
          | _, _ => .ok (st, .stopped (decide (new = 0)))
        else .ok (st, .goOn)

/-- The loop over iterations, `pystruct/learners/n_slack_ssvm.py` lines 283-387; `intr it j` tells
whether an interrupt arrives in batch `j` of iteration `it`. -/
def loop {X Y : Type} (qp : QP.Solver) (eq : Y → Y → Bool)
    (alt : Option ((X → Y → W → Bool → Y) × (X → W → Y))) (cfg : Config) (samples : List (X × Y))
    (intr : ℕ → ℕ → Option OneSlack.Phase) : ℕ → ℕ → St X Y → Except PyErr (St X Y × Outcome)
  | 0, _, st => .ok (st, .goOn)
  | fuel + 1, it, st =>
    match iteration qp eq alt cfg samples it (intr it) st with
    | .error err => .error err
    | .ok (st, .goOn) => loop qp eq alt cfg samples intr fuel (it + 1) st
    | .ok (st, out) => .ok (st, out)

/-- The attributes after `fit`; `constraints` is `constraints_`. `pystruct/learners/n_slack_ssvm.py`
lines 389-397. -/
structure Attrs (Y : Type) where
  n : ℕ
  w : W
  constraints : WS Y
  lastActive : ℕ → List ℕ
  objectiveCurve : List ℚ
  primalCurve : List ℚ

/-- A learner object. The loss curve is created when needed and never reset.
`pystruct/learners/n_slack_ssvm.py` lines 122-139. -/
structure Obj (Y : Type) where
  cfg : Config
  attrs : Option (Attrs Y)
  lossCurve : List ℚ

/-- The state at the start of the loop, `pystruct/learners/n_slack_ssvm.py` lines 270-282.
`constraints` is the argument: a list with an entry for every sample, or `None`. With constraints, a
learner that was never fitted has no attribute `last_active` (line 415) and no attribute
`timestamps_` (line 288). Simplification: given constraints for another number of samples than there
are, or of a learner fitted to fewer samples before, are rejected at once with `IndexError`. -/
def start {X Y : Type} (m : SModel X Y) (qp : QP.Solver) (o : Obj Y) (n : ℕ)
    (constraints : Option (List (List (NCon Y)))) : Except PyErr (St X Y) :=
  match constraints with
  | none => .ok ⟨m, false, fun _ => 0, fun _ => [], fun _ => [], [], [], o.lossCurve, none⟩
  | some cs =>
    if cs.length ≠ n then .error .indexError
    else
      match solveQP qp m.dim o.cfg.negativity o.cfg.C n fun i => cs.getD i [] with
      | .error err => .error err
      | .ok _ =>
        match o.attrs with
        | none => if o.cfg.inactiveWindow = 0 ∧ o.cfg.maxIter = 0 then .error .unboundLocalError
          else .error .attributeError
        | some a =>
          if a.n < n then .error .indexError
          else solve qp o.cfg n ⟨m, false, fun _ => 0, fun i => cs.getD i [], a.lastActive, a.objectiveCurve,
            a.primalCurve, o.lossCurve, none⟩

/-- `fit`, `pystruct/learners/n_slack_ssvm.py` lines 240-400, after `model.initialize`; `intr` tells
where `KeyboardInterrupt`s arrive. If there was no iteration the local variable `verbose` is not
bound when line 393 reads it; if no QP was solved, `objective` is not bound in line 343 or 397. The
model keeps the inference method that was switched to; this change of the model is not part of the
result. The outcome tells why the loop ended. -/
def fit {X Y : Type} (m : SModel X Y) (qp : QP.Solver) (eq : Y → Y → Bool)
    (alt : Option ((X → Y → W → Bool → Y) × (X → W → Y))) (intr : ℕ → ℕ → Option OneSlack.Phase)
    (o : Obj Y) (samples : List (X × Y)) (constraints : Option (List (List (NCon Y)))) :
    Except PyErr (Obj Y × Outcome) :=
  match start m qp o samples.length constraints with
  | .error err => .error err
  | .ok st =>
    match loop qp eq alt o.cfg samples intr o.cfg.maxIter 0 st with
    | .error err => .error err
    | .ok (st, out) =>
      if o.cfg.maxIter = 0 then .error .unboundLocalError
      else
        match objectivePrimal st.model st.w samples o.cfg.C true with
        | .error err => .error err
        | .ok primal =>
          match st.objective with
          | none => .error .unboundLocalError
          | some obj =>
            .ok (⟨o.cfg, some ⟨samples.length, st.w, st.ws, st.lastActive, st.objectiveCurve ++ [obj],
              st.primalCurve ++ [primal]⟩, st.lossCurve⟩, out)

end Verif.NSlack
