import Verif.Model.Learner
import Verif.Model.QP

/-!
# Model of `pystruct/learners/one_slack_ssvm.py`

Not modelled: `logger` (see `TrainingLog`), printing; `timestamps_` is in `Timing`. `n_jobs ≠ 1`
computes the same results in parallel and is not distinguished. `np.float` (line 160) is taken to exist, as in the versions of numpy that the package supports.
Data is a list of pairs; for an empty list numpy divides by zero and goes on with `nan`, whereas here
`0 / 0 = 0`; theorems assume at least one sample.
-/

namespace Verif.OneSlack

open Finset Verif.Learner

/-- The parameter `cache_tol`. `pystruct/learners/one_slack_ssvm.py` lines 142 and 153. -/
inductive CacheTol where
  | auto
  | default
  | value (tol : ℚ)

/-- Constructor parameters, `pystruct/learners/one_slack_ssvm.py` lines 138-157. `inactiveWindow` is a
nonnegative integer, `negativity` holds nonnegative indices. -/
structure Config where
  maxIter : ℕ
  C : ℚ
  checkConstraints : Bool
  negativity : Option (List ℕ)
  breakOnBad : Bool
  showLossEvery : ℕ
  tol : ℚ
  inferenceCache : ℕ
  inactiveThreshold : ℚ
  inactiveWindow : ℕ
  cacheTol : CacheTol

/-- A constraint of the working set: mean joint-feature difference and mean loss.
`pystruct/learners/one_slack_ssvm.py` lines 439 and 499. -/
abbrev Con := W × ℚ

/-- The quadratic program of `_solve_1_slack_qp`, `pystruct/learners/one_slack_ssvm.py` lines
160-193 and 199-202; `eps` is 0 in the first attempt and `1e-8` in the second one, `cn` is the
variable `C`. -/
def qpOf (dim : ℕ) (negativity : Option (List ℕ)) (cn : ℚ) (constraints : List Con) (eps : ℚ) :
    QP.Problem where
  P := constraints.mapIdx fun i c => constraints.mapIdx fun j d =>
    dot dim c.1 d.1 + if i = j then eps else 0
  q := constraints.map fun c => -c.2
  G := ((List.range constraints.length).map fun i => (List.range constraints.length).map fun j =>
      if i = j then -1 else 0) ++
    (negativity.getD []).map fun k => constraints.map fun c => c.1 k
  h := (List.range constraints.length).map (fun _ => 0) ++ (negativity.getD []).map fun _ => 0
  A := [constraints.map fun _ => 1]
  b := [cn]

/-- `pystruct/learners/one_slack_ssvm.py` lines 195-205: solve, and try again with a regularised
matrix. An index in `negativity_constraint` that is too large raises `IndexError` (line 178). -/
def solveQP (qp : QP.Solver) (dim : ℕ) (negativity : Option (List ℕ)) (cn : ℚ)
    (constraints : List Con) : Except PyErr QP.Solution :=
  if (negativity.getD []).any (fun k => dim ≤ k) then .error .indexError
  else
    match qp (qpOf dim negativity cn constraints 0) with
    | some s => .ok s
    | none =>
      match qp (qpOf dim negativity cn constraints (1 / 10 ^ 8)) with
      | some s => .ok s
      | none => .error .valueError

/-- The last `n` entries, `l[-n:]` for `n ≥ 1`. `pystruct/learners/one_slack_ssvm.py` line 229. -/
def lastN {α : Type} (n : ℕ) (l : List α) : List α := l.drop (l.length - n)

/-- `np.max` of a list; the lists it is used for here are not empty
(`pystruct/learners/one_slack_ssvm.py` line 233 raises `ValueError` for an empty list, see `prune`).
-/
def listMax (l : List ℚ) : ℚ := l.max?.getD 0

/-- `prune_constraints`, `pystruct/learners/one_slack_ssvm.py` lines 218-239. The assignment in line
224 has no effect. -/
def prune (cfg : Config) (constraints : List Con) (alphas : List (List ℚ)) (a : List ℚ) :
    Except PyErr (List Con × List (List ℚ)) :=
  let alphas := alphas ++ [[]]
  if alphas.length ≠ constraints.length then .error .assertionError
  else
    let alphas := List.zipWith (fun l x => l ++ [x]) alphas a
    if cfg.inactiveWindow = 0 then .ok (constraints, alphas)
    else
      let maxActive := alphas.map fun l => listMax (lastN cfg.inactiveWindow l)
      if maxActive.tail.isEmpty then .error .valueError
      else
        let strongest := listMax maxActive.tail
        let keep := maxActive.map fun x => !decide (x < cfg.inactiveThreshold * strongest)
        .ok (((constraints.zip keep).filter (·.2)).map (·.1), ((alphas.zip keep).filter (·.2)).map (·.1))

/-- `_check_bad_constraint`, `pystruct/learners/one_slack_ssvm.py` lines 241-278; the parameter
`tol` is never given. -/
def checkBad (cfg : Config) (dim : ℕ) (w : W) (lastSlack violation : ℚ) (dj : W) (loss : ℚ)
    (old : List Con) (breakOnBad : Bool) : Except PyErr Bool :=
  let difference := violation - lastSlack
  if difference < 0 ∧ 0 < violation ∧ breakOnBad = true then .error .valueError
  else if difference < cfg.tol then .ok true
  else if old.any (fun c => decide (∀ k < dim, c.1 k = dj k) && decide (loss = c.2)) then .ok true
  else if cfg.checkConstraints then
    if old.any (fun c => decide (violation - max (c.2 - dot dim w c.1) 0 < -(1 / 10 ^ 5))) then
      if breakOnBad then .error .valueError else .ok true
    else .ok false
  else .ok false

/-- An entry of the cache: joint feature, loss, output. `pystruct/learners/one_slack_ssvm.py` lines
328-329. -/
abbrev Cached (Y : Type) := W × ℚ × Y

/-- Whether the cache of a sample already holds `yhat`, `pystruct/learners/one_slack_ssvm.py` lines
318-320; `eq` is `constraint_equal`, which may raise an exception. -/
def alreadyThere {Y : Type} (eq : Y → Y → Except PyErr Bool) (yhat : Y) :
    List (Cached Y) → Except PyErr Bool
  | [] => .ok false
  | c :: cs =>
    match eq yhat c.2.2 with
    | .error err => .error err
    | .ok b =>
      match alreadyThere eq yhat cs with
      | .error err => .error err
      | .ok b' => .ok (b || b')

/-- The loop body of `_update_cache` for one sample, `pystruct/learners/one_slack_ssvm.py` lines
317-329. Simplification: with `rescale_C` the call of `joint_feature` lacks the true label and raises `ValueError`
(`pystruct/models/unstructured_svm.py` lines 227-230), which is not modelled here but in `Unstructured.mcJointFeature`. -/
def cacheSample {X Y : Type} (m : SModel X Y) (eq : Y → Y → Except PyErr Bool) (size : ℕ)
    (sample : List (Cached Y)) (x : X) (y yhat : Y) : Except PyErr (List (Cached Y)) :=
  match alreadyThere eq yhat sample with
  | .error err => .error err
  | .ok true => .ok sample
  | .ok false =>
    let sample := if size < sample.length then sample.drop 1 else sample
    .ok (sample ++ [(m.jointFeature x yhat, m.lossOf y yhat, yhat)])

/-- The loop of `_update_cache`; samples beyond the shortest list are left alone (`zip`).
`pystruct/learners/one_slack_ssvm.py` lines 317-329. -/
def cacheSamples {X Y : Type} (m : SModel X Y) (eq : Y → Y → Except PyErr Bool) (size : ℕ) :
    List (List (Cached Y)) → List (X × Y) → List Y → Except PyErr (List (List (Cached Y)))
  | c :: cache, s :: samples, yh :: yhat =>
    match cacheSample m eq size c s.1 s.2 yh with
    | .error err => .error err
    | .ok c' =>
      match cacheSamples m eq size cache samples yhat with
      | .error err => .error err
      | .ok cache' => .ok (c' :: cache')
  | cache, _, _ => .ok cache

/-- `_update_cache`, `pystruct/learners/one_slack_ssvm.py` lines 309-329. -/
def updateCache {X Y : Type} (m : SModel X Y) (eq : Y → Y → Except PyErr Bool) (cfg : Config)
    (cache : Option (List (List (Cached Y)))) (samples : List (X × Y)) (yhat : List Y) :
    Except PyErr (Option (List (List (Cached Y)))) :=
  if cfg.inferenceCache = 0 then .ok cache
  else
    match cacheSamples m eq cfg.inferenceCache (cache.getD (yhat.map fun _ => [])) samples yhat with
    | .error err => .error err
    | .ok c => .ok (some c)

/-- The most violated entry of the cache of a sample, `pystruct/learners/one_slack_ssvm.py` lines
350-353; `np.argmax` of an empty list raises `ValueError`. -/
def strongestCached {Y : Type} (dim : ℕ) (w : W) (cached : List (Cached Y)) : Except PyErr (Cached Y) :=
  match cached[argmaxN (fun i => (cached[i]?.map fun c => dot dim c.1 w + c.2.1).getD 0) cached.length]? with
  | none => .error .valueError
  | some c => .ok c

/-- `strongestCached` for all samples, `pystruct/learners/one_slack_ssvm.py` lines 348-356. -/
def strongestAll {Y : Type} (dim : ℕ) (w : W) : List (List (Cached Y)) → Except PyErr (List (Cached Y))
  | [] => .ok []
  | c :: cs =>
    match strongestCached dim w c with
    | .error err => .error err
    | .ok e =>
      match strongestAll dim w cs with
      | .error err => .error err
      | .ok es => .ok (e :: es)

/-- The attributes and local variables that change during `fit`. `constraints` is the local list;
`shared` says whether the attribute `constraints_` is this list. `objective` is the local variable,
`none` while it is not assigned. `model` differs from the original model after switching to another
inference method. `pystruct/learners/one_slack_ssvm.py` lines 422-460. -/
structure St (X Y : Type) where
  model : SModel X Y
  switched : Bool
  w : W
  constraints : List Con
  shared : Bool
  alphas : List (List ℚ)
  objectiveCurve : List ℚ
  primalCurve : List ℚ
  cachedFlags : List Bool
  lossCurve : List ℚ
  cache : Option (List (List (Cached Y)))
  cacheTol : ℚ
  lastSlack : ℚ
  objective : Option ℚ

/-- A constraint that was found: outputs, mean joint-feature difference, mean loss.
`pystruct/learners/one_slack_ssvm.py` lines 367 and 396. -/
structure Found (Y : Type) where
  yhat : List Y
  dj : W
  loss : ℚ

/-- the test `self.cache_tol == 'auto' and gap < self.cache_tol_`,
`pystruct/learners/one_slack_ssvm.py` lines 338-341. -/
def gapSmall (t : CacheTol) (cacheTol gap : ℚ) : Bool :=
  match t with
  | .auto => decide (gap < cacheTol)
  | _ => false

/-- `_constraint_from_cache`, `pystruct/learners/one_slack_ssvm.py` lines 331-367; the result `none`
stands for the exception `NoConstraint`. `gt` is `joint_feature_gt`. -/
def fromCache {X Y : Type} (cfg : Config) (st : St X Y) (gt : W) (n : ℕ) :
    Except PyErr (Option (Found Y)) :=
  match st.cache with
  | none => .ok none
  | some [] => .ok none
  | some (c :: cs) =>
    match st.primalCurve.getLast?, st.objectiveCurve.getLast? with
    | some primal, some obj =>
      if gapSmall cfg.cacheTol st.cacheTol (primal - obj) = true then .ok none
      else
        match strongestAll st.model.dim st.w (c :: cs) with
        | .error err => .error err
        | .ok es =>
          let dj : W := fun k => (gt k - (es.map fun e => e.1 k).sum) / n
          let loss := (es.map fun e => e.2.1).sum / n
          let violation := loss - dot st.model.dim st.w dj
          match checkBad cfg st.model.dim st.w st.lastSlack violation dj loss st.constraints false with
          | .error err => .error err
          | .ok true => .ok none
          | .ok false => .ok (some ⟨es.map fun e => e.2.2, dj, loss⟩)
    | _, _ => .error .indexError

/-- `_find_new_constraint`, `pystruct/learners/one_slack_ssvm.py` lines 369-396, with `check=True`.
-/
def findNew {X Y : Type} (cfg : Config) (st : St X Y) (gt : W) (samples : List (X × Y)) :
    Except PyErr (Option (Found Y)) :=
  let m := st.model
  let outs := samples.map fun s => (s, m.lossAug s.1 s.2 st.w true)
  let dj : W := fun k => (gt k - (outs.map fun p => m.feat p.1.1 p.2 p.1.2 k).sum) / samples.length
  let loss := (outs.map fun p => m.lossOf p.1.2 p.2).sum / samples.length
  let violation := loss - dot m.dim st.w dj
  match checkBad cfg m.dim st.w st.lastSlack violation dj loss st.constraints cfg.breakOnBad with
  | .error err => .error err
  | .ok true => .ok none
  | .ok false => .ok (some ⟨outs.map fun p => p.2, dj, loss⟩)

/-- `max(np.max([...]), 0)`, `pystruct/learners/one_slack_ssvm.py` lines 516-518. -/
def newLastSlack (dim : ℕ) (w : W) (constraints : List Con) : Except PyErr ℚ :=
  match (constraints.map fun c => -dot dim w c.1 + c.2).max? with
  | none => .error .valueError
  | some v => .ok (max v 0)

/-- The weights `np.dot(a, joint_feature_matrix)`, `pystruct/learners/one_slack_ssvm.py` line 213.
-/
def weightsOf (constraints : List Con) (a : List ℚ) : W := fun k =>
  (List.zipWith (fun x c => x * c.1 k) a constraints).sum

/-- The attribute `cache_tol_` after an iteration with the given gap,
`pystruct/learners/one_slack_ssvm.py` lines 512-514. -/
def newCacheTol (kind : CacheTol) (cached : Bool) (old gap : ℚ) : ℚ :=
  match kind with
  | .auto => if cached then old else gap / 4
  | _ => old

/-- Where a `KeyboardInterrupt` arrives in an iteration: while looking for a constraint, while the
QP is being solved, or after that. `pystruct/learners/one_slack_ssvm.py` lines 462-535. -/
inductive Phase where
  | search
  | qp
  | after
  deriving DecidableEq

/-- `pystruct/learners/one_slack_ssvm.py` lines 497-530 for the constraint `f`, `cached` says where
it comes from. The result says whether the loop goes on; it ends with an interrupt. -/
def addConstraint {X Y : Type} (qp : QP.Solver) (cfg : Config) (samples : List (X × Y)) (it : ℕ)
    (intr : Option Phase) (st : St X Y) (f : Found Y) (cached : Bool) : Except PyErr (St X Y × Bool) :=
  let dim := st.model.dim
  let n : ℚ := samples.length
  let constraints := st.constraints ++ [(f.dj, f.loss)]
  let primal := cfg.C * n * max (-dot dim st.w f.dj + f.loss) 0 + (∑ k ∈ range dim, st.w k ^ 2) / 2
  let st := { st with
    lossCurve := computeTrainingLoss st.model cfg.showLossEvery st.w samples it st.lossCurve
    constraints := constraints
    primalCurve := st.primalCurve ++ [primal]
    cachedFlags := st.cachedFlags ++ [cached] }
  if intr = some .qp then .ok (st, false)
  else
    match solveQP qp dim cfg.negativity (cfg.C * n) constraints with
    | .error err => .error err
    | .ok sol =>
      match prune cfg constraints st.alphas sol.x with
      | .error err => .error err
      | .ok (constraints', alphas) =>
        let w := weightsOf constraints sol.x
        let objective := -sol.primalObjective
        let cacheTol := newCacheTol cfg.cacheTol cached st.cacheTol (primal - objective)
        let st := { st with
          w := w, constraints := constraints', alphas := alphas, objective := some objective
          cacheTol := cacheTol }
        if intr = some .after then .ok (st, false)
        else
          match newLastSlack dim w constraints' with
          | .error err => .error err
          | .ok s =>
            .ok ({ st with
              lastSlack := s
              objectiveCurve := st.objectiveCurve ++ [objective]
              shared := true }, true)

/-- One iteration of the loop, `pystruct/learners/one_slack_ssvm.py` lines 465-530. `alt` are
loss-augmented inference and inference after switching to the method `switch_to`, if this is set and
differs from the method of the model. -/
def iteration {X Y : Type} (qp : QP.Solver) (eq : Y → Y → Except PyErr Bool)
    (alt : Option ((X → Y → W → Bool → Y) × (X → W → Y))) (cfg : Config)
    (samples : List (X × Y)) (gt : W) (it : ℕ) (intr : Option Phase) (st : St X Y) :
    Except PyErr (St X Y × Bool) :=
  if intr = some .search then .ok (st, false)
  else
    match fromCache cfg st gt samples.length with
    | .error err => .error err
    | .ok (some f) => addConstraint qp cfg samples it intr st f true
    | .ok none =>
      match findNew cfg st gt samples with
      | .error err => .error err
      | .ok (some f) =>
        match updateCache st.model eq cfg st.cache samples f.yhat with
        | .error err => .error err
        | .ok cache => addConstraint qp cfg samples it intr { st with cache := cache } f false
      | .ok none =>
        match st.switched, alt with
        | false, some (la, inf) =>
          .ok ({ st with model := { st.model with lossAug := la, inference := inf }, switched := true }, true)
        | _, _ => .ok (st, false)

/-- The loop over iterations, `pystruct/learners/one_slack_ssvm.py` lines 462-535; `intr it` tells
whether an interrupt arrives in iteration `it`. -/
def loop {X Y : Type} (qp : QP.Solver) (eq : Y → Y → Except PyErr Bool)
    (alt : Option ((X → Y → W → Bool → Y) × (X → W → Y))) (cfg : Config)
    (samples : List (X × Y)) (gt : W) (intr : ℕ → Option Phase) : ℕ → ℕ → St X Y → Except PyErr (St X Y)
  | 0, _, st => .ok st
  | fuel + 1, it, st =>
    match iteration qp eq alt cfg samples gt it (intr it) st with
    | .error err => .error err
    | .ok (st, false) => .ok st
    | .ok (st, true) => loop qp eq alt cfg samples gt intr fuel (it + 1) st

/-- The attributes after `fit`. `constraints` is the attribute `constraints_`, which only exists
once an iteration was completed. `pystruct/learners/one_slack_ssvm.py` lines 528-543. -/
structure Attrs (Y : Type) where
  w : W
  constraints : Option (List Con)
  alphas : List (List ℚ)
  objectiveCurve : List ℚ
  primalCurve : List ℚ
  cachedFlags : List Bool
  cache : Option (List (List (Cached Y)))

/-- A learner object. The loss curve is created when needed and never reset.
`pystruct/learners/one_slack_ssvm.py` lines 138-157. -/
structure Obj (Y : Type) where
  cfg : Config
  attrs : Option (Attrs Y)
  lossCurve : List ℚ

/-- The parameter `warm_start`. `pystruct/learners/one_slack_ssvm.py` lines 398 and 432-452. -/
inductive Warm where
  | no
  | soft
  | yes

/-- The state at the start of the loop, `pystruct/learners/one_slack_ssvm.py` lines 422-454. A warm
start of a learner that was never fitted raises `AttributeError`. -/
def start {X Y : Type} (m : SModel X Y) (o : Obj Y) (warm : Warm) : Except PyErr (St X Y) :=
  let cacheTol := match o.cfg.cacheTol with
    | .value t => t
    | _ => o.cfg.tol
  let gtCon : Con := (fun _ => 0, 0)
  match warm, o.attrs with
  | .no, _ => .ok ⟨m, false, fun _ => 0, [gtCon], false, [[o.cfg.C]], [], [], [], o.lossCurve, none, cacheTol,
      -1, none⟩
  | .soft, some a => .ok ⟨m, false, fun _ => 0, [gtCon], false, [[o.cfg.C]], a.objectiveCurve,
      a.primalCurve, a.cachedFlags, o.lossCurve, a.cache, cacheTol, -1, none⟩
  | .yes, some ⟨w, some cs, alphas, oc, pc, fl, cache⟩ =>
    .ok ⟨m, false, w, cs, true, alphas, oc, pc, fl, o.lossCurve, cache, cacheTol, -1, none⟩
  | _, _ => .error .attributeError

/-- `joint_feature_gt`, `pystruct/learners/one_slack_ssvm.py` lines 456-460: the sum of the joint
features of the true labels. -/
def jointFeatureGt {X Y : Type} (m : SModel X Y) (samples : List (X × Y)) : W := fun k =>
  (samples.map fun s => m.feat s.1 s.2 s.2 k).sum

/-- `fit`, `pystruct/learners/one_slack_ssvm.py` lines 398-552, after `model.initialize`. `intr`
tells where `KeyboardInterrupt`s arrive. If no iteration was completed the local variable
`objective` is not bound when line 542 reads it. The model keeps the inference method that was
switched to; this change of the model is not part of the result. -/
def fit {X Y : Type} (m : SModel X Y) (qp : QP.Solver) (eq : Y → Y → Except PyErr Bool)
    (alt : Option ((X → Y → W → Bool → Y) × (X → W → Y))) (intr : ℕ → Option Phase)
    (o : Obj Y) (samples : List (X × Y)) (warm : Warm) : Except PyErr (Obj Y) :=
  match start m o warm with
  | .error err => .error err
  | .ok st =>
    match loop qp eq alt o.cfg samples (jointFeatureGt m samples) intr o.cfg.maxIter 0 st with
    | .error err => .error err
    | .ok st =>
      match objectivePrimal st.model st.w samples o.cfg.C false with
      | .error err => .error err
      | .ok primal =>
        match st.objective with
        | none => .error .unboundLocalError
        | some obj =>
          .ok ⟨o.cfg, some ⟨st.w, if st.shared then some st.constraints else o.attrs.bind (·.constraints),
            st.alphas, st.objectiveCurve ++ [obj], st.primalCurve ++ [primal], st.cachedFlags ++ [false],
            st.cache⟩, st.lossCurve⟩

/-- The outputs that `constraint_equal` compares: a discrete labelling, a relaxed labelling, or a
relaxed labelling of a model with several node types. `pystruct/learners/one_slack_ssvm.py` lines
281-307. -/
inductive Output where
  | discrete (y : List ℕ)
  | relaxed (unary pw : List ℚ)
  | multi (unary pw : List (List ℚ))
  deriving DecidableEq

/-- `constraint_equal`, `pystruct/learners/one_slack_ssvm.py` lines 281-307. For two relaxed
single-type labellings with equal unary marginals, `np.all(pw_m_1, pw_m_2)` raises `TypeError`,
because the second argument must be an axis. The comparison of a discrete with a relaxed labelling
is taken to be `False`. -/
def constraintEqual : Output → Output → Except PyErr Bool
  | .relaxed u1 _, .relaxed u2 _ => if u1 = u2 then .error .typeError else .ok false
  | .multi u1 p1, .multi u2 p2 =>
    .ok ((u1.zip u2).all (fun p => decide (p.1 = p.2)) && (p1.zip p2).all (fun p => decide (p.1 = p.2)))
  | .discrete y1, .discrete y2 => .ok (decide (y1 = y2))
  | _, _ => .ok false

end Verif.OneSlack
