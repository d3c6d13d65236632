import Verif.Model.Learner
import Mathlib.Data.Rat.Floor

/-!
# Model of `pystruct/learners/subgradient_ssvm.py`

Not modelled: `logger` (see `TrainingLog`), printing, `timestamps_` (see `Timing`), `KeyboardInterrupt` (see `Interrupt`), and
the variable `objective` of the learning loops, which is only printed.
-/

namespace Verif.Subgradient

open Finset Verif.Learner

/-- The parameter `averaging`; everything but `'linear'` and `'squared'` means no averaging.
`pystruct/learners/subgradient_ssvm.py` lines 119 and 143-150. -/
inductive Averaging where
  | none
  | linear
  | squared
  deriving DecidableEq

/-- Constructor parameters, `pystruct/learners/subgradient_ssvm.py` lines 111-127. `learningRate` is
`none` for `'auto'`. `decay t` is `(t + decay_t0) ** decay_exponent` of lines 135-140 (a real power, hence a
parameter; constantly 1 for exponent 0). `nJobs` is the number of jobs with `-1` already replaced by the
number of processors (lines 254-257). -/
structure Config where
  maxIter : ℕ
  C : ℚ
  momentum : ℚ
  learningRate : Option ℚ
  decay : ℕ → ℚ
  breakOnNoConstraints : Bool
  batchSize : Option ℤ
  averaging : Averaging
  shuffle : Bool
  nJobs : ℕ
  showLossEvery : ℕ

/-- The local variable `w` and the attributes `grad_old`, `w`, `t`. Without averaging `self.w` and
`w` are the same array. `pystruct/learners/subgradient_ssvm.py` lines 133, 145-151 and 181-183. -/
structure St where
  w : W
  gradOld : W
  selfW : W
  t : ℕ

/-- `_solve_subgradient`, `pystruct/learners/subgradient_ssvm.py` lines 129-152; `lr` is
`learning_rate_`. -/
def solveSubgradient (cfg : Config) (lr : ℚ) (nSamples : ℕ) (st : St) (djoint : W) : St :=
  let grad : W := fun k => djoint k - st.w k / (cfg.C * nSamples)
  let gradOld : W := fun k => (1 - cfg.momentum) * grad k + cfg.momentum * st.gradOld k
  let effectiveLr := lr / cfg.decay st.t
  let w : W := fun k => st.w k + effectiveLr * gradOld k
  let t : ℚ := st.t
  { w := w
    gradOld := gradOld
    selfW := match cfg.averaging with
      | .linear =>
        let rho := 2 / (t + 2)
        fun k => (1 - rho) * st.selfW k + rho * w k
      | .squared =>
        let rho := 6 * (t + 1) / ((t + 2) * (2 * t + 3))
        fun k => (1 - rho) * st.selfW k + rho * w k
      | .none => w
    t := st.t + 1 }

/-- `sklearn.utils.gen_even_slices(n, n_packs)` for `n_packs ≥ 1`, starting at `start`: `left` packs
remain to be cut, the current one is number `pack`. Pairs are start and length; empty slices are
skipped. `pystruct/learners/subgradient_ssvm.py` lines 260 and 298. -/
def genEvenSlices (n nPacks : ℕ) : ℕ → ℕ → ℕ → List (ℕ × ℕ)
  | 0, _, _ => []
  | left + 1, pack, start =>
    let thisN := n / nPacks + if pack < n % nPacks then 1 else 0
    if 0 < thisN then (start, thisN) :: genEvenSlices n nPacks left (pack + 1) (start + thisN)
    else genEvenSlices n nPacks left (pack + 1) start

/-- `gen_even_slices(n, n_packs)`, which rejects `n_packs < 1`.
`pystruct/learners/subgradient_ssvm.py` lines 260 and 298. -/
def evenSlices (n : ℕ) (nPacks : ℤ) : Except PyErr (List (ℕ × ℕ)) :=
  if nPacks < 1 then .error .valueError
  else .ok (genEvenSlices n nPacks.toNat nPacks.toNat 0 0)

/-- `int(np.ceil(float(n) / b))`. `pystruct/learners/subgradient_ssvm.py` lines 259 and 297. -/
def ceilDiv (n : ℕ) (b : ℤ) : ℤ := ⌈(n : ℚ) / (b : ℚ)⌉

/-- `X[slice]`, `Y[slice]` for the slices `sl`. `pystruct/learners/subgradient_ssvm.py` lines
262-263 and 300-301. -/
def cut {α : Type} (data : List α) (sl : List (ℕ × ℕ)) : List (List α) :=
  sl.map fun p => (data.drop p.1).take p.2

/-- The slices of the mini-batch branch of `_sequential_learning`,
`pystruct/learners/subgradient_ssvm.py` lines 294-298. -/
def miniBatches {α : Type} (data : List α) (batchSize : ℤ) : Except PyErr (List (List α)) :=
  if batchSize = -1 then .ok [data]
  else if batchSize = 0 then .error .zeroDivisionError
  else
    match evenSlices data.length (ceilDiv data.length batchSize) with
    | .error err => .error err
    | .ok sl => .ok (cut data sl)

/-- Body of the online loop, `pystruct/learners/subgradient_ssvm.py` lines 285-291; the integer
counts positive slacks. -/
def onlineStep {X Y : Type} (m : SModel X Y) (cfg : Config) (lr : ℚ) (n : ℕ) (st : St × ℤ) (s : X × Y) :
    St × ℤ :=
  let c := findConstraint m s.1 s.2 st.1.w none true true
  (solveSubgradient cfg lr n st.1 c.delta, if 0 < c.slack then st.2 + 1 else st.2)

/-- The mean joint-feature difference of a mini-batch, `pystruct/learners/subgradient_ssvm.py` lines
302-305 and 311, for a model with the default batch methods. -/
def meanDelta {X Y : Type} (m : SModel X Y) (b : List (X × Y)) (w : W) : W := fun k =>
  ((b.map fun s => m.jointFeature s.1 s.2 k).sum -
    (b.map fun s => m.jointFeature s.1 (m.lossAug s.1 s.2 w true) k).sum) / b.length

/-- Body of the mini-batch loop, `pystruct/learners/subgradient_ssvm.py` lines 299-311. -/
def batchStep {X Y : Type} (m : SModel X Y) (cfg : Config) (lr : ℚ) (n : ℕ) (batchSize : ℤ)
    (st : St × ℤ) (b : List (X × Y)) : St × ℤ :=
  (solveSubgradient cfg lr n st.1 (meanDelta m b st.1.w), st.2 + batchSize)

/-- `_sequential_learning`, `pystruct/learners/subgradient_ssvm.py` lines 280-312.
`batch_joint_feature` without true labels raises `ValueError` for a model with `rescale_C`
(`pystruct/models/unstructured_svm.py` lines 238-240). -/
def sequentialLearning {X Y : Type} (m : SModel X Y) (cfg : Config) (lr : ℚ) (data : List (X × Y))
    (st : St) : Except PyErr (St × ℤ) :=
  match cfg.batchSize with
  | none => .ok (data.foldl (onlineStep m cfg lr data.length) (st, 0))
  | some b =>
    if b = 1 then .ok (data.foldl (onlineStep m cfg lr data.length) (st, 0))
    else
      match miniBatches data b with
      | .error err => .error err
      | .ok bs =>
        if m.rescaleC ∧ bs ≠ [] then .error .valueError
        else .ok (bs.foldl (batchStep m cfg lr data.length b) (st, 0))

/-- Body of the loop of `_parallel_learning`, `pystruct/learners/subgradient_ssvm.py` lines 261-277:
all constraints of a batch are found with the same weights, and those with positive slack are added
up. -/
def parallelStep {X Y : Type} (m : SModel X Y) (cfg : Config) (lr : ℚ) (n : ℕ) (st : St × ℤ)
    (b : List (X × Y)) : St × ℤ :=
  let cs := b.map fun s => findConstraint m s.1 s.2 st.1.w none true true
  let pos := cs.filter fun c => 0 < c.slack
  (solveSubgradient cfg lr n st.1 (fun k => (pos.map fun c => c.delta k).sum), st.2 + pos.length)

/-- `_parallel_learning`, `pystruct/learners/subgradient_ssvm.py` lines 245-278. -/
def parallelLearning {X Y : Type} (m : SModel X Y) (cfg : Config) (lr : ℚ) (data : List (X × Y))
    (st : St) : Except PyErr (St × ℤ) :=
  if cfg.batchSize ≠ none then .error .valueError
  else if cfg.nJobs = 0 then .error .zeroDivisionError
  else
    match evenSlices data.length (ceilDiv data.length cfg.nJobs) with
    | .error err => .error err
    | .ok sl => .ok ((cut data sl).foldl (parallelStep m cfg lr data.length) (st, 0))

/-- One pass, `pystruct/learners/subgradient_ssvm.py` lines 198-201. -/
def learn {X Y : Type} (m : SModel X Y) (cfg : Config) (lr : ℚ) (data : List (X × Y)) (st : St) :
    Except PyErr (St × ℤ) :=
  if cfg.nJobs = 1 then sequentialLearning m cfg lr data st else parallelLearning m cfg lr data st

/-- Objective and loss curves. `pystruct/learners/subgradient_ssvm.py` lines 185, 218 and 223. -/
structure Curves where
  objective : List ℚ
  loss : List ℚ

/-- The loop over iterations, `pystruct/learners/subgradient_ssvm.py` lines 195-223. `order it` is
the data in the order that `shuffle` produces in iteration `it`. The result is the data as last
shuffled, the state and the curves. -/
def loop {X Y : Type} (m : SModel X Y) (cfg : Config) (lr : ℚ) (order : ℕ → List (X × Y)) :
    ℕ → ℕ → List (X × Y) → St → Curves → Except PyErr (List (X × Y) × St × Curves)
  | 0, _, data, st, c => .ok (data, st, c)
  | n + 1, it, data, st, c =>
    let data := if cfg.shuffle then order it else data
    match learn m cfg lr data st with
    | .error err => .error err
    | .ok (st, positive) =>
      if positive = 0 ∧ cfg.breakOnNoConstraints = true then .ok (data, st, c)
      else
        match objectivePrimal m st.selfW data cfg.C true with
        | .error err => .error err
        | .ok obj =>
          loop m cfg lr order n (it + 1) data st
            ⟨c.objective ++ [obj], computeTrainingLoss m cfg.showLossEvery st.selfW data it c.loss⟩

/-- A learner object; `w` and `lr` (`learning_rate_`) are `none` before the first `fit`, `t` is 0.
`pystruct/learners/subgradient_ssvm.py` lines 111-127 and 181-190. -/
structure Obj where
  cfg : Config
  w : Option W
  t : ℕ
  lr : Option ℚ
  curves : Curves

/-- Learning rate and objective curve at the start of `fit`, `pystruct/learners/subgradient_ssvm.py`
lines 184-192. A warm start of a learner that was never fitted raises `AttributeError` (line 192).
-/
def setup (o : Obj) (nSamples : ℕ) (warmStart : Bool) : Except PyErr (ℚ × List ℚ) :=
  if warmStart then
    match o.lr with
    | none => .error .attributeError
    | some lr => .ok (lr, o.curves.objective)
  else .ok (o.cfg.learningRate.getD (o.cfg.C * nSamples), [])

/-- `fit`, `pystruct/learners/subgradient_ssvm.py` lines 154-243, after `model.initialize`. -/
def fit {X Y : Type} (m : SModel X Y) (order : ℕ → List (X × Y)) (o : Obj) (samples : List (X × Y))
    (warmStart : Bool) : Except PyErr Obj :=
  let w0 : W := o.w.getD (fun _ => 0)
  match setup o samples.length warmStart with
  | .error err => .error err
  | .ok (lr, curve) =>
    match loop m o.cfg lr order o.cfg.maxIter 0 samples ⟨w0, fun _ => 0, w0, o.t⟩ ⟨curve, o.curves.loss⟩ with
    | .error err => .error err
    | .ok (data, st, c) =>
      match objectivePrimal m st.selfW data o.cfg.C true with
      | .error err => .error err
      | .ok obj => .ok ⟨o.cfg, some st.selfW, st.t, some lr, ⟨c.objective ++ [obj], c.loss⟩⟩

end Verif.Subgradient
