import Verif.Model.LatentSSVM
import Verif.Model.Subgradient

/-!
# Model of `pystruct/learners/subgradient_latent_ssvm.py` and `find_constraint_latent`

Not modelled: `logger` (see `TrainingLog`), printing, `timestamps_` (see `Timing`), `KeyboardInterrupt` (see `Interrupt`), `model.initialize`.
-/

namespace Verif.SubgradientLatent

open Finset Verif.Learner Verif.LatentSSVM

/-- A latent model together with `model.loss(y, h_hat)` for a *label* `y`, which
`find_constraint_latent` and `score` call. `pystruct/utils/inference.py` lines 86-100. -/
structure SLModel (X Y H : Type) extends LModel X Y H where
  lossLabel : Y → H → ℚ

/-- `find_constraint_latent`, `pystruct/utils/inference.py` lines 86-100, with `relaxed=True`. -/
def findConstraintLatent {X Y H : Type} (L : SLModel X Y H) (x : X) (y : Y) (w : W) : Constraint H :=
  let h := L.latent x y w
  let hHat := L.m.lossAug x h w true
  let delta : W := fun k => L.m.jointFeature x h k - L.m.jointFeature x hHat k
  let loss := L.lossLabel y hHat
  ⟨hHat, delta, max (loss - dot L.m.dim w delta) 0, loss⟩

/-- Body of the online loop, `pystruct/learners/subgradient_latent_ssvm.py` lines 160-172: state, number of
positive slacks, sum of the slacks. -/
def onlineStep {X Y H : Type} (L : SLModel X Y H) (cfg : Subgradient.Config) (lr : ℚ) (n : ℕ)
    (acc : Subgradient.St × ℤ × ℚ) (s : X × Y) : Subgradient.St × ℤ × ℚ :=
  let h := L.latent s.1 s.2 acc.1.w
  let hHat := L.m.lossAug s.1 h acc.1.w true
  let delta : W := fun k => L.m.jointFeature s.1 h k - L.m.jointFeature s.1 hHat k
  let slack := -dot L.m.dim delta acc.1.w + L.m.loss h hHat
  (Subgradient.solveSubgradient cfg lr n acc.1 delta, if 0 < slack then acc.2.1 + 1 else acc.2.1,
    acc.2.2 + max slack 0)

/-- Body of the loop over batches, `pystruct/learners/subgradient_latent_ssvm.py` lines 183-201: all
constraints of the batch count. -/
def parallelStep {X Y H : Type} (L : SLModel X Y H) (cfg : Subgradient.Config) (lr : ℚ) (n : ℕ)
    (acc : Subgradient.St × ℤ × ℚ) (b : List (X × Y)) : Subgradient.St × ℤ × ℚ :=
  let cs := b.map fun s => findConstraintLatent L s.1 s.2 acc.1.w
  (Subgradient.solveSubgradient cfg lr n acc.1 (fun k => (cs.map fun c => c.delta k).sum / b.length),
    acc.2.1 + (cs.filter fun c => 0 < c.slack).length, acc.2.2 + (cs.map Constraint.slack).sum)

/-- The parameter `n_jobs`: 1, -1 (with the number of processors), or another number.
`pystruct/learners/subgradient_latent_ssvm.py` lines 158 and 176-179. -/
inductive Jobs where
  | one
  | allCpus (n : ℕ)
  | other

/-- One pass over the data, `pystruct/learners/subgradient_latent_ssvm.py` lines 154-201. For
`n_jobs` other than 1 and -1 line 179 reads the attribute `j_jobs`, which does not exist. -/
def pass {X Y H : Type} (L : SLModel X Y H) (cfg : Subgradient.Config) (jobs : Jobs) (lr : ℚ)
    (data : List (X × Y)) (st : Subgradient.St) : Except PyErr (Subgradient.St × ℤ × ℚ) :=
  match jobs with
  | .one => .ok (data.foldl (onlineStep L cfg lr data.length) (st, 0, 0))
  | .other => .error .attributeError
  | .allCpus n =>
    if n = 0 then .error .zeroDivisionError
    else
      match Subgradient.evenSlices data.length (Subgradient.ceilDiv data.length n) with
      | .error err => .error err
      | .ok sl => .ok ((Subgradient.cut data sl).foldl (parallelStep L cfg lr data.length) (st, 0, 0))

/-- `score`, `pystruct/learners/subgradient_latent_ssvm.py` lines 246-272. Every model has `batch_loss` (`pystruct/models/base.py` lines 68-70), so the losses
are those of the true labels against the predicted completions. A zero denominator gives `nan` in numpy and
`0/0 = 0` here. -/
def score {X Y H : Type} (L : SLModel X Y H) (w : W) (samples : List (X × Y)) : ℚ :=
  1 - (samples.map fun s => L.lossLabel s.2 (L.m.inference s.1 w)).sum / (samples.map fun s => L.maxLoss s.2).sum

/-- `_objective`, `pystruct/learners/subgradient_latent_ssvm.py` lines 274-284. Without samples
`list(zip(*constraints))[2]` raises `IndexError`. -/
def objective {X Y H : Type} (L : SLModel X Y H) (C : ℚ) (w : W) (samples : List (X × Y)) : Except PyErr ℚ :=
  if samples.isEmpty then .error .indexError
  else .ok ((samples.map fun s => max (findConstraintLatent L s.1 s.2 w).slack 0).sum * C +
    (∑ k ∈ range L.m.dim, w k ^ 2) / 2)

/-- `_compute_training_loss`, `pystruct/learners/ssvm.py` lines 86-95, with the method `score` above. -/
def trainingLoss {X Y H : Type} (L : SLModel X Y H) (showLossEvery : ℕ) (w : W) (samples : List (X × Y))
    (it : ℕ) (curve : List ℚ) : List ℚ :=
  if showLossEvery ≠ 0 ∧ it % showLossEvery = 0 then curve ++ [1 - score L w samples] else curve

/-- The loop over iterations, `pystruct/learners/subgradient_latent_ssvm.py` lines 152-224. -/
def loop {X Y H : Type} (L : SLModel X Y H) (cfg : Subgradient.Config) (jobs : Jobs) (lr : ℚ)
    (samples : List (X × Y)) :
    ℕ → ℕ → Subgradient.St → Subgradient.Curves → Except PyErr (Subgradient.St × Subgradient.Curves)
  | 0, _, st, c => .ok (st, c)
  | n + 1, it, st, c =>
    match pass L cfg jobs lr samples st with
    | .error err => .error err
    | .ok (st, positive, obj) =>
      if positive = 0 ∧ cfg.breakOnNoConstraints = true then .ok (st, c)
      else loop L cfg jobs lr samples n (it + 1) st
        ⟨c.objective ++ [obj * cfg.C + (∑ k ∈ range L.m.dim, st.selfW k ^ 2) / 2],
          trainingLoss L cfg.showLossEvery st.selfW samples it c.loss⟩

/-- `fit`, `pystruct/learners/subgradient_latent_ssvm.py` lines 108-237. `w0` are the random initial
weights of a learner that was never fitted (line 137). A warm start of such a learner raises
`AttributeError`. -/
def fit {X Y H : Type} (L : SLModel X Y H) (jobs : Jobs) (w0 : W) (o : Subgradient.Obj) (samples : List (X × Y))
    (warmStart : Bool) : Except PyErr Subgradient.Obj :=
  match Subgradient.setup o samples.length warmStart with
  | .error err => .error err
  | .ok (lr, curve) =>
    match loop L o.cfg jobs lr samples o.cfg.maxIter 0 ⟨o.w.getD w0, fun _ => 0, o.w.getD w0, o.t⟩
      ⟨curve, o.curves.loss⟩ with
    | .error err => .error err
    | .ok (st, c) =>
      match objective L o.cfg.C st.selfW samples with
      | .error err => .error err
      | .ok obj => .ok ⟨o.cfg, some st.selfW, st.t, some lr, ⟨c.objective ++ [obj], c.loss⟩⟩

/-- `predict`, `pystruct/learners/subgradient_latent_ssvm.py` lines 239-241. -/
def predict {X Y H : Type} (L : SLModel X Y H) (w : W) (X : List X) : List Y :=
  (Learner.predict L.m w X).map L.labelFromLatent

end Verif.SubgradientLatent
