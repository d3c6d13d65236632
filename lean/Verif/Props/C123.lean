import Verif.Model.TrainingLog
import Verif.Props.C55
import Verif.Props.C122O

/-!
# C123: the calls of the logger, and resuming from a checkpoint

Which calls `logger(self, iteration)` a training makes, what `SaveLogger` leaves in its file, and that a training that
was broken off can be resumed from the file.
-/

namespace Verif.Props

open Finset Verif.Learner Verif.Logger Verif.TrainingLog

variable {X Y H σ γ : Type}

/-! ### what is left in the file -/

/-- A training with the plain file name: after the calls of iterations `0, …, k - 1`, `k ≥ 1`, the file holds the learner of
the last iteration whose number is divisible by the period. -/
theorem file_after (env : Env σ γ) (h : NoFailures env) (lg : SaveLogger) (hs : 1 ≤ lg.saveEvery) (hn : NoPercent lg.fileName)
    (files : Files σ γ) (L : ℕ → Logger.Learner σ γ) (k : ℕ) :
    ∃ files', run env lg files (trainingCalls L (k + 1)) = .ok files' ∧
      load lg files' = .ok (stored (L (k / lg.saveEvery * lg.saveEvery))) := by
  induction k with
  | zero =>
    have : trainingCalls L (0 + 1) = [(L 0, .num 0)] := rfl
    rw [this]
    obtain ⟨h1, -, h3, -, -⟩ := C55_schedule_plain env h lg hs hn files (L 0) (.num 0)
    refine ⟨(call env lg files (L 0) (.num 0)).files, ?_, ?_⟩
    · unfold run
      rw [h1]
      rfl
    · unfold load
      rw [h3 (dvd_zero _), Nat.zero_div, Nat.zero_mul]
  | succ k ih =>
    obtain ⟨f, hf, hl⟩ := ih
    have : trainingCalls L (k + 1 + 1) = trainingCalls L (k + 1) ++ [(L (k + 1), .num (k + 1))] := by
      unfold trainingCalls
      rw [List.range_succ (n := k + 1), List.map_append]
      rfl
    rw [this, run_append, hf]
    obtain ⟨h1, -, h3, h4, -⟩ := C55_schedule_plain env h lg hs hn f (L (k + 1)) (.num (k + 1))
    refine ⟨(call env lg f (L (k + 1)) (.num (k + 1))).files, ?_, ?_⟩
    · simp only
      unfold run
      rw [h1]
      rfl
    · by_cases hd : Due lg.saveEvery (.num (k + 1))
      · unfold load
        rw [h3 hd]
        have hd' : lg.saveEvery ∣ k + 1 := hd
        rw [Nat.div_mul_cancel hd']
      · rw [h4 hd, hl]
        have hd' : ¬ lg.saveEvery ∣ k + 1 := hd
        rw [Nat.succ_div_of_not_dvd hd']

/-- After the final call the file holds the learner of that call. -/
theorem file_after_final (env : Env σ γ) (h : NoFailures env) (lg : SaveLogger) (hs : 1 ≤ lg.saveEvery)
    (hn : NoPercent lg.fileName) (files : Files σ γ) (L : ℕ → Logger.Learner σ γ) (k : ℕ) (l : Logger.Learner σ γ) :
    ∃ files', run env lg files (trainingCalls L k ++ [(l, .final)]) = .ok files' ∧ load lg files' = .ok (stored l) := by
  have hpre : ∃ f, run env lg files (trainingCalls L k) = .ok f := by
    cases k with
    | zero => exact ⟨files, rfl⟩
    | succ k =>
      obtain ⟨f, hf, -⟩ := file_after env h lg hs hn files L k
      exact ⟨f, hf⟩
  obtain ⟨f, hf⟩ := hpre
  obtain ⟨h1, -, h3, -, -⟩ := C55_schedule_plain env h lg hs hn f l .final
  refine ⟨(call env lg f l .final).files, ?_, ?_⟩
  · rw [run_append, hf]
    simp only
    unfold run
    rw [h1]
    rfl
  · unfold load
    rw [h3 trivial]

/-! ### `OneSlackSSVM` -/

section OneSlack

open Verif.OneSlack Resume

/-- The states after the iterations, and the calls made. -/
theorem oneLoopCalls_spec (qp : QP.Solver) (eq : Y → Y → Except PyErr Bool) (cfg : OneSlack.Config)
    (samples : List (X × Y)) (gt : W) (intr : ℕ → Option Phase) :
    ∀ (fuel it : ℕ) (st : OneSlack.St X Y), ∃ (S : ℕ → OneSlack.St X Y) (n : ℕ), n ≤ fuel ∧ S 0 = st ∧
      (∀ i < n, OneSlack.iteration qp eq none cfg samples gt (it + i) (intr (it + i)) (S i) = .ok (S (i + 1), true)) ∧
      oneLoopCalls qp eq none cfg samples gt intr fuel it st =
        (List.range n).map (fun i => (oneSnapshot cfg (S (i + 1)), .num (it + i))) ∧
      (n = fuel ∧ OneSlack.loop qp eq none cfg samples gt intr fuel it st = .ok (S n) ∨
        n < fuel ∧ (∃ st', OneSlack.iteration qp eq none cfg samples gt (it + n) (intr (it + n)) (S n) = .ok (st', false) ∧
            OneSlack.loop qp eq none cfg samples gt intr fuel it st = .ok st') ∨
        n < fuel ∧ ∃ e, OneSlack.loop qp eq none cfg samples gt intr fuel it st = .error e)
  | 0, it, st => ⟨fun _ => st, 0, le_refl _, rfl, fun i hi => absurd hi (by omega), rfl, .inl ⟨rfl, rfl⟩⟩
  | fuel + 1, it, st => by
    unfold oneLoopCalls OneSlack.loop
    cases hi : OneSlack.iteration qp eq none cfg samples gt it (intr it) st with
    | error e =>
      exact ⟨fun _ => st, 0, by omega, rfl, fun i hi => absurd hi (by omega), rfl, .inr (.inr ⟨by omega, e, rfl⟩)⟩
    | ok r =>
      obtain ⟨st', go⟩ := r
      cases go with
      | false =>
        exact ⟨fun _ => st, 0, by omega, rfl, fun i hi => absurd hi (by omega), rfl, .inr (.inl ⟨by omega, st', hi, rfl⟩)⟩
      | true =>
        have hsw : st'.switched = st.switched := by
          rcases OneSlack.iteration_ok hi with ⟨-, h0, -⟩ | ⟨la, inf, h0, -⟩ | ⟨-, f, cd, cache, -, hadd⟩
          · cases h0
          · cases h0
          · exact (OneSlack.addConstraint_ok hadd).2.1
        obtain ⟨S, n, hn, h0, hstep, hcalls, hend⟩ := oneLoopCalls_spec qp eq cfg samples gt intr fuel (it + 1) st'
        refine ⟨fun i => match i with | 0 => st | i + 1 => S i, n + 1, by omega, rfl, ?_, ?_, ?_⟩
        · intro i hi'
          cases i with
          | zero => simp only [Nat.add_zero, h0]; exact hi
          | succ i =>
            have := hstep i (by omega)
            rw [show it + 1 + i = it + (i + 1) from by omega] at this
            exact this
        · simp only [hsw, if_true, hcalls]
          rw [List.range_succ_eq_map, List.map_cons, List.map_map]
          simp only [Nat.add_zero, h0, List.cons.injEq, true_and]
          apply List.map_congr_left
          intro i _
          simp only [Function.comp, Nat.succ_eq_add_one]
          rw [show it + 1 + i = it + (i + 1) from by omega]
        · simp only
          rcases hend with ⟨rfl, h⟩ | ⟨hlt, s, h1, h2⟩ | ⟨hlt, h⟩
          · exact .inl ⟨rfl, h⟩
          · refine .inr (.inl ⟨by omega, s, ?_, h2⟩)
            rw [show it + 1 + n = it + (n + 1) from by omega] at h1
            exact h1
          · exact .inr (.inr ⟨by omega, h⟩)

/-- **C123**, `OneSlackSSVM` without `switch_to`: a training that returns calls the logger with the iterations
`0, …, n - 1`, `n ≤ max_iter`, in this order, and once with `'final'`. -/
theorem C123_one_slack_partial (m : SModel X Y) (qp : QP.Solver) (eq : Y → Y → Except PyErr Bool) (intr : ℕ → Option Phase)
    (o o' : OneSlack.Obj Y) (samples : List (X × Y)) (warm : Warm)
    (h : OneSlack.fit m qp eq none intr o samples warm = .ok o') :
    ∃ L n, n ≤ o.cfg.maxIter ∧
      oneCalls m qp eq none intr o samples warm = trainingCalls L n ++ [(oneFinal o', .final)] := by
  obtain ⟨st0, hst⟩ : ∃ st0, OneSlack.start m o warm = .ok st0 := by
    unfold OneSlack.fit at h
    cases hst : OneSlack.start m o warm with
    | error e => rw [hst] at h; cases h
    | ok st0 => exact ⟨st0, rfl⟩
  obtain ⟨S, n, hn, -, -, hcalls, -⟩ := oneLoopCalls_spec qp eq o.cfg samples (jointFeatureGt m samples) intr o.cfg.maxIter 0 st0
  refine ⟨fun i => oneSnapshot o.cfg (S (i + 1)), n, hn, ?_⟩
  unfold oneCalls
  rw [hst, h]
  simp only [hcalls, Nat.zero_add]
  rfl

/-- **C123**, exceptions: a training that raises makes no final call. -/
theorem C123_one_slack_raises (m : SModel X Y) (qp : QP.Solver) (eq : Y → Y → Except PyErr Bool) (intr : ℕ → Option Phase)
    (o : OneSlack.Obj Y) (samples : List (X × Y)) (warm : Warm) (e : PyErr)
    (h : OneSlack.fit m qp eq none intr o samples warm = .error e) :
    ∃ L n, n ≤ o.cfg.maxIter ∧ oneCalls m qp eq none intr o samples warm = trainingCalls L n := by
  unfold oneCalls
  cases hst : OneSlack.start m o warm with
  | error e => exact ⟨fun _ => ⟨o, none⟩, 0, Nat.zero_le _, rfl⟩
  | ok st0 =>
    obtain ⟨S, n, hn, -, -, hcalls, -⟩ := oneLoopCalls_spec qp eq o.cfg samples (jointFeatureGt m samples) intr o.cfg.maxIter 0 st0
    refine ⟨fun i => oneSnapshot o.cfg (S (i + 1)), n, hn, ?_⟩
    rw [h]
    simp only [hcalls, Nat.zero_add, List.append_nil]
    rfl

/-- Iterations that all go on can be taken off the front of the loop. -/
theorem loop_steps (qp : QP.Solver) (eq : Y → Y → Except PyErr Bool) (cfg : OneSlack.Config)
    (samples : List (X × Y)) (gt : W) (intr : ℕ → Option Phase) (S : ℕ → OneSlack.St X Y) (b : ℕ) :
    ∀ (a it : ℕ), (∀ i < a, OneSlack.iteration qp eq none cfg samples gt (it + i) (intr (it + i)) (S i) = .ok (S (i + 1), true)) →
      OneSlack.loop qp eq none cfg samples gt intr (a + b) it (S 0) = OneSlack.loop qp eq none cfg samples gt intr b (it + a) (S a)
  | 0, it, _ => by rw [Nat.zero_add, Nat.add_zero]
  | a + 1, it, h => by
    have e1 : a + 1 + b = a + (b + 1) := by omega
    rw [e1, loop_steps qp eq cfg samples gt intr S (b + 1) a it (fun i hi => h i (by omega))]
    conv_lhs => rw [OneSlack.loop]
    rw [h a (by omega)]
    rfl

/-- Along iterations that go on, training stays resumable. -/
theorem steps_continuable (qp : QP.Solver) (eq : Y → Y → Except PyErr Bool) (cfg : OneSlack.Config) (hc : cfg.inferenceCache = 0)
    (samples : List (X × Y)) (gt : W) {m : SModel X Y} (S : ℕ → OneSlack.St X Y) (h0 : Continuable cfg m (S 0)) :
    ∀ a, (∀ i < a, OneSlack.iteration qp eq none cfg samples gt i none (S i) = .ok (S (i + 1), true)) →
      Continuable cfg m (S a) ∧ (0 < a → (S a).shared = true)
  | 0, _ => ⟨h0, fun h => by omega⟩
  | a + 1, h => by
    obtain ⟨h1, -⟩ := steps_continuable qp eq cfg hc samples gt S h0 a (fun i hi => h i (by omega))
    refine ⟨(iteration_resumable hc h1 (h a (by omega))).1, fun _ => ?_⟩
    rcases OneSlack.iteration_ok (h a (by omega)) with ⟨-, h0, -⟩ | ⟨la, inf, h0, -⟩ | ⟨-, f, cd, cache, -, hadd⟩
    · cases h0
    · cases h0
    · obtain ⟨-, -, -, -, -, e6⟩ := OneSlack.addConstraint_ok hadd
      rcases e6 with ⟨h0, -⟩ | ⟨-, sol, -, -, -, -, ⟨h0, -⟩ | ⟨-, -, -, e8, -⟩⟩
      · cases h0
      · cases h0
      · exact e8

/-- **C123**, resuming from a checkpoint of `OneSlackSSVM`. The training in one go returns `o'` and calls the logger with the
learner `l` in iteration `i` and once more in iteration `i + 1`. Then the learner that is loaded from a checkpoint of `l`, when
it is trained for the remaining iterations with `warm_start=True`, ends exactly as `o'`: weights, constraints, multipliers, all
curves. No inference cache, no `switch_to`. -/
theorem C123_one_slack_resume_partial (m : SModel X Y) (qp : QP.Solver) (eq : Y → Y → Except PyErr Bool) (o o' : OneSlack.Obj Y)
    (samples : List (X × Y)) (warm : Warm) (hc : o.cfg.inferenceCache = 0)
    (hcache : ∀ at', o.attrs = some at' → at'.cache = none)
    (h : OneSlack.fit m qp eq none (fun _ => none) o samples warm = .ok o')
    (i b : ℕ) (hb : o.cfg.maxIter = i + 1 + b) (hs : o.cfg.showLossEvery = 0 ∨ o.cfg.showLossEvery ∣ i + 1)
    (l l' : Logger.Learner (OneSlack.Obj Y) (List (List (Cached Y))))
    (hl : (l, Iter.num i) ∈ oneCalls m qp eq none (fun _ => none) o samples warm)
    (hl' : (l', Iter.num (i + 1)) ∈ oneCalls m qp eq none (fun _ => none) o samples warm) :
    OneSlack.fit m qp eq none (fun _ => none) (oneIters (oneLoaded (stored l)) b) samples .yes = .ok (oneIters o' b) := by
  obtain ⟨st0, st, primal, obj, hst, hloop, hp, ho, rfl⟩ := fit_parts h
  obtain ⟨hI0, -⟩ := start_resumable hcache hst
  obtain ⟨S, n, hn, h0, hstep, hcalls, -⟩ :=
    oneLoopCalls_spec qp eq o.cfg samples (jointFeatureGt m samples) (fun _ => none) o.cfg.maxIter 0 st0
  have hmem : ∀ {l j}, (l, Iter.num j) ∈ oneCalls m qp eq none (fun _ => none) o samples warm →
      j < n ∧ l = oneSnapshot o.cfg (S (j + 1)) := by
    intro l j hj
    unfold oneCalls at hj
    rw [hst, h] at hj
    simp only [hcalls, Nat.zero_add, List.mem_append, List.mem_map, List.mem_range, Prod.mk.injEq, Iter.num.injEq,
      List.mem_singleton, reduceCtorEq, and_false, or_false] at hj
    obtain ⟨k, hk, rfl, rfl⟩ := hj
    exact ⟨hk, rfl⟩
  obtain ⟨-, rfl⟩ := hmem hl
  obtain ⟨hi, -⟩ := hmem hl'
  simp only [Nat.zero_add] at hstep
  rw [← h0] at hI0 hloop
  generalize hgt : jointFeatureGt m samples = gt at hloop hstep
  obtain ⟨hI, hsh⟩ := steps_continuable qp eq o.cfg hc samples gt S hI0 (i + 1) (fun j hj => hstep j (by omega))
  have hsh := hsh (by omega)
  have hsplit := loop_steps qp eq o.cfg samples gt (fun _ => none) S b (i + 1) 0
    (fun j hj => by rw [Nat.zero_add]; exact hstep j (by omega))
  rw [hb, hsplit, Nat.zero_add] at hloop
  rw [show i + 1 = i + 1 + 0 from rfl, loop_it hs, Nat.add_zero] at hloop
  have hgo : OneSlack.iteration qp eq none o.cfg samples gt 0 none (S (i + 1)) = .ok (S (i + 1 + 1), true) := by
    have := hstep (i + 1) hi
    rw [show i + 1 = i + 1 + 0 from rfl, iteration_it hs, Nat.add_zero] at this
    exact this
  have hloop' : OneSlack.loop qp eq none o.cfg samples gt (fun _ => none) b 0 (forget o.cfg (S (i + 1))) = .ok st := by
    cases b with
    | zero =>
      exfalso
      omega
    | succ b =>
      unfold OneSlack.loop at hloop ⊢
      rw [hgo] at hloop
      rw [iteration_forget hc hI.cache hI.slack hI.tol hgo]
      exact hloop
  have hstart : OneSlack.start m (oneIters (oneLoaded (stored (oneSnapshot o.cfg (S (i + 1))))) b) .yes =
      .ok (forget o.cfg (S (i + 1))) := by
    have hm := hI.model
    have hw := hI.switched
    have hca := hI.cache
    generalize S (i + 1) = s at hm hw hca hsh ⊢
    obtain ⟨s1, s2, s3, s4, s5, s6, s7, s8, s9, s10, s11, s12, s13, s14⟩ := s
    simp only at hm hw hca hsh
    subst hm hw hca hsh
    rfl
  have hshare : st.shared = true := by
    have hIs := (oneslack_split hc samples gt (m := m) 0 b 0 (S (i + 1)) st hI hloop).1
    exact hIs.shared (by rw [ho]; simp)
  unfold OneSlack.fit
  rw [hstart]
  have hcfg : (oneIters (oneLoaded (stored (oneSnapshot o.cfg (S (i + 1))))) b).cfg = { o.cfg with maxIter := b } := rfl
  simp only [hcfg]
  rw [loop_cfg, hgt, hloop']
  simp only [hp, ho, oneIters, hshare, if_true]

/-- **C123**, a training that is killed. `SaveLogger` with a plain file name and a working disk: if the process is killed after
the call of iteration `k`, and the training in one go would have made the call of iteration `k + 1`, then the learner loaded
from the file, trained for the remaining iterations with `warm_start=True`, ends exactly as the training in one go. -/
theorem C123_one_slack_crash_partial (env : Env (OneSlack.Obj Y) (List (List (Cached Y)))) (henv : NoFailures env) (lg : SaveLogger)
    (he : 1 ≤ lg.saveEvery) (hname : NoPercent lg.fileName) (files : Files (OneSlack.Obj Y) (List (List (Cached Y))))
    (m : SModel X Y) (qp : QP.Solver) (eq : Y → Y → Except PyErr Bool) (o o' : OneSlack.Obj Y)
    (samples : List (X × Y)) (warm : Warm) (hc : o.cfg.inferenceCache = 0)
    (hcache : ∀ at', o.attrs = some at' → at'.cache = none) (hs : o.cfg.showLossEvery = 0)
    (h : OneSlack.fit m qp eq none (fun _ => none) o samples warm = .ok o') (k : ℕ)
    (l' : Logger.Learner (OneSlack.Obj Y) (List (List (Cached Y))))
    (hk : (l', Iter.num (k + 1)) ∈ oneCalls m qp eq none (fun _ => none) o samples warm) :
    ∃ files' l, run env lg files ((oneCalls m qp eq none (fun _ => none) o samples warm).take (k + 1)) = .ok files' ∧
      load lg files' = .ok l ∧ ∃ b, b ≤ o.cfg.maxIter ∧
        OneSlack.fit m qp eq none (fun _ => none) (oneIters (oneLoaded l) b) samples .yes = .ok (oneIters o' b) := by
  obtain ⟨L, n, hn, hcalls⟩ := C123_one_slack_partial m qp eq (fun _ => none) o o' samples warm h
  have hkn : k + 1 < n := by
    rw [hcalls] at hk
    simp only [trainingCalls, List.mem_append, List.mem_map, List.mem_range, Prod.mk.injEq, Iter.num.injEq,
      List.mem_singleton, reduceCtorEq, and_false, or_false] at hk
    obtain ⟨j, hj, -, rfl⟩ := hk
    exact hj
  have hmem : ∀ j < n, (L j, Iter.num j) ∈ oneCalls m qp eq none (fun _ => none) o samples warm := by
    intro j hj
    rw [hcalls, List.mem_append]
    exact .inl (List.mem_map.mpr ⟨j, List.mem_range.mpr hj, rfl⟩)
  have htake : (oneCalls m qp eq none (fun _ => none) o samples warm).take (k + 1) = trainingCalls L (k + 1) := by
    rw [hcalls, List.take_append_of_le_length (by simp only [trainingCalls, List.length_map, List.length_range]; omega)]
    unfold trainingCalls
    rw [← List.map_take, List.take_range, Nat.min_eq_left (by omega)]
  obtain ⟨files', hf, hload⟩ := file_after env henv lg he hname files L k
  refine ⟨files', _, by rw [htake]; exact hf, hload, o.cfg.maxIter - (k / lg.saveEvery * lg.saveEvery + 1), by omega, ?_⟩
  have hle : k / lg.saveEvery * lg.saveEvery ≤ k := Nat.div_mul_le_self k lg.saveEvery
  exact C123_one_slack_resume_partial m qp eq o o' samples warm hc hcache h _ _ (by omega) (.inl hs) _ _
    (hmem _ (by omega)) (hmem _ (by omega))

/-- **C123**, the file after training: it holds the trained learner, without the contents of the inference cache. -/
theorem C123_one_slack_file (env : Env (OneSlack.Obj Y) (List (List (Cached Y)))) (henv : NoFailures env) (lg : SaveLogger)
    (he : 1 ≤ lg.saveEvery) (hname : NoPercent lg.fileName) (files : Files (OneSlack.Obj Y) (List (List (Cached Y))))
    (m : SModel X Y) (qp : QP.Solver) (eq : Y → Y → Except PyErr Bool) (intr : ℕ → Option Phase) (o o' : OneSlack.Obj Y)
    (samples : List (X × Y)) (warm : Warm) (h : OneSlack.fit m qp eq none intr o samples warm = .ok o') :
    ∃ files' l, run env lg files (oneCalls m qp eq none intr o samples warm) = .ok files' ∧ load lg files' = .ok l ∧
      oneLoaded l = { o' with attrs := o'.attrs.map fun a => { a with cache := none } } := by
  obtain ⟨L, n, -, hcalls⟩ := C123_one_slack_partial m qp eq intr o o' samples warm h
  obtain ⟨files', hf, hload⟩ := file_after_final env henv lg he hname files L n (oneFinal o')
  refine ⟨files', _, by rw [hcalls]; exact hf, hload, ?_⟩
  obtain ⟨cfg, attrs, loss⟩ := o'
  cases attrs <;> rfl

end OneSlack

/-! ### `SubgradientSSVM` -/

section Subgradient

open Verif.Subgradient Resume

/-- The learner during training. -/
def subSnapshot (cfg : Subgradient.Config) (lr : ℚ) (r : List (X × Y) × Subgradient.St × Curves) : Logger.Learner Subgradient.Obj Empty :=
  ⟨⟨cfg, some r.2.1.selfW, r.2.1.t, some lr, r.2.2⟩, none⟩

/-- The states after the iterations, and the calls made: `R i` is where the first `i` iterations lead. -/
theorem subLoopCalls_spec (m : SModel X Y) (cfg : Subgradient.Config) (lr : ℚ) (order : ℕ → List (X × Y)) :
    ∀ (fuel it : ℕ) (data : List (X × Y)) (st : Subgradient.St) (c : Curves),
      ∃ (R : ℕ → List (X × Y) × Subgradient.St × Curves) (n : ℕ), n ≤ fuel ∧ R 0 = (data, st, c) ∧
      (∀ i ≤ n, Subgradient.loop m cfg lr order i it data st c = .ok (R i) ∧
        (R i).2.2.objective.length = c.objective.length + i) ∧
      subLoopCalls m cfg lr order fuel it data st c =
        (List.range n).map (fun i => (subSnapshot cfg lr (R (i + 1)), .num (it + i)))
  | 0, it, data, st, c => ⟨fun _ => (data, st, c), 0, le_refl _, rfl, fun i hi => by
      obtain rfl : i = 0 := by omega
      exact ⟨rfl, rfl⟩, rfl⟩
  | fuel + 1, it, data, st, c => by
    have none : ∃ (R : ℕ → List (X × Y) × Subgradient.St × Curves) (n : ℕ), n ≤ fuel + 1 ∧ R 0 = (data, st, c) ∧
      (∀ i ≤ n, Subgradient.loop m cfg lr order i it data st c = .ok (R i) ∧
        (R i).2.2.objective.length = c.objective.length + i) ∧
      ([] : List (Call Subgradient.Obj Empty)) = (List.range n).map (fun i => (subSnapshot cfg lr (R (i + 1)), .num (it + i))) :=
      ⟨fun _ => (data, st, c), 0, by omega, rfl, fun i hi => by
        obtain rfl : i = 0 := by omega
        exact ⟨rfl, rfl⟩, rfl⟩
    unfold subLoopCalls
    simp only
    cases hl : learn m cfg lr (if cfg.shuffle = true then order it else data) st with
    | error e => exact none
    | ok sp =>
      obtain ⟨s, p⟩ := sp
      simp only
      by_cases hp : p = 0 ∧ cfg.breakOnNoConstraints = true
      · rw [if_pos hp]; exact none
      · rw [if_neg hp]
        cases ho : objectivePrimal m s.selfW (if cfg.shuffle = true then order it else data) cfg.C true with
        | error e => exact none
        | ok obj =>
          simp only
          generalize hd : (if cfg.shuffle = true then order it else data) = d at hl ho
          generalize hc : (⟨c.objective ++ [obj], computeTrainingLoss m cfg.showLossEvery s.selfW d it c.loss⟩ : Curves) = c'
          obtain ⟨R, n, hn, h0, hstep, hcalls⟩ := subLoopCalls_spec m cfg lr order fuel (it + 1) d s c'
          refine ⟨fun i => match i with | 0 => (data, st, c) | i + 1 => R i, n + 1, by omega, rfl, ?_, ?_⟩
          · intro i hi
            cases i with
            | zero => exact ⟨rfl, rfl⟩
            | succ i =>
              obtain ⟨h1, h2⟩ := hstep i (by omega)
              constructor
              · rw [Subgradient.loop]
                simp only [hd, hl]
                rw [if_neg hp, ho]
                simp only
                rw [hc]
                exact h1
              · simp only [h2, ← hc, List.length_append, List.length_singleton]
                omega
          · rw [hcalls, List.range_succ_eq_map, List.map_cons, List.map_map]
            simp only [Nat.add_zero, h0, List.cons.injEq]
            refine ⟨rfl, ?_⟩
            apply List.map_congr_left
            intro i _
            simp only [Function.comp, Nat.succ_eq_add_one]
            rw [show it + 1 + i = it + (i + 1) from by omega]

/-- **C123**, `SubgradientSSVM`: a training that returns calls the logger with the iterations `0, …, n - 1`, `n ≤ max_iter`, in
this order, and once with `'final'`. The call of iteration `i` sees an objective curve with `i + 1` new entries; in the
iteration in which `break_on_no_constraints` ends the loop there is no call. -/
theorem C123_subgradient (m : SModel X Y) (order : ℕ → List (X × Y)) (o o' : Subgradient.Obj) (samples : List (X × Y)) (warm : Bool)
    (h : Subgradient.fit m order o samples warm = .ok o') :
    ∃ L n, n ≤ o.cfg.maxIter ∧ subCalls m order o samples warm = trainingCalls L n ++ [(⟨o', none⟩, .final)] ∧
      ∀ i < n, (L i).state.curves.objective.length = (if warm then o.curves.objective.length else 0) + (i + 1) := by
  obtain ⟨lr, curve, hset⟩ : ∃ lr curve, setup o samples.length warm = .ok (lr, curve) := by
    unfold Subgradient.fit at h
    simp only at h
    cases hst : setup o samples.length warm with
    | error e => rw [hst] at h; cases h
    | ok r => exact ⟨r.1, r.2, rfl⟩
  have hcurve : curve.length = if warm then o.curves.objective.length else 0 := by
    unfold setup at hset
    cases warm with
    | false =>
      simp only [Bool.false_eq_true, if_false, Except.ok.injEq, Prod.mk.injEq] at hset
      rw [← hset.2]; rfl
    | true =>
      simp only [if_true] at hset ⊢
      split at hset
      · cases hset
      · simp only [Except.ok.injEq, Prod.mk.injEq] at hset
        rw [← hset.2]
  obtain ⟨R, n, hn, -, hR, hcalls⟩ := subLoopCalls_spec m o.cfg lr order o.cfg.maxIter 0 samples
    ⟨o.w.getD (fun _ => 0), fun _ => 0, o.w.getD (fun _ => 0), o.t⟩ ⟨curve, o.curves.loss⟩
  refine ⟨fun i => subSnapshot o.cfg lr (R (i + 1)), n, hn, ?_, fun i hi => ?_⟩
  · unfold subCalls
    rw [hset]
    simp only [hcalls, h, Nat.zero_add]
    rfl
  · rw [← hcurve]
    exact (hR (i + 1) (by omega)).2

/-- **C123**, resuming from a checkpoint of `SubgradientSSVM`, without momentum and averaging: the learner that the logger saw in
iteration `i`, trained for the remaining iterations with `warm_start=True` and the same shuffles, ends exactly as the training in
one go — also if that raises. -/
theorem C123_subgradient_resume_partial (m : SModel X Y) (order : ℕ → List (X × Y)) (o : Subgradient.Obj)
    (samples : List (X × Y)) (warm : Bool) (hm : o.cfg.momentum = 0) (ha : o.cfg.averaging = .none)
    (i b : ℕ) (hi : o.cfg.maxIter = i + 1 + b) (hs : o.cfg.showLossEvery = 0 ∨ o.cfg.showLossEvery ∣ i + 1)
    (hb : o.cfg.shuffle = false ∨ 0 < b) (l : Logger.Learner Subgradient.Obj Empty)
    (hl : (l, Iter.num i) ∈ subCalls m order o samples warm) :
    Subgradient.fit m (fun j => order (i + 1 + j)) (withIters (stored l).state b) samples true =
      (Subgradient.fit m order o samples warm).map fun o' => withIters o' b := by
  unfold subCalls at hl
  unfold Subgradient.fit
  cases hset : setup o samples.length warm with
  | error e => rw [hset] at hl; cases hl
  | ok r =>
    obtain ⟨lr, curve⟩ := r
    rw [hset] at hl
    simp only at hl ⊢
    generalize hst0 : (⟨o.w.getD (fun _ => 0), fun _ => 0, o.w.getD (fun _ => 0), o.t⟩ : Subgradient.St) = st0 at hl ⊢
    have hself0 : st0.selfW = st0.w := by rw [← hst0]
    generalize (⟨curve, o.curves.loss⟩ : Curves) = c0 at hl ⊢
    obtain ⟨R, n, hn, -, hR, hcalls⟩ := subLoopCalls_spec m o.cfg lr order o.cfg.maxIter 0 samples st0 c0
    have hl2 : i < n ∧ l = subSnapshot o.cfg lr (R (i + 1)) := by
      rw [hcalls, List.mem_append] at hl
      rcases hl with hl | hl
      · simp only [Nat.zero_add, List.mem_map, List.mem_range, Prod.mk.injEq, Iter.num.injEq] at hl
        obtain ⟨k, hk, h1, rfl⟩ := hl
        exact ⟨hk, h1.symm⟩
      · split at hl
        · cases hl
        · simp only [List.mem_singleton, Prod.mk.injEq, reduceCtorEq, and_false] at hl
    obtain ⟨hin, rfl⟩ := hl2
    obtain ⟨h1, h2⟩ := hR (i + 1) (by omega)
    generalize R (i + 1) = r1 at h1 h2
    obtain ⟨d1, st1, c1⟩ := r1
    simp only at h2
    have hself : st1.selfW = st1.w := loop_selfW m o.cfg hm ha lr order _ _ _ _ _ hself0 _ _ _ h1
    have hsplit := loop_split m o.cfg o.cfg rfl lr order b (i + 1) 0 samples _ _ _ _ _ h1 h2
    have hdata : d1 = samples ∨ o.cfg.shuffle = true ∧ 0 < b := by
      cases hsh : o.cfg.shuffle with
      | false => exact .inl (loop_data m o.cfg lr order hsh _ _ samples _ _ _ _ _ h1)
      | true =>
        rcases hb with hb | hb
        · rw [hb] at hsh; cases hsh
        · exact .inr ⟨rfl, hb⟩
    have hends := loop_alike m o.cfg { o.cfg with maxIter := b } rfl hm ha lr order (i + 1)
      hs c1.objective c1.objective b 0 d1 samples st1 ⟨st1.selfW, fun _ => 0, st1.selfW, st1.t⟩ [] c1.loss
      ⟨hself.symm, rfl, hself, rfl⟩ hdata
    rw [hi, hsplit, Nat.zero_add]
    simp only [Nat.add_zero, List.append_nil] at hends
    have hc1 : (⟨c1.objective, c1.loss⟩ : Curves) = c1 := rfl
    rw [hc1] at hends
    have hset' : setup (withIters (stored (subSnapshot o.cfg lr (d1, st1, c1))).state b) samples.length true =
        .ok (lr, c1.objective) := rfl
    rw [hset']
    have hw' : (withIters (stored (subSnapshot o.cfg lr (d1, st1, c1))).state b) =
      ⟨{ o.cfg with maxIter := b }, some st1.selfW, st1.t, some lr, c1⟩ := rfl
    rw [hw']
    simp only [Option.getD_some]
    rw [hc1]
    revert hends
    generalize Subgradient.loop m o.cfg lr order b (i + 1) d1 st1 c1 = r
    generalize Subgradient.loop m { o.cfg with maxIter := b } lr (fun j => order (i + 1 + j)) b 0 samples
      ⟨st1.selfW, fun _ => 0, st1.selfW, st1.t⟩ c1 = r'
    intro hends
    cases hends with
    | error e => rfl
    | ok d st st' new loss hal =>
      have hst : st'.selfW = st.selfW := by rw [hal.2.2.2, hal.2.2.1, hal.1]
      simp only [hst]
      cases objectivePrimal m st.selfW d o.cfg.C true with
      | error e => rfl
      | ok fin =>
        simp only [Except.map, withIters, hal.2.1]

end Subgradient

end Verif.Props
