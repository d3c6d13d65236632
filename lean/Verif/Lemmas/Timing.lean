import Verif.Model.Timing
import Verif.Spec.Timing
import Verif.Lemmas.OneSlack
import Verif.Lemmas.NSlackLoop
import Verif.Props.C116

/-!
# Counting timestamps and curve entries
-/

namespace Verif.Lemmas

open Verif.Common Verif.Learner Verif.Spec Verif.Timing Verif.Props

variable {X Y H : Type}

theorem push_iter (clock : ℕ → ℚ) (t0 : ℚ) (r : List ℚ) (k n : ℕ) :
    (push clock)^[n] (t0 :: r, k) = (t0 :: r ++ (List.range n).map (fun i => clock (k + i) - t0), k + n) := by
  induction n with
  | zero => simp
  | succ n ih =>
    rw [Function.iterate_succ_apply', ih]
    unfold push
    simp only [List.cons_append, List.range_succ, List.map_append, List.map_cons, List.map_nil, List.append_assoc]
    rfl

/-- the timestamps after `n` iterations with a timestamp and the final one. -/
theorem push_times (clock : ℕ → ℚ) (t0 : ℚ) (r : List ℚ) (n : ℕ) :
    (push clock ((push clock)^[n] (t0 :: r, 1))).1 = t0 :: r ++ totalTimes clock (clock 0 - t0) (n + 1) := by
  have e : push clock ((push clock)^[n] (t0 :: r, 1)) = (push clock)^[n + 1] (t0 :: r, 1) :=
    (Function.iterate_succ_apply' _ _ _).symm
  rw [e, push_iter]
  simp only [totalTimes]
  congr 1
  refine List.map_congr_left fun i _ => ?_
  rw [Nat.add_comm 1 i]
  ring

/-! ### One-slack learner -/

/-- an iteration adds to the curves exactly when it finds a constraint. -/
theorem one_iteration_counts {qp : QP.Solver} {eq : Y → Y → Except PyErr Bool}
    {alt : Option ((X → Y → W → Bool → Y) × (X → W → Y))} {cfg : OneSlack.Config} {samples : List (X × Y)}
    {gt : W} {it : ℕ} {intr : Option OneSlack.Phase} {st st' : OneSlack.St X Y} {b : Bool}
    (h : OneSlack.iteration qp eq alt cfg samples gt it intr st = .ok (st', b)) :
    st'.primalCurve.length = st.primalCurve.length + (if oneFinds cfg samples gt intr st then 1 else 0) ∧
    st'.cachedFlags.length = st.cachedFlags.length + (if oneFinds cfg samples gt intr st then 1 else 0) ∧
    (intr = none → st'.objectiveCurve.length = st.objectiveCurve.length +
      (if oneFinds cfg samples gt intr st then 1 else 0)) ∧
    (oneFinds cfg samples gt intr st = true → st'.lossCurve.length = st.lossCurve.length +
      (if cfg.showLossEvery ≠ 0 ∧ cfg.showLossEvery ∣ it then 1 else 0)) ∧
    (oneFinds cfg samples gt intr st = false → st'.lossCurve = st.lossCurve ∧ st'.objectiveCurve = st.objectiveCurve ∧
      st'.objective = st.objective ∧ (alt = none → b = false)) := by
  have hloss : ∀ (m : SModel X Y) (w : W) (c : List ℚ),
      (computeTrainingLoss m cfg.showLossEvery w samples it c).length = c.length +
        (if cfg.showLossEvery ≠ 0 ∧ cfg.showLossEvery ∣ it then 1 else 0) := by
    intro m w c
    unfold computeTrainingLoss
    simp only [Nat.dvd_iff_mod_eq_zero]
    split_ifs
    · simp
    · rfl
  have key : ∀ (st1 : OneSlack.St X Y) (f : OneSlack.Found Y) (c : Bool),
      st1.primalCurve = st.primalCurve → st1.cachedFlags = st.cachedFlags → st1.objectiveCurve = st.objectiveCurve →
      st1.lossCurve = st.lossCurve →
      OneSlack.addConstraint qp cfg samples it intr st1 f c = .ok (st', b) → oneFinds cfg samples gt intr st = true →
      st'.primalCurve.length = st.primalCurve.length + (if oneFinds cfg samples gt intr st then 1 else 0) ∧
      st'.cachedFlags.length = st.cachedFlags.length + (if oneFinds cfg samples gt intr st then 1 else 0) ∧
      (intr = none → st'.objectiveCurve.length = st.objectiveCurve.length +
        (if oneFinds cfg samples gt intr st then 1 else 0)) ∧
      (oneFinds cfg samples gt intr st = true → st'.lossCurve.length = st.lossCurve.length +
        (if cfg.showLossEvery ≠ 0 ∧ cfg.showLossEvery ∣ it then 1 else 0)) ∧
      (oneFinds cfg samples gt intr st = false → st'.lossCurve = st.lossCurve ∧
        st'.objectiveCurve = st.objectiveCurve ∧ st'.objective = st.objective ∧ (alt = none → b = false)) := by
    intro st1 f c h1 h2 h3 h4 hadd hf
    have hl := addConstraint_loss hadd
    obtain ⟨-, -, -, a4, a5, a6⟩ := OneSlack.addConstraint_ok hadd
    rw [if_pos hf]
    refine ⟨by rw [a4, h1]; simp, by rw [a5, h2]; simp, ?_, fun _ => by rw [hl, hloss, h4],
      fun h => (by rw [hf] at h; cases h)⟩
    intro hi
    subst hi
    rcases a6 with ⟨h, -⟩ | ⟨-, sol, -, -, -, -, h | ⟨-, -, h, -⟩⟩
    · cases h
    · exact absurd h.1 (by decide)
    · rw [h, h3]; simp
  unfold OneSlack.iteration at h
  by_cases hi : intr = some .search
  · rw [if_pos hi] at h
    simp only [Except.ok.injEq, Prod.mk.injEq] at h
    obtain ⟨rfl, rfl⟩ := h
    have hf : oneFinds cfg samples gt intr st = false := by unfold oneFinds; rw [if_pos hi]
    rw [hf]
    simp
  · rw [if_neg hi] at h
    cases hc : OneSlack.fromCache cfg st gt samples.length with
    | error e => rw [hc] at h; cases h
    | ok r =>
      cases r with
      | some f =>
        rw [hc] at h
        simp only at h
        exact key st f true rfl rfl rfl rfl h (by unfold oneFinds; rw [if_neg hi, hc])
      | none =>
        rw [hc] at h
        simp only at h
        cases hn : OneSlack.findNew cfg st gt samples with
        | error e => rw [hn] at h; cases h
        | ok r =>
          cases r with
          | some f =>
            rw [hn] at h
            simp only at h
            cases hu : OneSlack.updateCache st.model eq cfg st.cache samples f.yhat with
            | error e => rw [hu] at h; cases h
            | ok cache =>
              rw [hu] at h
              simp only at h
              exact key { st with cache := cache } f false rfl rfl rfl rfl h (by unfold oneFinds; rw [if_neg hi, hc]; simp only; rw [hn])
          | none =>
            rw [hn] at h
            simp only at h
            have hf : oneFinds cfg samples gt intr st = false := by
              unfold oneFinds; rw [if_neg hi, hc]; simp only; rw [hn]
            rw [hf]
            cases hsw : st.switched with
            | true =>
              rw [hsw] at h
              simp only [Except.ok.injEq, Prod.mk.injEq] at h
              obtain ⟨rfl, rfl⟩ := h
              simp
            | false =>
              rw [hsw] at h
              cases alt with
              | none =>
                simp only [Except.ok.injEq, Prod.mk.injEq] at h
                obtain ⟨rfl, rfl⟩ := h
                simp
              | some p =>
                simp only [Except.ok.injEq, Prod.mk.injEq] at h
                obtain ⟨rfl, rfl⟩ := h
                simp

/-- The number of iterations `it, …, it + n - 1` that are multiples of `every`. -/
def lossCount (every : ℕ) : ℕ → ℕ → ℕ
  | _, 0 => 0
  | it, n + 1 => (if every ≠ 0 ∧ every ∣ it then 1 else 0) + lossCount every (it + 1) n

theorem lossCount_snoc (every it n : ℕ) :
    lossCount every it (n + 1) = lossCount every it n + (if every ≠ 0 ∧ every ∣ it + n then 1 else 0) := by
  induction n generalizing it with
  | zero => simp [lossCount]
  | succ n ih =>
    rw [lossCount, ih (it + 1), lossCount, show it + 1 + n = it + (n + 1) by ring]
    omega

/-- the iterations `0, …, n` contain `n / every + 1` multiples of `every`. -/
theorem lossCount_zero {every : ℕ} (h : every ≠ 0) (n : ℕ) : lossCount every 0 (n + 1) = n / every + 1 := by
  induction n with
  | zero => simp [lossCount, h]
  | succ n ih =>
    rw [lossCount_snoc, ih, Nat.succ_div]
    simp only [Nat.zero_add, ne_eq, h, not_false_eq_true, true_and]
    omega

theorem one_loop_counts (clock : ℕ → ℚ) {qp : QP.Solver} {eq : Y → Y → Except PyErr Bool}
    {alt : Option ((X → Y → W → Bool → Y) × (X → W → Y))} {cfg : OneSlack.Config} {samples : List (X × Y)}
    {gt : W} {intr : ℕ → Option OneSlack.Phase} (fuel it : ℕ) (st st' : OneSlack.St X Y) (s : List ℚ × ℕ)
    (h : OneSlack.loop qp eq alt cfg samples gt intr fuel it st = .ok st') :
    ∃ n, oneLoop clock qp eq alt cfg samples gt intr fuel it st s = (push clock)^[n] s ∧
      st'.primalCurve.length = st.primalCurve.length + n ∧ st'.cachedFlags.length = st.cachedFlags.length + n ∧
      ((∀ i, intr i = none) → st'.objectiveCurve.length = st.objectiveCurve.length + n) ∧
      (n = 0 → st'.objective = st.objective) ∧
      (alt = none → st'.lossCurve.length = st.lossCurve.length + lossCount cfg.showLossEvery it n) := by
  induction fuel generalizing it st s with
  | zero =>
    simp only [OneSlack.loop, Except.ok.injEq] at h
    subst h
    exact ⟨0, rfl, rfl, rfl, fun _ => rfl, fun _ => rfl, fun _ => rfl⟩
  | succ fuel ih =>
    unfold OneSlack.loop at h
    unfold oneLoop
    cases hi : OneSlack.iteration qp eq alt cfg samples gt it (intr it) st with
    | error e => rw [hi] at h; cases h
    | ok r =>
      obtain ⟨st1, b⟩ := r
      rw [hi] at h
      obtain ⟨c1, c2, c3, c4, c5⟩ := one_iteration_counts hi
      simp only
      cases b with
      | false =>
        simp only [Except.ok.injEq] at h
        subst h
        by_cases hf : oneFinds cfg samples gt (intr it) st = true
        · rw [if_pos hf] at c1 c2 c3 ⊢
          refine ⟨1, rfl, c1, c2, fun hn => c3 (hn it), fun h => (by cases h), fun _ => ?_⟩
          rw [c4 hf]
          rfl
        · rw [if_neg hf] at c1 c2 c3 ⊢
          have := c5 (by simpa using hf)
          exact ⟨0, rfl, c1, c2, fun hn => c3 (hn it), fun _ => this.2.2.1, fun _ => by rw [this.1]; rfl⟩
      | true =>
        simp only at h
        obtain ⟨n, d1, d2, d3, d4, d5, d6⟩ := ih (it + 1) st1
          (if oneFinds cfg samples gt (intr it) st = true then push clock s else s) h
        by_cases hf : oneFinds cfg samples gt (intr it) st = true
        · rw [if_pos hf] at c1 c2 c3 d1 ⊢
          refine ⟨n + 1, d1.trans (Function.iterate_succ_apply _ _ _).symm, by omega, by omega,
            fun hn => by rw [d4 hn, c3 (hn it)]; omega, fun h => (by cases h), fun ha => ?_⟩
          rw [d6 ha, c4 hf, lossCount]
          omega
        · rw [if_neg hf] at c1 c2 c3 d1 ⊢
          have := c5 (by simpa using hf)
          refine ⟨n, d1, by omega, by omega, fun hn => by rw [d4 hn, c3 (hn it)]; omega,
            fun h => (d5 h).trans this.2.2.1, fun ha => ?_⟩
          cases this.2.2.2 ha

/-- what a call of `fit` adds to timestamps and curves. -/
theorem one_fit_counts {clock : ℕ → ℚ} {m : SModel X Y} {qp : QP.Solver} {eq : Y → Y → Except PyErr Bool}
    {alt : Option ((X → Y → W → Bool → Y) × (X → W → Y))} {intr : ℕ → Option OneSlack.Phase}
    {o o' : OneSlack.Obj Y} {ts ts' : List ℚ} {samples : List (X × Y)} {warm : OneSlack.Warm}
    (h : oneFit clock m qp eq alt intr (o, ts) samples warm = .ok (o', ts')) :
    ∃ st n a, OneSlack.start m o warm = .ok st ∧ 0 < n ∧ o'.attrs = some a ∧ o'.cfg = o.cfg ∧
      ts' = (push clock ((push clock)^[n] (oneStart clock warm ts, 1))).1 ∧
      a.primalCurve.length = st.primalCurve.length + (n + 1) ∧
      a.cachedFlags.length = st.cachedFlags.length + (n + 1) ∧
      a.cachedFlags.getLast? = some false ∧
      ((∀ i, intr i = none) → a.objectiveCurve.length = st.objectiveCurve.length + (n + 1)) ∧
      (alt = none → o'.lossCurve.length = o.lossCurve.length + lossCount o.cfg.showLossEvery 0 n) := by
  unfold oneFit at h
  simp only at h
  cases hs : OneSlack.start m o warm with
  | error e => rw [hs] at h; cases h
  | ok st =>
    rw [hs] at h
    simp only at h
    have hst : st.objective = none ∧ st.lossCurve = o.lossCurve := by
      unfold OneSlack.start at hs
      simp only at hs
      split at hs <;> first
        | (cases hs; exact ⟨rfl, rfl⟩)
        | cases hs
    unfold OneSlack.fit at h
    rw [hs] at h
    simp only at h
    cases hl : OneSlack.loop qp eq alt o.cfg samples (OneSlack.jointFeatureGt m samples) intr o.cfg.maxIter 0 st with
    | error e => rw [hl] at h; cases h
    | ok st' =>
      rw [hl] at h
      simp only at h
      cases ho : objectivePrimal st'.model st'.w samples o.cfg.C false with
      | error e => rw [ho] at h; cases h
      | ok p =>
        rw [ho] at h
        simp only at h
        cases hob : st'.objective with
        | none => rw [hob] at h; cases h
        | some obj =>
          rw [hob] at h
          simp only [Except.ok.injEq, Prod.mk.injEq] at h
          obtain ⟨rfl, rfl⟩ := h
          obtain ⟨n, d1, d2, d3, d4, d5, d6⟩ := one_loop_counts clock _ _ _ _ (oneStart clock warm ts, 1) hl
          refine ⟨st, n, _, rfl, ?_, rfl, rfl, by rw [d1], ?_, ?_, by simp, fun hn => ?_, fun ha => ?_⟩
          · rcases Nat.eq_zero_or_pos n with h0 | h0
            · have := d5 h0
              rw [hst.1, hob] at this
              cases this
            · exact h0
          · simp only [List.length_append, List.length_singleton, d2]; omega
          · simp only [List.length_append, List.length_singleton, d3]; omega
          · simp only [List.length_append, List.length_singleton, d4 hn]; omega
          · rw [← hst.2]; exact d6 ha

/-! ### N-slack learner -/

/-- what an iteration adds to the curves. -/
theorem n_iteration_counts {qp : QP.Solver} {eq : Y → Y → Bool}
    {alt : Option ((X → Y → W → Bool → Y) × (X → W → Y))} {cfg : NSlack.Config} {samples : List (X × Y)} {it : ℕ}
    {intr : ℕ → Option OneSlack.Phase} {st st' : NSlack.St X Y} {out : NSlack.Outcome}
    (h : NSlack.iteration qp eq alt cfg samples it intr st = .ok (st', out)) :
    (out = .interrupted → st'.objectiveCurve = st.objectiveCurve ∧ st'.primalCurve = st.primalCurve ∧
      st'.lossCurve = st.lossCurve) ∧
    (out ≠ .interrupted → st'.objectiveCurve.length = st.objectiveCurve.length + 1 ∧
      st'.primalCurve.length = st.primalCurve.length + 1 ∧
      st'.lossCurve.length = st.lossCurve.length + (if cfg.showLossEvery ≠ 0 ∧ cfg.showLossEvery ∣ it then 1 else 0)) := by
  have hloss : ∀ (m : SModel X Y) (w : W) (c : List ℚ),
      (computeTrainingLoss m cfg.showLossEvery w samples it c).length = c.length +
        (if cfg.showLossEvery ≠ 0 ∧ cfg.showLossEvery ∣ it then 1 else 0) := by
    intro m w c
    unfold computeTrainingLoss
    simp only [Nat.dvd_iff_mod_eq_zero]
    split_ifs
    · simp
    · rfl
  unfold NSlack.iteration at h
  cases hb : NSlack.batches (NSlack.indexed samples) cfg.batchSize with
  | error e => rw [hb] at h; cases h
  | ok bs =>
    rw [hb] at h
    simp only at h
    cases hr : NSlack.runBatches qp eq cfg samples.length intr bs 0 (st, 0, 0) with
    | error e => rw [hr] at h; cases h
    | ok r =>
      obtain ⟨⟨st1, s, k⟩, fl⟩ := r
      obtain ⟨-, k2, k3, k4⟩ := runBatches_keep hr
      rw [hr] at h
      cases fl with
      | true =>
        simp only [Except.ok.injEq, Prod.mk.injEq] at h
        obtain ⟨rfl, rfl⟩ := h
        exact ⟨fun _ => ⟨k2, k3, k4⟩, fun h => absurd rfl h⟩
      | false =>
        simp only at h
        cases ho : st1.objective with
        | none => rw [ho] at h; cases h
        | some obj =>
          rw [ho] at h
          simp only at h
          have main : ∀ r : Except PyErr (NSlack.St X Y × NSlack.Outcome), r = .ok (st', out) →
              (∀ x, r = .ok x → x.2 ≠ .interrupted ∧ x.1.objectiveCurve = st1.objectiveCurve ++ [obj] ∧
                (∃ p, x.1.primalCurve = st1.primalCurve ++ [p]) ∧
                x.1.lossCurve = computeTrainingLoss st1.model cfg.showLossEvery st1.w samples it st1.lossCurve) →
              (out = .interrupted → st'.objectiveCurve = st.objectiveCurve ∧ st'.primalCurve = st.primalCurve ∧
                st'.lossCurve = st.lossCurve) ∧
              (out ≠ .interrupted → st'.objectiveCurve.length = st.objectiveCurve.length + 1 ∧
                st'.primalCurve.length = st.primalCurve.length + 1 ∧
                st'.lossCurve.length = st.lossCurve.length +
                  (if cfg.showLossEvery ≠ 0 ∧ cfg.showLossEvery ∣ it then 1 else 0)) := by
            intro r hr hx
            obtain ⟨x1, x2, ⟨p, x3⟩, x4⟩ := hx _ hr
            exact ⟨fun h => absurd h x1, fun _ => ⟨by rw [x2, k2]; simp, by rw [x3, k3]; simp,
              by rw [x4, hloss, k4]⟩⟩
          refine main _ h fun x hx => ?_
          split_ifs at hx
          · split at hx <;>
            · simp only [Except.ok.injEq] at hx
              subst hx
              exact ⟨by simp, rfl, ⟨_, rfl⟩, rfl⟩
          · simp only [Except.ok.injEq] at hx
            subst hx
            exact ⟨by simp, rfl, ⟨_, rfl⟩, rfl⟩

theorem n_loop_counts (clock : ℕ → ℚ) {qp : QP.Solver} {eq : Y → Y → Bool}
    {alt : Option ((X → Y → W → Bool → Y) × (X → W → Y))} {cfg : NSlack.Config} {samples : List (X × Y)}
    {intr : ℕ → ℕ → Option OneSlack.Phase} (fuel it : ℕ) (st st' : NSlack.St X Y) (out : NSlack.Outcome)
    (s : List ℚ × ℕ) (h : NSlack.loop qp eq alt cfg samples intr fuel it st = .ok (st', out)) :
    ∃ n, nLoop clock qp eq alt cfg samples intr fuel it st s =
        (push clock)^[n + if out = .interrupted then 1 else 0] s ∧
      st'.objectiveCurve.length = st.objectiveCurve.length + n ∧
      st'.primalCurve.length = st.primalCurve.length + n ∧
      st'.lossCurve.length = st.lossCurve.length + lossCount cfg.showLossEvery it n ∧
      (out ≠ .interrupted → fuel ≠ 0 → n ≠ 0) := by
  induction fuel generalizing it st s with
  | zero =>
    simp only [NSlack.loop, Except.ok.injEq, Prod.mk.injEq] at h
    obtain ⟨rfl, rfl⟩ := h
    exact ⟨0, rfl, rfl, rfl, rfl, fun _ h => absurd rfl h⟩
  | succ fuel ih =>
    unfold NSlack.loop at h
    unfold nLoop
    cases hi : NSlack.iteration qp eq alt cfg samples it (intr it) st with
    | error e => rw [hi] at h; cases h
    | ok r =>
      obtain ⟨st1, b⟩ := r
      rw [hi] at h
      obtain ⟨c1, c2⟩ := n_iteration_counts hi
      cases b with
      | goOn =>
        simp only at h ⊢
        obtain ⟨n, d1, d2, d3, d4, -⟩ := ih (it + 1) st1 (push clock s) h
        obtain ⟨e1, e2, e3⟩ := c2 (by simp)
        refine ⟨n + 1, ?_, by omega, by omega, by rw [d4, e3, lossCount]; omega, fun _ _ => by omega⟩
        rw [d1, show n + 1 + (if out = .interrupted then 1 else 0) = (n + if out = .interrupted then 1 else 0) + 1 by ring,
          Function.iterate_succ_apply]
      | interrupted =>
        simp only [Except.ok.injEq, Prod.mk.injEq] at h
        obtain ⟨rfl, rfl⟩ := h
        obtain ⟨e1, e2, e3⟩ := c1 rfl
        exact ⟨0, rfl, by rw [e1]; rfl, by rw [e2]; rfl, by rw [e3]; rfl, fun h => absurd rfl h⟩
      | stopped q =>
        simp only [Except.ok.injEq, Prod.mk.injEq] at h
        obtain ⟨rfl, rfl⟩ := h
        obtain ⟨e1, e2, e3⟩ := c2 (by simp)
        exact ⟨1, rfl, e1, e2, e3, fun _ _ => by omega⟩

/-- what a call of `fit` adds to timestamps and curves; an interrupted iteration leaves a timestamp behind. -/
theorem n_fit_counts {clock : ℕ → ℚ} {m : SModel X Y} {qp : QP.Solver} {eq : Y → Y → Bool}
    {alt : Option ((X → Y → W → Bool → Y) × (X → W → Y))} {intr : ℕ → ℕ → Option OneSlack.Phase}
    {o o' : NSlack.Obj Y} {ts ts' : List ℚ} {samples : List (X × Y)} {cs : Option (List (List (NSlack.NCon Y)))}
    {out : NSlack.Outcome} (h : nFit clock m qp eq alt intr (o, ts) samples cs = .ok ((o', ts'), out)) :
    ∃ st n a, NSlack.start m qp o samples.length cs = .ok st ∧ o'.attrs = some a ∧ o'.cfg = o.cfg ∧
      ts' = (push clock ((push clock)^[n + if out = .interrupted then 1 else 0]
        (if cs.isSome then ts else [clock 0], 1))).1 ∧
      a.objectiveCurve.length = st.objectiveCurve.length + (n + 1) ∧
      a.primalCurve.length = st.primalCurve.length + (n + 1) ∧
      o'.lossCurve.length = st.lossCurve.length + lossCount o.cfg.showLossEvery 0 n ∧
      (out ≠ .interrupted → n ≠ 0) := by
  unfold nFit at h
  simp only at h
  cases hs : NSlack.start m qp o samples.length cs with
  | error e => rw [hs] at h; cases h
  | ok st =>
    rw [hs] at h
    simp only at h
    cases hf : NSlack.fit m qp eq alt intr o samples cs with
    | error e => rw [hf] at h; cases h
    | ok r =>
      obtain ⟨o1, out1⟩ := r
      rw [hf] at h
      simp only [Except.ok.injEq, Prod.mk.injEq] at h
      obtain ⟨⟨rfl, rfl⟩, rfl⟩ := h
      obtain ⟨st0, st', obj, primal, f1, f2, f3, -, -, rfl⟩ := NSlack.fit_ok hf
      rw [hs, Except.ok.injEq] at f1
      subst f1
      obtain ⟨n, d1, d2, d3, d4, d5⟩ := n_loop_counts clock _ _ _ _ _ (if cs.isSome then ts else [clock 0], 1) f2
      refine ⟨st, n, _, rfl, rfl, rfl, by rw [d1], ?_, ?_, d4, fun h => d5 h f3⟩
      · simp only [List.length_append, List.length_singleton, d2]; omega
      · simp only [List.length_append, List.length_singleton, d3]; omega

/-! ### Subgradient learners -/

theorem computeTrainingLoss_length (m : SModel X Y) (every : ℕ) (w : W) (samples : List (X × Y)) (it : ℕ) (c : List ℚ) :
    (computeTrainingLoss m every w samples it c).length = c.length + (if every ≠ 0 ∧ every ∣ it then 1 else 0) := by
  unfold computeTrainingLoss
  simp only [Nat.dvd_iff_mod_eq_zero]
  split_ifs
  · simp
  · rfl

theorem sub_loop_counts (clock : ℕ → ℚ) {m : SModel X Y} {cfg : Subgradient.Config} {lr : ℚ}
    {order : ℕ → List (X × Y)} (fuel it : ℕ) (data data' : List (X × Y)) (st st' : Subgradient.St)
    (c c' : Subgradient.Curves) (s : List ℚ × ℕ)
    (h : Subgradient.loop m cfg lr order fuel it data st c = .ok (data', st', c')) :
    ∃ n, subLoop clock m cfg lr order fuel it data st s = (push clock)^[n] s ∧
      c'.objective.length = c.objective.length + n ∧
      c'.loss.length = c.loss.length + lossCount cfg.showLossEvery it n ∧
      (cfg.breakOnNoConstraints = false → n = fuel) := by
  induction fuel generalizing it data st c s with
  | zero =>
    simp only [Subgradient.loop, Except.ok.injEq, Prod.mk.injEq] at h
    obtain ⟨-, -, rfl⟩ := h
    exact ⟨0, rfl, rfl, rfl, fun _ => rfl⟩
  | succ fuel ih =>
    unfold Subgradient.loop at h
    unfold subLoop
    simp only at h ⊢
    cases hl : Subgradient.learn m cfg lr (if cfg.shuffle = true then order it else data) st with
    | error e => rw [hl] at h; cases h
    | ok r =>
      obtain ⟨st1, p⟩ := r
      rw [hl] at h
      simp only at h ⊢
      by_cases hb : p = 0 ∧ cfg.breakOnNoConstraints = true
      · rw [if_pos hb] at h ⊢
        simp only [Except.ok.injEq, Prod.mk.injEq] at h
        obtain ⟨-, -, rfl⟩ := h
        exact ⟨0, rfl, rfl, rfl, fun h => by rw [hb.2] at h; cases h⟩
      · rw [if_neg hb] at h ⊢
        cases ho : objectivePrimal m st1.selfW (if cfg.shuffle = true then order it else data) cfg.C true with
        | error e => rw [ho] at h; cases h
        | ok obj =>
          rw [ho] at h
          simp only at h
          obtain ⟨n, d1, d2, d3, d4⟩ := ih _ _ _ _ (push clock s) h
          refine ⟨n + 1, by rw [d1, Function.iterate_succ_apply], ?_, ?_, fun h => by rw [d4 h]⟩
          · rw [d2]; simp only [List.length_append, List.length_singleton]; omega
          · rw [d3, computeTrainingLoss_length, lossCount]; omega

theorem sub_fit_counts {clock : ℕ → ℚ} {m : SModel X Y} {order : ℕ → List (X × Y)} {o o' : Subgradient.Obj}
    {ts ts' : List ℚ} {samples : List (X × Y)} {warm : Bool}
    (h : subFit clock m order (o, ts) samples warm = .ok (o', ts')) :
    ∃ n, ts' = (push clock ((push clock)^[n] (subStart clock warm ts, 1))).1 ∧ o'.cfg = o.cfg ∧
      o'.curves.objective.length = (if warm then o.curves.objective.length else 0) + (n + 1) ∧
      o'.curves.loss.length = o.curves.loss.length + lossCount o.cfg.showLossEvery 0 n ∧
      (o.cfg.breakOnNoConstraints = false → n = o.cfg.maxIter) := by
  unfold subFit at h
  simp only at h
  cases hs : Subgradient.setup o samples.length warm with
  | error e => rw [hs] at h; cases h
  | ok r =>
    obtain ⟨lr, curve⟩ := r
    have hcurve : curve.length = if warm then o.curves.objective.length else 0 := by
      unfold Subgradient.setup at hs
      cases warm with
      | false =>
        simp only [Bool.false_eq_true, if_false, Except.ok.injEq, Prod.mk.injEq] at hs ⊢
        rw [← hs.2]; rfl
      | true =>
        simp only [if_true] at hs ⊢
        cases ho : o.lr with
        | none => rw [ho] at hs; cases hs
        | some v =>
          rw [ho] at hs
          simp only [Except.ok.injEq, Prod.mk.injEq] at hs
          rw [← hs.2]
    rw [hs] at h
    simp only at h
    unfold Subgradient.fit at h
    rw [hs] at h
    simp only at h
    cases hl : Subgradient.loop m o.cfg lr order o.cfg.maxIter 0 samples
        ⟨o.w.getD (fun _ => 0), fun _ => 0, o.w.getD (fun _ => 0), o.t⟩ ⟨curve, o.curves.loss⟩ with
    | error e => rw [hl] at h; cases h
    | ok r =>
      obtain ⟨d, st, c⟩ := r
      rw [hl] at h
      simp only at h
      cases ho : objectivePrimal m st.selfW d o.cfg.C true with
      | error e => rw [ho] at h; cases h
      | ok obj =>
        rw [ho] at h
        simp only [Except.ok.injEq, Prod.mk.injEq] at h
        obtain ⟨rfl, rfl⟩ := h
        obtain ⟨n, d1, d2, d3, d4⟩ := sub_loop_counts clock _ _ _ _ _ _ _ _ (subStart clock warm ts, 1) hl
        refine ⟨n, by rw [d1], rfl, ?_, d3, d4⟩
        simp only [List.length_append, List.length_singleton, d2, hcurve]
        omega

theorem lat_loop_counts (clock : ℕ → ℚ) {L : SubgradientLatent.SLModel X Y H} {cfg : Subgradient.Config}
    {jobs : SubgradientLatent.Jobs} {lr : ℚ} {samples : List (X × Y)} (fuel it : ℕ) (st st' : Subgradient.St)
    (c c' : Subgradient.Curves) (s : List ℚ × ℕ)
    (h : SubgradientLatent.loop L cfg jobs lr samples fuel it st c = .ok (st', c')) :
    ∃ n e, latLoop clock L cfg jobs lr samples fuel st s = (push clock)^[n + e] s ∧
      c'.objective.length = c.objective.length + n ∧
      c'.loss.length = c.loss.length + lossCount cfg.showLossEvery it n ∧
      e ≤ 1 ∧ (cfg.breakOnNoConstraints = false → n = fuel ∧ e = 0) := by
  induction fuel generalizing it st c s with
  | zero =>
    simp only [SubgradientLatent.loop, Except.ok.injEq, Prod.mk.injEq] at h
    obtain ⟨-, rfl⟩ := h
    exact ⟨0, 0, rfl, rfl, rfl, by omega, fun _ => ⟨rfl, rfl⟩⟩
  | succ fuel ih =>
    unfold SubgradientLatent.loop at h
    unfold latLoop
    cases hl : SubgradientLatent.pass L cfg jobs lr samples st with
    | error e => rw [hl] at h; cases h
    | ok r =>
      obtain ⟨st1, p, obj⟩ := r
      rw [hl] at h
      simp only at h ⊢
      by_cases hb : p = 0 ∧ cfg.breakOnNoConstraints = true
      · rw [if_pos hb] at h ⊢
        simp only [Except.ok.injEq, Prod.mk.injEq] at h
        obtain ⟨-, rfl⟩ := h
        exact ⟨0, 1, rfl, rfl, rfl, le_rfl, fun h => by rw [hb.2] at h; cases h⟩
      · rw [if_neg hb] at h ⊢
        obtain ⟨n, e, d1, d2, d3, d4, d5⟩ := ih _ _ _ (push clock s) h
        refine ⟨n + 1, e, by rw [d1, show n + 1 + e = n + e + 1 by ring, Function.iterate_succ_apply], ?_, ?_, d4,
          fun h => ⟨by rw [(d5 h).1], (d5 h).2⟩⟩
        · rw [d2]; simp only [List.length_append, List.length_singleton]; omega
        · rw [d3, lossCount]
          unfold SubgradientLatent.trainingLoss
          simp only [Nat.dvd_iff_mod_eq_zero]
          split_ifs
          · simp only [List.length_append, List.length_singleton]; omega
          · omega

theorem lat_fit_counts {clock : ℕ → ℚ} {L : SubgradientLatent.SLModel X Y H} {jobs : SubgradientLatent.Jobs} {w0 : W}
    {o o' : Subgradient.Obj} {ts ts' : List ℚ} {samples : List (X × Y)} {warm : Bool}
    (h : latFit clock L jobs w0 (o, ts) samples warm = .ok (o', ts')) :
    ∃ n e, ts' = (push clock ((push clock)^[n + e] (latStart clock warm ts, 1))).1 ∧ o'.cfg = o.cfg ∧
      o'.curves.objective.length = (if warm then o.curves.objective.length else 0) + (n + 1) ∧
      o'.curves.loss.length = o.curves.loss.length + lossCount o.cfg.showLossEvery 0 n ∧
      e ≤ 1 ∧ (o.cfg.breakOnNoConstraints = false → n = o.cfg.maxIter ∧ e = 0) := by
  unfold latFit at h
  simp only at h
  cases hs : Subgradient.setup o samples.length warm with
  | error e => rw [hs] at h; cases h
  | ok r =>
    obtain ⟨lr, curve⟩ := r
    have hcurve : curve.length = if warm then o.curves.objective.length else 0 := by
      unfold Subgradient.setup at hs
      cases warm with
      | false =>
        simp only [Bool.false_eq_true, if_false, Except.ok.injEq, Prod.mk.injEq] at hs ⊢
        rw [← hs.2]; rfl
      | true =>
        simp only [if_true] at hs ⊢
        cases ho : o.lr with
        | none => rw [ho] at hs; cases hs
        | some v =>
          rw [ho] at hs
          simp only [Except.ok.injEq, Prod.mk.injEq] at hs
          rw [← hs.2]
    rw [hs] at h
    simp only at h
    unfold SubgradientLatent.fit at h
    rw [hs] at h
    simp only at h
    cases hl : SubgradientLatent.loop L o.cfg jobs lr samples o.cfg.maxIter 0
        ⟨o.w.getD w0, fun _ => 0, o.w.getD w0, o.t⟩ ⟨curve, o.curves.loss⟩ with
    | error e => rw [hl] at h; cases h
    | ok r =>
      obtain ⟨st, c⟩ := r
      rw [hl] at h
      simp only at h
      cases ho : SubgradientLatent.objective L o.cfg.C st.selfW samples with
      | error e => rw [ho] at h; cases h
      | ok obj =>
        rw [ho] at h
        simp only [Except.ok.injEq, Prod.mk.injEq] at h
        obtain ⟨rfl, rfl⟩ := h
        obtain ⟨n, e, d1, d2, d3, d4, d5⟩ := lat_loop_counts clock _ _ _ _ _ _ (latStart clock warm ts, 1) hl
        refine ⟨n, e, by rw [d1], rfl, ?_, d3, d4, d5⟩
        simp only [List.length_append, List.length_singleton, d2, hcurve]
        omega

/-! ### Frank-Wolfe learner -/

theorem fw_batch_counts (clock : ℕ → ℚ) (m : SModel X Y) (cfg : FrankWolfe.Config) (samples : List (X × Y))
    (fuel it : ℕ) (w : W) (l : ℚ) (c : FrankWolfe.Curves) (s : List ℚ × ℕ) :
    ∃ n, Timing.batchLoop clock m cfg samples fuel it w l s = (push clock)^[n] s ∧
      (FrankWolfe.batchLoop m cfg samples fuel it w l c).2.dual.length = c.dual.length + n ∧
      (FrankWolfe.batchLoop m cfg samples fuel it w l c).2.primal.length = c.primal.length + n := by
  induction fuel generalizing it w l c s with
  | zero => exact ⟨0, rfl, rfl, rfl⟩
  | succ fuel ih =>
    unfold Timing.batchLoop FrankWolfe.batchLoop
    simp only
    split_ifs with hb
    · exact ⟨1, rfl, by simp, by simp⟩
    · obtain ⟨n, d1, d2, d3⟩ := ih (it + 1) (FrankWolfe.batchStep m cfg samples it w l).2.1
        (FrankWolfe.batchStep m cfg samples it w l).2.2
        ⟨c.dual ++ [(FrankWolfe.batchStep m cfg samples it w l).1.1],
          c.primal ++ [(FrankWolfe.batchStep m cfg samples it w l).1.2.2]⟩ (push clock s)
      refine ⟨n + 1, by rw [d1, Function.iterate_succ_apply], ?_, ?_⟩
      · rw [d2]; simp only [List.length_append, List.length_singleton]; omega
      · rw [d3]; simp only [List.length_append, List.length_singleton]; omega

theorem fw_bc_counts (clock : ℕ → ℚ) {m : SModel X Y} {cfg : FrankWolfe.Config} {order : ℕ → List ℕ}
    {samples : List (X × Y)} (fuel it : ℕ) (st st' : FrankWolfe.BC) (gap : Option ℚ) (c c' : FrankWolfe.Curves)
    (s : List ℚ × ℕ) (h : FrankWolfe.bcLoop m cfg order samples fuel it st gap c = .ok (st', c')) :
    ∃ n, Timing.bcLoop clock m cfg order samples fuel it st gap s = (push clock)^[n] s ∧
      c'.dual.length = c.dual.length + n ∧ c'.primal.length = c.primal.length + n := by
  induction fuel generalizing it st gap c s with
  | zero =>
    simp only [FrankWolfe.bcLoop, Except.ok.injEq, Prod.mk.injEq] at h
    obtain ⟨-, rfl⟩ := h
    exact ⟨0, rfl, rfl, rfl⟩
  | succ fuel ih =>
    unfold FrankWolfe.bcLoop at h
    unfold Timing.bcLoop
    simp only at h ⊢
    generalize (order it).foldl (FrankWolfe.bcStep m cfg samples) st = st1 at h ⊢
    by_cases hc : cfg.checkDualEvery ≠ 0 ∧ it % cfg.checkDualEvery = 0
    · rw [if_pos hc] at h ⊢
      cases hg : FrankWolfe.calcDualGap m cfg.C samples st1.selfW st1.selfL with
      | error e => rw [hg] at h; cases h
      | ok r =>
        obtain ⟨d, g, p⟩ := r
        rw [hg] at h
        simp only at h ⊢
        by_cases ht : g < cfg.tol
        · rw [if_pos ht] at h ⊢
          simp only [Except.ok.injEq, Prod.mk.injEq] at h
          obtain ⟨-, rfl⟩ := h
          exact ⟨1, rfl, by simp, by simp⟩
        · rw [if_neg ht] at h ⊢
          obtain ⟨n, d1, d2, d3⟩ := ih _ _ _ _ (push clock s) h
          refine ⟨n + 1, by rw [d1, Function.iterate_succ_apply], ?_, ?_⟩
          · rw [d2]; simp only [List.length_append, List.length_singleton]; omega
          · rw [d3]; simp only [List.length_append, List.length_singleton]; omega
    · rw [if_neg hc] at h ⊢
      cases gap with
      | none => cases h
      | some g =>
        simp only at h ⊢
        by_cases ht : g < cfg.tol
        · rw [if_pos ht] at h ⊢
          simp only [Except.ok.injEq, Prod.mk.injEq] at h
          obtain ⟨-, rfl⟩ := h
          exact ⟨0, rfl, rfl, rfl⟩
        · rw [if_neg ht] at h ⊢
          exact ih _ _ _ _ s h

/-- a successful run of the two modes. -/
theorem fw_fit_run {m : SModel X Y} {order : ℕ → List ℕ} {o o' : FrankWolfe.Obj} {samples : List (X × Y)}
    (h : FrankWolfe.fit m order o samples = .ok o') :
    ∃ c : FrankWolfe.Curves,
      ((o.cfg.batchMode = true ∧
          c = (FrankWolfe.batchLoop m o.cfg samples o.cfg.maxIter 0 (o.w.getD fun _ => 0) 0 ⟨[], []⟩).2) ∨
        (o.cfg.batchMode = false ∧ ∃ st, FrankWolfe.bcLoop m o.cfg order samples o.cfg.maxIter 0
          (FrankWolfe.bcStart (o.w.getD fun _ => 0) (o.l.getD 0)) none ⟨[], []⟩ = .ok (st, c))) ∧
      o'.cfg = o.cfg ∧ c.dual ≠ [] ∧ o'.curves.dual.length = c.dual.length + 1 ∧
      o'.curves.primal.length = c.primal.length + 1 := by
  obtain ⟨cfg, ow, ol, cur⟩ := o
  have fin : ∀ (w : W) (l : ℚ) (c : FrankWolfe.Curves),
      (match objectivePrimal m w samples cfg.C true with
        | .error err => Except.error err
        | .ok p =>
          match c.dual.getLast? with
          | none => .error .indexError
          | some d => .ok (⟨cfg, some w, some l, ⟨c.dual ++ [d], c.primal ++ [p]⟩⟩ : FrankWolfe.Obj)) = .ok o' →
      o'.cfg = cfg ∧ c.dual ≠ [] ∧ o'.curves.dual.length = c.dual.length + 1 ∧
        o'.curves.primal.length = c.primal.length + 1 := by
    intro w l c hm
    cases ho : objectivePrimal m w samples cfg.C true with
    | error e => rw [ho] at hm; cases hm
    | ok p =>
      rw [ho] at hm
      simp only at hm
      cases hg : c.dual.getLast? with
      | none => rw [hg] at hm; cases hm
      | some d =>
        rw [hg] at hm
        simp only [Except.ok.injEq] at hm
        subst hm
        exact ⟨rfl, fun h0 => (by rw [h0] at hg; cases hg), by simp, by simp⟩
  unfold FrankWolfe.fit at h
  simp only at h
  cases hb : cfg.batchMode with
  | true =>
    rw [hb] at h
    simp only [if_true] at h
    by_cases hr : m.rescaleC = true ∧ cfg.maxIter ≠ 0
    · rw [if_pos hr] at h; cases h
    · rw [if_neg hr] at h
      refine ⟨_, Or.inl ⟨rfl, rfl⟩, ?_⟩
      rcases ow with _ | w0 <;> rcases ol with _ | l0 <;> exact fin _ _ _ h
  | false =>
    rw [hb] at h
    simp only [Bool.false_eq_true, if_false] at h
    cases hbc : FrankWolfe.bcLoop m cfg order samples cfg.maxIter 0
        (FrankWolfe.bcStart (ow.getD fun _ => 0) (ol.getD 0)) none ⟨[], []⟩ with
    | error e => rcases ow with _ | w0 <;> rcases ol with _ | l0 <;> (erw [hbc] at h; cases h)
    | ok r =>
      obtain ⟨st, c⟩ := r
      refine ⟨c, Or.inr ⟨rfl, st, rfl⟩, ?_⟩
      rcases ow with _ | w0 <;> rcases ol with _ | l0 <;> (erw [hbc] at h; exact fin _ _ _ h)

theorem fw_fit_counts {clock : ℕ → ℚ} {m : SModel X Y} {order : ℕ → List ℕ} {o o' : FrankWolfe.Obj}
    {ts' : List ℚ} {samples : List (X × Y)} (h : fwFit clock m order o samples = .ok (o', ts')) :
    ∃ n, 0 < n ∧ ts' = (push clock ((push clock)^[n] ([clock 0], 1))).1 ∧ o'.cfg = o.cfg ∧
      o'.curves.dual.length = n + 1 ∧ o'.curves.primal.length = n + 1 := by
  unfold fwFit at h
  cases hf : FrankWolfe.fit m order o samples with
  | error e => rw [hf] at h; cases h
  | ok o1 =>
    rw [hf] at h
    simp only [Except.ok.injEq, Prod.mk.injEq] at h
    obtain ⟨rfl, rfl⟩ := h
    obtain ⟨c, hc, e1, e2, e3, e4⟩ := fw_fit_run hf
    rcases hc with ⟨hb, rfl⟩ | ⟨hb, st, hbc⟩
    · obtain ⟨n, d1, d2, d3⟩ := fw_batch_counts clock m o.cfg samples o.cfg.maxIter 0 (o.w.getD fun _ => 0) 0 ⟨[], []⟩
        ([clock 0], 1)
      rw [if_pos hb]
      refine ⟨n, ?_, by rw [d1], e1, by rw [e3, d2]; simp, by rw [e4, d3]; simp⟩
      have := List.length_pos_iff.mpr e2
      rw [d2] at this
      simpa using this
    · obtain ⟨n, d1, d2, d3⟩ := fw_bc_counts clock _ _ _ _ _ _ _ ([clock 0], 1) hbc
      rw [if_neg (by rw [hb]; decide)]
      refine ⟨n, ?_, by rw [d1], e1, by rw [e3, d2]; simp, by rw [e4, d3]; simp⟩
      have := List.length_pos_iff.mpr e2
      rw [d2] at this
      simpa using this

end Verif.Lemmas
