import Verif.Props.C41
import Verif.Props.C44

/-!
# C44 (violations), C51, C67, C70, C71, C72 for NSlackSSVM
-/

namespace Verif.Props

open Finset Verif.Spec Verif.Learner Verif.NSlack
open Verif.OneSlack (Phase weightsOf)

variable {X Y : Type}

set_option synthInstance.maxSize 2000

/-! ### C44 -/

/-- an output without loss but with other features than the true one. -/
def zeroLossTable : SModel Unit ℕ :=
  tableModel 1 3 (fun y => if y = 1 then vec2 2 0 else if y = 2 then vec2 (-2) 0 else vec2 0 0)
    (fun y => if y = 1 then 1 else 0)

/-- solver for the only problem that occurs. -/
def zeroLossSolver : QP.Solver := nTable 1 1 1 [⟨[[exampleCon 0]], [1 / 4], [0]⟩]

/-- **C44 is violated for outputs without loss.** With exact solver and exact inference, training stops
because there is no new constraint, but the sample has slack 1: the most violated output has no loss and is
ignored (line 325). The risk of the learned weights is 9/8, other weights have risk 17/32. -/
theorem C44_violated_zero_loss :
    QP.Exact zeroLossSolver ∧
    (problemOf zeroLossTable (fun _ => {y | y < 3})).ExactLossAug (fun x y w => zeroLossTable.lossAug x y w true) ∧
    (problemOf zeroLossTable (fun _ => {y | y < 3})).Labelled [((), 0)] ∧
    ∃ o a, NSlack.fit zeroLossTable zeroLossSolver natBeq none (fun _ _ => none) (exampleNS 10 1 100 50)
        [((), 0)] none = .ok (o, .stopped true) ∧ o.attrs = some a ∧
      (problemOf zeroLossTable (fun _ => {y | y < 3})).IsObjective 1 [((), 0)] a.w (9 / 8) ∧
      (problemOf zeroLossTable (fun _ => {y | y < 3})).IsObjective 1 [((), 0)] (vec2 (1 / 4) 0) (17 / 32) := by
  have hl : (problemOf zeroLossTable (fun _ => {y | y < 3})).Labelled [((), 0)] := by
    intro s hs
    rw [List.mem_singleton] at hs
    subst hs
    exact ⟨(by decide : 0 < 3), by decide +kernel⟩
  have hLA := tableModel_exact 1 3
    (fun y => if y = 1 then vec2 2 0 else if y = 2 then vec2 (-2) 0 else vec2 0 0)
    (fun y => if y = 1 then 1 else 0) true
  refine ⟨nTable_exact _ _ _ _ (by decide +kernel), hLA, hl, ?_⟩
  have key : (do
      let (o, out) ← NSlack.fit zeroLossTable zeroLossSolver natBeq none (fun _ _ => none)
        (exampleNS 10 1 100 50) [((), 0)] none
      match o.attrs with
      | none => .error .valueError
      | some a =>
        let p ← objectivePrimal zeroLossTable a.w [((), 0)] 1 true
        pure (p, out)) = .ok (9 / 8, .stopped true) := by decide +kernel
  obtain ⟨⟨o, out⟩, ho, h1⟩ := bind_eq_ok.mp key
  simp only at h1
  cases ha : o.attrs with
  | none => rw [ha] at h1; cases h1
  | some a =>
    rw [ha] at h1
    obtain ⟨p, hp, h2⟩ := bind_eq_ok.mp h1
    simp only [pure, Except.pure, Except.ok.injEq, Prod.mk.injEq] at h2
    obtain ⟨rfl, rfl⟩ := h2
    refine ⟨o, a, ho, ha, ?_, ?_⟩
    · obtain ⟨obj, hob, hiso⟩ := C30_objective zeroLossTable (fun _ => {y | y < 3}) hLA [((), 0)] hl (by simp)
        a.w 1 true
      rw [hp, Except.ok.injEq] at hob
      rw [hob]
      exact hiso
    · obtain ⟨obj, hob, hiso⟩ := C30_objective zeroLossTable (fun _ => {y | y < 3}) hLA [((), 0)] hl (by simp)
        (vec2 (1 / 4) 0) 1 true
      have : objectivePrimal zeroLossTable (vec2 (1 / 4) 0) [((), 0)] 1 true = .ok (17 / 32) := by
        decide +kernel
      rw [this, Except.ok.injEq] at hob
      rw [hob]
      exact hiso

/-- output `y > 0` has only feature `y - 1`, with value 100. -/
def wideTable : SModel Unit ℕ :=
  tableModel 4 5 (fun y k => if y = k + 1 then 100 else 0) (fun _ => 1)

/-- the constraint of output `y`. -/
def wideCon (y : ℕ) : NCon ℕ := ⟨y, fun k => if y = k + 1 then 100 else 0, 1⟩

/-- solver for the problems that occur. -/
def wideSolver : QP.Solver := nTable 4 1 1
  [⟨[[wideCon 1]], [1 / 10000], [0]⟩, ⟨[[wideCon 1, wideCon 2]], [1 / 10000, 1 / 10000], [0]⟩,
   ⟨[[wideCon 1, wideCon 2, wideCon 3]], [1 / 10000, 1 / 10000, 1 / 10000], [0]⟩]

/-- **C44 is violated by the default value of `tol`.** The documentation says that the default value of `tol`
corresponds to stopping only if there are no more constraints; in fact it is 1e-3. With this value, exact solver
and exact inference, training stops after three iterations although output 4 has slack 1: the risk is larger than
1, while there are weights of risk 1/5000. -/
theorem C44_violated_tol :
    QP.Exact wideSolver ∧
    (problemOf wideTable (fun _ => {y | y < 5})).ExactLossAug (fun x y w => wideTable.lossAug x y w true) ∧
    (problemOf wideTable (fun _ => {y | y < 5})).Labelled [((), 0)] ∧
    ∃ o a, NSlack.fit wideTable wideSolver natBeq none (fun _ _ => none) (exampleNS 100 1 100 50)
        [((), 0)] none = .ok (o, .stopped false) ∧ o.attrs = some a ∧
      (problemOf wideTable (fun _ => {y | y < 5})).IsObjective 1 [((), 0)] a.w (20003 / 20000) ∧
      (problemOf wideTable (fun _ => {y | y < 5})).IsObjective 1 [((), 0)] (fun _ => 1 / 100) (1 / 5000) := by
  have hl : (problemOf wideTable (fun _ => {y | y < 5})).Labelled [((), 0)] := by
    intro s hs
    rw [List.mem_singleton] at hs
    subst hs
    exact ⟨(by decide : 0 < 5), by decide +kernel⟩
  have hLA := tableModel_exact 4 5 (fun y k => if y = k + 1 then 100 else 0) (fun _ => 1) true
  refine ⟨nTable_exact _ _ _ _ (by decide +kernel), hLA, hl, ?_⟩
  have key : (do
      let (o, out) ← NSlack.fit wideTable wideSolver natBeq none (fun _ _ => none)
        (exampleNS 100 1 100 50) [((), 0)] none
      match o.attrs with
      | none => .error .valueError
      | some a =>
        let p ← objectivePrimal wideTable a.w [((), 0)] 1 true
        pure (p, out)) = .ok (20003 / 20000, .stopped false) := by decide +kernel
  obtain ⟨⟨o, out⟩, ho, h1⟩ := bind_eq_ok.mp key
  simp only at h1
  cases ha : o.attrs with
  | none => rw [ha] at h1; cases h1
  | some a =>
    rw [ha] at h1
    obtain ⟨p, hp, h2⟩ := bind_eq_ok.mp h1
    simp only [pure, Except.pure, Except.ok.injEq, Prod.mk.injEq] at h2
    obtain ⟨rfl, rfl⟩ := h2
    refine ⟨o, a, ho, ha, ?_, ?_⟩
    · obtain ⟨obj, hob, hiso⟩ := C30_objective wideTable (fun _ => {y | y < 5}) hLA [((), 0)] hl (by simp)
        a.w 1 true
      rw [hp, Except.ok.injEq] at hob
      rw [hob]
      exact hiso
    · obtain ⟨obj, hob, hiso⟩ := C30_objective wideTable (fun _ => {y | y < 5}) hLA [((), 0)] hl (by simp)
        (fun _ => 1 / 100) 1 true
      have : objectivePrimal wideTable (fun _ => 1 / 100) [((), 0)] 1 true = .ok (1 / 5000) := by
        decide +kernel
      rw [this, Except.ok.injEq] at hob
      rw [hob]
      exact hiso

/-! ### C61 -/

/-- two outputs, one feature. -/
def nSignTable : SModel Unit ℕ := tableModel 1 2 (fun y => if y = 1 then vec2 (-2) 0 else vec2 0 0) (fun _ => 1)

/-- working set of the example. -/
def nSignSets : WS ℕ := fun i => [[⟨1, vec2 (-2) 0, 1⟩]].getD i []

/-- a solver for the only problem that occurs. -/
def nSignSolver : QP.Solver := fun p =>
  if p = NSlack.qpOf 1 (some [0]) 1 1 nSignSets 0 then
    some ⟨[1 / 4], (NSlack.qpOf 1 (some [0]) 1 1 nSignSets 0).value [1 / 4]⟩ else none

/-- The hypotheses of `C61_n_slack` can be met. -/
example : QP.Sound nSignSolver ∧ (NSlack.fit nSignTable nSignSolver natBeq none (fun _ _ => none)
    ⟨{ (exampleNS 10 1 100 50).cfg with negativity := some [0] }, none, []⟩ [((), 0)] none).toOption.bind
      (fun o => o.1.attrs.map fun a => a.w 0) = some (-(1 / 2)) := by
  refine ⟨?_, by decide +kernel⟩
  intro p s h
  unfold nSignSolver at h
  split_ifs at h with hp
  rw [Option.some.injEq] at h
  subst h hp
  exact ⟨(NSlack.feasible_qpOf _ _ _ _ _ _ _).mpr (by decide +kernel), rfl⟩

/-! ### C51 -/

/-- the states differ only in the loss curve. -/
def SameSt (s s' : NSlack.St X Y) : Prop := ∃ lc, s' = { s with lossCurve := lc }

theorem solve_same (qp : QP.Solver) (cfg : NSlack.Config) (n : ℕ) (st : NSlack.St X Y) (lc : List ℚ) :
    SameResult SameSt (NSlack.solve qp cfg n st) (NSlack.solve qp cfg n { st with lossCurve := lc }) := by
  unfold NSlack.solve
  simp only
  cases NSlack.solveQP qp st.model.dim cfg.negativity cfg.C n st.ws with
  | error err => rfl
  | ok sol =>
    simp only
    cases NSlack.prune cfg n st.ws st.lastActive sol.x with
    | error err => rfl
    | ok p => exact ⟨lc, rfl⟩

theorem runBatch_same (qp : QP.Solver) (eq : Y → Y → Bool) (cfg : NSlack.Config) (n : ℕ)
    (intr : Option Phase) (b : List (ℕ × X × Y)) (st : NSlack.St X Y) (lc : List ℚ) (s : ℚ) (k : ℕ) :
    SameResult (fun r r' => SameSt r.1.1 r'.1.1 ∧ r'.1.2 = r.1.2 ∧ r'.2 = r.2)
      (runBatch qp eq cfg n intr b (st, s, k))
      (runBatch qp eq cfg n intr b ({ st with lossCurve := lc }, s, k)) := by
  unfold runBatch
  simp only
  by_cases h1 : intr = some .search
  · rw [if_pos h1, if_pos h1]
    exact ⟨⟨lc, rfl⟩, rfl, rfl⟩
  · rw [if_neg h1, if_neg h1]
    cases ha : addAll cfg eq st.model st.w b (st.ws, s, 0) with
    | error err => rfl
    | ok r =>
      obtain ⟨ws, sl, new⟩ := r
      simp only
      by_cases h2 : intr = some .qp
      · rw [if_pos h2, if_pos h2]
        exact ⟨⟨lc, rfl⟩, rfl, rfl⟩
      · rw [if_neg h2, if_neg h2]
        by_cases h3 : new = 0
        · rw [if_pos h3, if_pos h3]
          exact ⟨⟨lc, rfl⟩, rfl, rfl⟩
        · rw [if_neg h3, if_neg h3]
          have := solve_same qp cfg n { st with ws := ws } lc
          simp only at this
          revert this
          cases NSlack.solve qp cfg n { st with ws := ws } with
          | error err =>
            cases NSlack.solve qp cfg n { st with ws := ws, lossCurve := lc } with
            | error err' => exact fun h => h
            | ok r => exact fun h => h.elim
          | ok r =>
            cases NSlack.solve qp cfg n { st with ws := ws, lossCurve := lc } with
            | error err' => exact fun h => h.elim
            | ok r' => exact fun h => ⟨h, rfl, rfl⟩

theorem runBatches_same (qp : QP.Solver) (eq : Y → Y → Bool) (cfg : NSlack.Config) (n : ℕ)
    (intr : ℕ → Option Phase) (bs : List (List (ℕ × X × Y))) (j : ℕ) (st st' : NSlack.St X Y)
    (hst : SameSt st st') (s : ℚ) (k : ℕ) :
    SameResult (fun r r' => SameSt r.1.1 r'.1.1 ∧ r'.1.2 = r.1.2 ∧ r'.2 = r.2)
      (runBatches qp eq cfg n intr bs j (st, s, k)) (runBatches qp eq cfg n intr bs j (st', s, k)) := by
  induction bs generalizing j st st' s k with
  | nil => exact ⟨hst, rfl, rfl⟩
  | cons b bs ih =>
    obtain ⟨lc, rfl⟩ := hst
    have h := runBatch_same qp eq cfg n (intr j) b st lc s k
    unfold runBatches
    revert h
    cases runBatch qp eq cfg n (intr j) b (st, s, k) with
    | error err =>
      cases runBatch qp eq cfg n (intr j) b ({ st with lossCurve := lc }, s, k) with
      | error err' => exact fun h => h
      | ok r => exact fun h => h.elim
    | ok r =>
      cases runBatch qp eq cfg n (intr j) b ({ st with lossCurve := lc }, s, k) with
      | error err' => exact fun h => h.elim
      | ok r' =>
        obtain ⟨⟨s1, q1, k1⟩, f1⟩ := r
        obtain ⟨⟨s2, q2, k2⟩, f2⟩ := r'
        rintro ⟨h1, h2, h3⟩
        simp only [Prod.mk.injEq] at h1 h2 h3
        obtain ⟨rfl, rfl⟩ := h2
        subst h3
        cases f2 with
        | true => exact ⟨h1, rfl, rfl⟩
        | false => exact ih _ _ _ h1 _ _

theorem niteration_same (qp : QP.Solver) (eq : Y → Y → Bool)
    (alt : Option ((X → Y → W → Bool → Y) × (X → W → Y))) (cfg : NSlack.Config) (samples : List (X × Y))
    (it : ℕ) (intr : ℕ → Option Phase) (st st' : NSlack.St X Y) (hst : SameSt st st') :
    SameResult (fun r r' => SameSt r.1 r'.1 ∧ r'.2 = r.2) (NSlack.iteration qp eq alt cfg samples it intr st)
      (NSlack.iteration qp eq alt cfg samples it intr st') := by
  unfold NSlack.iteration
  cases batches (indexed samples) cfg.batchSize with
  | error err => rfl
  | ok bs =>
    simp only
    have h := runBatches_same qp eq cfg samples.length intr bs 0 st st' hst 0 0
    revert h
    cases runBatches qp eq cfg samples.length intr bs 0 (st, 0, 0) with
    | error err =>
      cases runBatches qp eq cfg samples.length intr bs 0 (st', 0, 0) with
      | error err' => exact fun h => h
      | ok r => exact fun h => h.elim
    | ok r =>
      cases runBatches qp eq cfg samples.length intr bs 0 (st', 0, 0) with
      | error err' => exact fun h => h.elim
      | ok r' =>
        obtain ⟨⟨s1, q1, k1⟩, f1⟩ := r
        obtain ⟨⟨s2, q2, k2⟩, f2⟩ := r'
        rintro ⟨⟨lc, h1⟩, h2, h3⟩
        simp only [Prod.mk.injEq] at h1 h2 h3
        obtain ⟨rfl, rfl⟩ := h2
        subst h3 h1
        cases f2 with
        | true => exact ⟨⟨lc, rfl⟩, rfl⟩
        | false =>
          simp only
          cases s1.objective with
          | none => rfl
          | some obj =>
            simp only
            by_cases hs : (decide (k2 = 0) || converged cfg.tol it s1.objectiveCurve obj) = true
            · rw [if_pos hs, if_pos hs]
              rcases s1.switched with _ | _
              · rcases alt with _ | ⟨la, inf⟩
                · exact ⟨⟨_, rfl⟩, rfl⟩
                · exact ⟨⟨_, rfl⟩, rfl⟩
              · exact ⟨⟨_, rfl⟩, rfl⟩
            · rw [if_neg hs, if_neg hs]
              exact ⟨⟨_, rfl⟩, rfl⟩

theorem nloop_same (qp : QP.Solver) (eq : Y → Y → Bool)
    (alt : Option ((X → Y → W → Bool → Y) × (X → W → Y))) (cfg : NSlack.Config) (samples : List (X × Y))
    (intr : ℕ → ℕ → Option Phase) (fuel it : ℕ) (st st' : NSlack.St X Y) (hst : SameSt st st') :
    SameResult (fun r r' => SameSt r.1 r'.1 ∧ r'.2 = r.2) (NSlack.loop qp eq alt cfg samples intr fuel it st)
      (NSlack.loop qp eq alt cfg samples intr fuel it st') := by
  induction fuel generalizing it st st' with
  | zero => exact ⟨hst, rfl⟩
  | succ fuel ih =>
    unfold NSlack.loop
    have h := niteration_same qp eq alt cfg samples it (intr it) st st' hst
    revert h
    cases NSlack.iteration qp eq alt cfg samples it (intr it) st with
    | error err =>
      cases NSlack.iteration qp eq alt cfg samples it (intr it) st' with
      | error err' => exact fun h => h
      | ok r => exact fun h => h.elim
    | ok r =>
      cases NSlack.iteration qp eq alt cfg samples it (intr it) st' with
      | error err' => exact fun h => h.elim
      | ok r' =>
        obtain ⟨s1, o1⟩ := r
        obtain ⟨s2, o2⟩ := r'
        rintro ⟨h1, h2⟩
        simp only at h1 h2
        subst h2
        cases o2 with
        | goOn => exact ih _ _ _ h1
        | interrupted => exact ⟨h1, rfl⟩
        | stopped b => exact ⟨h1, rfl⟩

/-- **C51, n-slack.** Without given constraints, `fit` of a learner that was fitted before, in whatever way,
leads to the same attributes and to the same way of stopping, or to the same exception, as `fit` of a fresh
learner. Only `loss_curve_` is continued. -/
theorem C51_n_slack (m : SModel X Y) (qp : QP.Solver) (eq : Y → Y → Bool)
    (alt : Option ((X → Y → W → Bool → Y) × (X → W → Y))) (intr : ℕ → ℕ → Option Phase)
    (o : NSlack.Obj Y) (samples : List (X × Y)) :
    SameResult (fun r r' => r'.1.attrs = r.1.attrs ∧ r'.2 = r.2)
      (NSlack.fit m qp eq alt intr ⟨o.cfg, none, []⟩ samples none) (NSlack.fit m qp eq alt intr o samples none) := by
  unfold NSlack.fit NSlack.start
  simp only
  have h := nloop_same qp eq alt o.cfg samples intr o.cfg.maxIter 0
    ⟨m, false, fun _ => 0, fun _ => [], fun _ => [], [], [], [], none⟩
    ⟨m, false, fun _ => 0, fun _ => [], fun _ => [], [], [], o.lossCurve, none⟩ ⟨_, rfl⟩
  revert h
  cases NSlack.loop qp eq alt o.cfg samples intr o.cfg.maxIter 0
      ⟨m, false, fun _ => 0, fun _ => [], fun _ => [], [], [], [], none⟩ with
  | error err =>
    cases NSlack.loop qp eq alt o.cfg samples intr o.cfg.maxIter 0
        ⟨m, false, fun _ => 0, fun _ => [], fun _ => [], [], [], o.lossCurve, none⟩ with
    | error err' => exact fun h => h
    | ok r => exact fun h => h.elim
  | ok r =>
    cases NSlack.loop qp eq alt o.cfg samples intr o.cfg.maxIter 0
        ⟨m, false, fun _ => 0, fun _ => [], fun _ => [], [], [], o.lossCurve, none⟩ with
    | error err' => exact fun h => h.elim
    | ok r' =>
      obtain ⟨s1, o1⟩ := r
      obtain ⟨s2, o2⟩ := r'
      rintro ⟨⟨lc, h1⟩, h2⟩
      simp only at h1 h2
      subst h1 h2
      simp only
      by_cases h0 : o.cfg.maxIter = 0
      · rw [if_pos h0, if_pos h0]; rfl
      · rw [if_neg h0, if_neg h0]
        cases objectivePrimal s1.model s1.w samples o.cfg.C true with
        | error err => rfl
        | ok primal =>
          simp only
          cases s1.objective with
          | none => rfl
          | some obj => exact ⟨rfl, rfl⟩

/-! ### C67 -/

/-- a batch without violated constraints changes nothing. -/
theorem runBatches_nothing {qp : QP.Solver} {eq : Y → Y → Bool} {cfg : NSlack.Config} {n : ℕ}
    {intr : ℕ → Option Phase} (st : NSlack.St X Y) (bs : List (List (ℕ × X × Y)))
    (h : ∀ b ∈ bs, ∀ p ∈ b, (found st.model st.w p.2).slack < 1 / 10 ^ 5 ∨ (found st.model st.w p.2).loss ≤ 0)
    (j : ℕ) (s : ℚ) :
    ∃ s' fl, runBatches qp eq cfg n intr bs j (st, s, 0) = .ok ((st, s', 0), fl) := by
  have hadd : ∀ b : List (ℕ × X × Y), (∀ p ∈ b, (found st.model st.w p.2).slack < 1 / 10 ^ 5 ∨
      (found st.model st.w p.2).loss ≤ 0) → ∀ s, ∃ s', addAll cfg eq st.model st.w b (st.ws, s, 0) =
        .ok (st.ws, s', 0) := by
    intro b
    induction b with
    | nil => intro _ s; exact ⟨s, rfl⟩
    | cons p b ih =>
      intro hb s
      have h1 : addNew cfg eq st.model st.w (st.ws, s, 0) p =
          .ok (st.ws, s + (found st.model st.w p.2).slack, 0) := by
        unfold addNew
        simp only
        change (if ¬ 0 < (found st.model st.w p.2).loss then _ else _) = _
        by_cases hl : 0 < (found st.model st.w p.2).loss
        · rw [if_neg (not_not.mpr hl)]
          have hs := (hb p (by simp)).resolve_right (not_le.mpr hl)
          have : NSlack.checkBad cfg eq st.model.dim st.w
              (findConstraint st.model p.2.1 p.2.2 st.w none true true).yhat
              (findConstraint st.model p.2.1 p.2.2 st.w none true true).slack (st.ws p.1) = .ok true := by
            unfold NSlack.checkBad
            exact if_pos hs
          rw [this]
          rfl
        · rw [if_pos hl]
          rfl
      unfold addAll
      rw [h1]
      exact ih (fun p hp => hb p (by simp [hp])) _
  induction bs generalizing j s with
  | nil => exact ⟨s, false, rfl⟩
  | cons b bs ih =>
    obtain ⟨s1, h1⟩ := hadd b (h b (by simp)) s
    unfold runBatches
    have h2 : ∃ s' fl, runBatch qp eq cfg n (intr j) b (st, s, 0) = .ok ((st, s', 0), fl) := by
      unfold runBatch
      by_cases hi : intr j = some .search
      · rw [if_pos hi]; exact ⟨_, _, rfl⟩
      · rw [if_neg hi]
        simp only [h1]
        by_cases hi2 : intr j = some .qp
        · rw [if_pos hi2]; exact ⟨_, _, rfl⟩
        · rw [if_neg hi2, if_pos trivial]; exact ⟨_, _, rfl⟩
    obtain ⟨s2, fl, h2⟩ := h2
    rw [h2]
    cases fl with
    | true => exact ⟨_, _, rfl⟩
    | false => exact ih (fun b hb => h b (by simp [hb])) _ _

/-- batches exist for every valid batch size. -/
theorem batches_exist {α : Type} (data : List α) (hd : data ≠ []) (b : ℤ) (hb : b = -1 ∨ 0 < b) :
    ∃ bs, batches data b = .ok bs := by
  have hlen : 0 < (data.length : ℤ) := by
    have := List.length_pos_of_ne_nil hd
    exact_mod_cast this
  unfold batches
  simp only
  rw [if_neg (by omega)]
  have hb' : 0 < (if b = -1 then (data.length : ℤ) else b) := by split_ifs <;> omega
  rw [if_neg (by omega)]
  obtain ⟨sl, hsl⟩ := (even_slices (if b = -1 then (data.length : ℤ) else b) data).2.mpr ⟨hd, hb'⟩
  rw [hsl]
  exact ⟨_, rfl⟩

/-- **C67 is violated by NSlackSSVM too.** If no sample has a violated constraint at the weights 0, `fit` ends
with `UnboundLocalError`, for every valid batch size, every solver and every `max_iter` (including 0). -/
theorem C67_violated_n_slack (m : SModel X Y) (qp : QP.Solver) (eq : Y → Y → Bool)
    (alt : Option ((X → Y → W → Bool → Y) × (X → W → Y))) (intr : ℕ → ℕ → Option Phase)
    (o : NSlack.Obj Y) (samples : List (X × Y)) (hne : samples ≠ [])
    (hb : o.cfg.batchSize = -1 ∨ 0 < o.cfg.batchSize)
    (h : ∀ s ∈ samples, (findConstraint m s.1 s.2 (fun _ => 0) none true true).slack < 1 / 10 ^ 5 ∨
      m.lossOf s.2 (m.lossAug s.1 s.2 (fun _ => 0) true) ≤ 0) :
    NSlack.fit m qp eq alt intr o samples none = .error .unboundLocalError := by
  unfold NSlack.fit NSlack.start
  simp only
  set st0 : NSlack.St X Y := ⟨m, false, fun _ => 0, fun _ => [], fun _ => [], [], [], o.lossCurve, none⟩ with hst0
  have hprim : ∃ p, objectivePrimal st0.model st0.w samples o.cfg.C true = .ok p :=
    ⟨_, objectivePrimal_ok _ _ _ _ _ hne⟩
  obtain ⟨p, hp⟩ := hprim
  cases hN : o.cfg.maxIter with
  | zero =>
    unfold NSlack.loop
    simp
  | succ N =>
    unfold NSlack.loop
    have hbs : ∃ bs, batches (indexed samples) o.cfg.batchSize = .ok bs := by
      refine batches_exist _ ?_ _ hb
      intro h0
      have := congrArg List.length h0
      unfold indexed at this
      simp at this
      exact hne this
    obtain ⟨bs, hbs⟩ := hbs
    have hgood := batches_good hbs
    obtain ⟨s', fl, hr⟩ := runBatches_nothing (qp := qp) (eq := eq) (cfg := o.cfg) (n := samples.length)
      (intr := intr 0) st0 bs (by
        intro b hb q hq
        exact h q.2 (List.mem_of_getElem? ((hgood b hb).2 q hq))) 0 0
    have hit : NSlack.iteration qp eq alt o.cfg samples 0 (intr 0) st0 = .ok (st0, .interrupted) ∨
        NSlack.iteration qp eq alt o.cfg samples 0 (intr 0) st0 = .error .unboundLocalError := by
      unfold NSlack.iteration
      rw [hbs]
      simp only
      rw [hr]
      cases fl with
      | true => exact .inl rfl
      | false => exact .inr rfl
    rcases hit with hit | hit
    · rw [hit]
      simp only
      rw [if_neg (by simp), hp]
    · rw [hit]

/-- the hypotheses of `C67_violated_n_slack` hold if there is a single output. -/
example : ∀ s ∈ [((), 0)],
    (findConstraint (tableModel 1 1 (fun _ => vec2 1 0) (fun _ => 1)) s.1 s.2 (fun _ => 0) none true true).slack <
      1 / 10 ^ 5 ∨ (tableModel 1 1 (fun _ => vec2 1 0) (fun _ => 1)).lossOf s.2
        ((tableModel 1 1 (fun _ => vec2 1 0) (fun _ => 1)).lossAug s.1 s.2 (fun _ => 0) true) ≤ 0 := by
  decide +kernel

/-! ### C70 -/

/-- **C70 is violated on learners that were not fitted.** The documentation offers `constraints` for warm starts.
On a learner without a previous fit they never work: if they fit the number of samples and the QP can be solved,
`fit` ends with `AttributeError`. -/
theorem C70_violated_fresh (m : SModel X Y) (qp : QP.Solver) (eq : Y → Y → Bool)
    (alt : Option ((X → Y → W → Bool → Y) × (X → W → Y))) (intr : ℕ → ℕ → Option Phase)
    (o : NSlack.Obj Y) (ho : o.attrs = none) (samples : List (X × Y)) (cs : List (List (NCon Y))) :
    (∀ r, NSlack.fit m qp eq alt intr o samples (some cs) ≠ .ok r) ∧
    (0 < o.cfg.maxIter → cs.length = samples.length →
      (∃ sol, NSlack.solveQP qp m.dim o.cfg.negativity o.cfg.C samples.length (fun i => cs.getD i []) = .ok sol) →
      NSlack.fit m qp eq alt intr o samples (some cs) = .error .attributeError) := by
  constructor
  · intro r h
    obtain ⟨st0, -, -, -, hs, -⟩ := fit_ok (o' := r.1) (out := r.2) h
    rcases start_ok hs with ⟨h0, -⟩ | ⟨-, a, -, ha, -⟩
    · cases h0
    · rw [ho] at ha; cases ha
  · rintro hN hlen ⟨sol, hsol⟩
    unfold NSlack.fit NSlack.start
    simp only
    rw [if_neg (not_not.mpr hlen), hsol, ho]
    simp only
    rw [if_neg (by omega)]

/-- one sample, one given constraint: the hypotheses of `C70_violated_fresh` can be met. -/
example : (NSlack.solveQP zeroLossSolver exampleTable.dim none 1 1
    (fun i => [[exampleCon 0]].getD i [])).toOption.map QP.Solution.x = some [1 / 4] := by decide +kernel

/-- **C70 is violated for new constraints.** On a fitted learner with a positive `inactive_window`, constraints
are only accepted if for each sample that has some their number is that of the last fit, or larger by one:
otherwise `fit` ends with `IndexError`. -/
theorem C70_violated_other (m : SModel X Y) (qp : QP.Solver) (eq : Y → Y → Bool)
    (alt : Option ((X → Y → W → Bool → Y) × (X → W → Y))) (intr : ℕ → ℕ → Option Phase)
    (o : NSlack.Obj Y) (a : Attrs Y) (ho : o.attrs = some a) (hw : o.cfg.inactiveWindow ≠ 0)
    (samples : List (X × Y)) (hn : samples.length ≤ a.n) (cs : List (List (NCon Y)))
    (hlen : cs.length = samples.length) (i : ℕ) (l : List (NCon Y)) (hi : cs[i]? = some l) (hl : l ≠ [])
    (hdiff : l.length < (a.lastActive i).length ∨ (a.lastActive i).length + 1 < l.length)
    (hsol : ∃ sol, NSlack.solveQP qp m.dim o.cfg.negativity o.cfg.C samples.length (fun i => cs.getD i []) =
      .ok sol) :
    NSlack.fit m qp eq alt intr o samples (some cs) = .error .indexError := by
  obtain ⟨sol, hsol⟩ := hsol
  have hprune : NSlack.prune o.cfg samples.length (fun i => cs.getD i []) a.lastActive sol.x =
      .error .indexError := by
    unfold NSlack.prune
    rw [if_neg hw, if_pos]
    rw [List.any_eq_true]
    obtain ⟨hlt, rfl⟩ := List.getElem?_eq_some_iff.mp hi
    refine ⟨i, List.mem_range.mpr (by omega), ?_⟩
    have hg : cs.getD i [] = cs[i] := by simp [List.getD_eq_getElem?_getD, hlt]
    simp only [hg, Bool.and_eq_true, Bool.not_eq_true', decide_eq_true_eq]
    constructor
    · simpa using hl
    · unfold grown
      rcases hdiff with h | h
      · rw [if_neg (by omega)]; omega
      · rw [if_pos (by omega), List.length_append, List.length_singleton]; omega
  unfold NSlack.fit NSlack.start
  simp only
  rw [if_neg (not_not.mpr hlen), hsol, ho]
  simp only
  rw [if_neg (by omega)]
  unfold NSlack.solve
  simp only [hsol, hprune]

/-- a learner fitted to one sample, without constraints left. -/
def fittedNS : NSlack.Obj ℕ :=
  ⟨(exampleNS 10 1 100 50).cfg, some ⟨1, fun _ => 0, fun _ => [], fun _ => [], [0], [0]⟩, []⟩

/-- solver for two constraints of one sample. -/
def wideSolver2 : QP.Solver := nTable 4 1 1 [⟨[[wideCon 1, wideCon 2]], [1 / 10000, 1 / 10000], [0]⟩]

/-- two new constraints for one sample: `IndexError`. -/
example : NSlack.fit wideTable wideSolver2 natBeq none (fun _ _ => none) fittedNS [((), 0)]
    (some [[wideCon 1, wideCon 2]]) = .error .indexError := by
  refine C70_violated_other _ _ _ _ _ _ _ rfl (by decide) _ (by decide) _ rfl 0 _ rfl (by simp) (.inr (by decide)) ?_
  have : (NSlack.solveQP wideSolver2 wideTable.dim none 1 1
    (fun i => [[wideCon 1, wideCon 2]].getD i [])).toOption.isSome = true := by decide +kernel
  revert this
  change _ → ∃ sol, NSlack.solveQP wideSolver2 wideTable.dim none 1 1 (fun i => [[wideCon 1, wideCon 2]].getD i []) =
    .ok sol
  cases NSlack.solveQP wideSolver2 wideTable.dim none 1 1 (fun i => [[wideCon 1, wideCon 2]].getD i []) with
  | error err => intro h; cases h
  | ok sol => exact fun _ => ⟨sol, rfl⟩

/-! ### C71 -/

/-- **C71 is violated: `primal_objective_curve_` is not the primal objective.** Two samples in one batch, exact
solver and exact inference; the first entry of `primal_objective_curve_`, documented as the primal objective after
the first pass, is 17/8. The risk of the weights before this pass is 2, that of the weights after it (which do not
change any more) is 1/8. -/
theorem C71_violated :
    QP.Exact exampleNSolver ∧
    (problemOf exampleTable (fun _ => {y | y < 2})).ExactLossAug (fun x y w => exampleTable.lossAug x y w true) ∧
    ∃ o a, NSlack.fit exampleTable exampleNSolver natBeq none (fun _ _ => none) (exampleNS 10 1 100 50)
        [((), 0), ((), 0)] none = .ok (o, .stopped true) ∧ o.attrs = some a ∧
      a.primalCurve = [17 / 8, 1 / 8, 1 / 8] ∧
      (∃ o1 a1, NSlack.fit exampleTable exampleNSolver natBeq none (fun _ _ => none) (exampleNS 1 1 100 50)
        [((), 0), ((), 0)] none = .ok (o1, .goOn) ∧ o1.attrs = some a1 ∧
        (problemOf exampleTable (fun _ => {y | y < 2})).IsObjective 1 [((), 0), ((), 0)] a1.w (1 / 8)) ∧
      (problemOf exampleTable (fun _ => {y | y < 2})).IsObjective 1 [((), 0), ((), 0)] (fun _ => 0) 2 := by
  have hl : (problemOf exampleTable (fun _ => {y | y < 2})).Labelled [((), 0), ((), 0)] := by
    intro s hs
    have hs' : s = ((), 0) := by simpa using hs
    subst hs'
    exact ⟨(by decide : 0 < 2), by decide +kernel⟩
  have hLA := tableModel_exact 1 2 (fun y => if y = 1 then vec2 2 0 else vec2 0 0) (fun _ => 1) true
  refine ⟨exampleNSolver_exact, hLA, ?_⟩
  have key : ∀ N out pc, (do
      let (o, out) ← NSlack.fit exampleTable exampleNSolver natBeq none (fun _ _ => none)
        (exampleNS N 1 100 50) [((), 0), ((), 0)] none
      match o.attrs with
      | none => .error .valueError
      | some a =>
        let p ← objectivePrimal exampleTable a.w [((), 0), ((), 0)] 1 true
        pure (p, a.primalCurve, out)) = .ok (1 / 8, pc, out) →
      ∃ o a, NSlack.fit exampleTable exampleNSolver natBeq none (fun _ _ => none) (exampleNS N 1 100 50)
        [((), 0), ((), 0)] none = .ok (o, out) ∧ o.attrs = some a ∧ a.primalCurve = pc ∧
        (problemOf exampleTable (fun _ => {y | y < 2})).IsObjective 1 [((), 0), ((), 0)] a.w (1 / 8) := by
    intro N out pc key
    obtain ⟨⟨o, out⟩, ho, h1⟩ := bind_eq_ok.mp key
    simp only at h1
    cases ha : o.attrs with
    | none => rw [ha] at h1; cases h1
    | some a =>
      rw [ha] at h1
      obtain ⟨p, hp, h2⟩ := bind_eq_ok.mp h1
      simp only [pure, Except.pure, Except.ok.injEq, Prod.mk.injEq] at h2
      obtain ⟨rfl, h3, rfl⟩ := h2
      refine ⟨o, a, ho, ha, h3, ?_⟩
      obtain ⟨obj, hob, hiso⟩ := C30_objective exampleTable (fun _ => {y | y < 2}) hLA [((), 0), ((), 0)] hl
        (by simp) a.w 1 true
      rw [hp, Except.ok.injEq] at hob
      rw [hob]
      exact hiso
  obtain ⟨o, a, h1, h2, h3, -⟩ := key 10 (.stopped true) [17 / 8, 1 / 8, 1 / 8] (by decide +kernel)
  obtain ⟨o1, a1, g1, g2, -, g4⟩ := key 1 .goOn [17 / 8, 1 / 8] (by decide +kernel)
  refine ⟨o, a, h1, h2, h3, ⟨o1, a1, g1, g2, g4⟩, ?_⟩
  obtain ⟨obj, hob, hiso⟩ := C30_objective exampleTable (fun _ => {y | y < 2}) hLA [((), 0), ((), 0)] hl (by simp)
    (fun _ => 0) 1 true
  have : objectivePrimal exampleTable (fun _ => 0) [((), 0), ((), 0)] 1 true = .ok 2 := by decide +kernel
  rw [this, Except.ok.injEq] at hob
  rw [hob]
  exact hiso

/-! ### C72 -/

/-- joint features of the example. -/
def resetFeature (y : ℕ) : W :=
  if y = 1 then vec2 (-2) 5 else if y = 2 then vec2 1 1 else if y = 3 then vec2 (-1) (-2)
  else if y = 4 then vec2 (-1) 3 else vec2 0 0

/-- losses of the example. -/
def resetLoss (y : ℕ) : ℚ := if y = 3 then 4 else 8

/-- five outputs, two features. -/
def resetTable : SModel Unit ℕ := tableModel 2 5 resetFeature resetLoss

/-- the constraint of an output. -/
def resetCon (y : ℕ) : NCon ℕ := ⟨y, resetFeature y, resetLoss y⟩

/-- working sets and optima that occur. -/
def resetProblems : List NEntry :=
  [⟨[[resetCon 1]], [8 / 29], [0]⟩, ⟨[[resetCon 1, resetCon 2]], [0, 2], [4]⟩,
   ⟨[[resetCon 1, resetCon 2, resetCon 3]], [10 / 289, 430 / 289, 138 / 289], [108 / 17]⟩,
   ⟨[[resetCon 1, resetCon 2, resetCon 3, resetCon 4]], [0, 7 / 5, 12 / 25, 3 / 25], [32 / 5]⟩]

/-- **C72 is violated: the inactivity counter is never reset.** The documentation says that a constraint is pruned
if it is inactive for `inactive_window` iterations. With `inactive_window=1` and `C=2`, exact solver and exact
inference, training solves four QPs; their optima are those of `resetProblems`. The constraint of output 1 is
inactive in the second QP, active in the third and inactive in the fourth one. It is removed after the fourth,
although it was active just before. -/
theorem C72_violated :
    QP.Exact (nTable 2 2 1 resetProblems) ∧
    (problemOf resetTable (fun _ => {y | y < 5})).ExactLossAug (fun x y w => resetTable.lossAug x y w true) ∧
    (∀ N ∈ [1, 2, 3, 4], (NSlack.fit resetTable (nTable 2 2 1 resetProblems) natBeq none (fun _ _ => none)
      (exampleNS N 2 100 1) [((), 0)] none).toOption.bind (fun o => o.1.attrs.map fun a =>
        ((a.constraints 0).map NCon.yhat, a.w 0, a.w 1)) =
      (resetProblems[N - 1]?).map fun e =>
        (if N = 4 then [2, 3, 4] else ((e.sets 0).map NCon.yhat), e.w 1 0, e.w 1 1)) := by
  refine ⟨nTable_exact _ _ _ _ (by decide +kernel), tableModel_exact _ _ _ _ _, by decide +kernel⟩

end Verif.Props
