import Verif.Lemmas.Plot
import Verif.Props.C138

/-!
# C139: `plot_learning` draws the curves of every trained learner
-/

namespace Verif.Props

open Verif.Learner Verif.Timing Verif.Spec Verif.Lemmas Verif.Plot

variable {X Y H : Type}

/-! ### One-slack learner -/

/-- A one-slack learner, with its timestamps, after one or more successful calls of `fit` without interrupt; model,
data, solver and the kind of warm start may be different every time. -/
inductive TrainedOS : OneSlack.Obj Y × List ℚ → Prop
  | first {X : Type} {clock : ℕ → ℚ} {m : SModel X Y} {qp : QP.Solver} {eq : Y → Y → Except PyErr Bool}
      {alt : Option ((X → Y → W → Bool → Y) × (X → W → Y))} {s s' : OneSlack.Obj Y × List ℚ} {samples : List (X × Y)}
      (h : oneFit clock m qp eq alt (fun _ => none) s samples .no = .ok s') : TrainedOS s'
  | more {X : Type} {clock : ℕ → ℚ} {m : SModel X Y} {qp : QP.Solver} {eq : Y → Y → Except PyErr Bool}
      {alt : Option ((X → Y → W → Bool → Y) × (X → W → Y))} {s s' : OneSlack.Obj Y × List ℚ} {samples : List (X × Y)}
      {warm : OneSlack.Warm} (hs : TrainedOS s)
      (h : oneFit clock m qp eq alt (fun _ => none) s samples warm = .ok s') : TrainedOS s'

theorem last_false {l : List Bool} (h : l.getLast? = some false) : false ∈ l := List.mem_of_getLast? h

theorem trainedOS_inv {s : OneSlack.Obj Y × List ℚ} (h : TrainedOS s) :
    ∃ a, s.1.attrs = some a ∧ 2 ≤ a.objectiveCurve.length ∧ a.primalCurve.length = a.objectiveCurve.length ∧
      a.cachedFlags.length = a.objectiveCurve.length ∧ s.2.length = a.objectiveCurve.length + 1 ∧
      false ∈ a.cachedFlags := by
  induction h with
  | @first X clock m qp eq alt s s' samples h =>
    obtain ⟨o, ts⟩ := s
    obtain ⟨o', ts'⟩ := s'
    obtain ⟨n, a, h1, h2, h3, h4, h5, h6⟩ := C138_one_slack h
    obtain ⟨_, _, a', _, _, e1, _, _, _, _, e2, _⟩ := one_fit_counts h
    rw [h2, Option.some.injEq] at e1
    subst e1
    have h6 := h6 fun _ => rfl
    refine ⟨a, h2, by omega, by omega, by omega, ?_, last_false e2⟩
    simp only
    rw [h3, h6]
    simp [totalTimes]
  | @more X clock m qp eq alt s s' samples warm hs h ih =>
    obtain ⟨o, ts⟩ := s
    obtain ⟨o', ts'⟩ := s'
    obtain ⟨a0, i1, i2, i3, i4, i5, -⟩ := ih
    obtain ⟨st, n, a, e0, e1, e2, _, e3, e4, e5, e6, e7, _⟩ := one_fit_counts h
    have e7 := e7 fun _ => rfl
    simp only at i1 i5
    cases ts with
    | nil => simp at i5
    | cons t0 r =>
      cases warm with
      | no =>
        simp only [OneSlack.start, Except.ok.injEq] at e0
        subst e0
        simp only [List.length_nil, Nat.zero_add] at e4 e5 e7
        refine ⟨a, e2, by omega, by omega, by omega, ?_, last_false e6⟩
        simp only
        rw [e3, oneStart, push_times, e7]
        simp [totalTimes]
      | soft =>
        unfold OneSlack.start at e0
        rw [i1] at e0
        simp only [Except.ok.injEq] at e0
        subst e0
        simp only at e4 e5 e7
        refine ⟨a, e2, by omega, by omega, by omega, ?_, last_false e6⟩
        simp only
        rw [e3, oneStart, push_times, e7]
        · simp only [List.cons_append, List.length_cons, List.length_append, totalTimes, List.length_map,
            List.length_range] at i5 ⊢
          omega
        · simp
      | yes =>
        obtain ⟨w, cs, al, oc, pc, fl, ca⟩ := a0
        unfold OneSlack.start at e0
        rw [i1] at e0
        cases cs with
        | none => cases e0
        | some cs =>
          simp only [Except.ok.injEq] at e0
          subst e0
          simp only at e4 e5 e7 i2 i3 i4 i5
          refine ⟨a, e2, by omega, by omega, by omega, ?_, last_false e6⟩
          simp only
          rw [e3, oneStart, push_times, e7]
          · simp only [List.cons_append, List.length_cons, List.length_append, totalTimes, List.length_map,
              List.length_range] at i5 ⊢
            omega
          · simp

/-- **One-slack learner**: `plot_learning` draws the two objective curves completely, and marks exactly the primal
values that come from a run of inference and not from the cache. -/
theorem C139_one_slack {o : OneSlack.Obj Y} {ts : List ℚ} (h : TrainedOS (o, ts)) (time : Bool) :
    ∃ a fig, o.attrs = some a ∧ plotLearning time (ofOneSlack (o, ts)) = .ok fig ∧ fig.byTime = time ∧
      Shows (place time ts a.objectiveCurve.length) a.objectiveCurve fig.dual ∧
      (∃ c, fig.primal = some c ∧ Shows (place time ts a.objectiveCurve.length) a.primalCurve c) ∧
      ∃ c, fig.inference = some c ∧
        Marks (place time ts a.objectiveCurve.length) a.primalCurve (fun i => !a.cachedFlags.getD i true) c := by
  obtain ⟨a, h1, h2, h3, h4, h5, h6⟩ := trainedOS_inv h
  simp only at h1 h5
  have ha : ofOneSlack (o, ts) = ⟨some a.objectiveCurve, some a.primalCurve, some a.cachedFlags, existing o.lossCurve,
      some ts, o.cfg.showLossEvery⟩ := by unfold ofOneSlack; simp only [h1]
  obtain ⟨fig, f1, f2, f3, -, f4, -, f5, -⟩ := plot_ok (time := time) (a := ofOneSlack (o, ts)) (obj := a.objectiveCurve)
    (by rw [ha]) (by rintro h; rw [h] at h2; simp at h2)
    (by rw [ha]; intro _ _ h; cases h; exact ⟨h2, by omega⟩) (by rw [ha]; intro _ h; cases h; exact h3)
    (by rw [ha]; intro _ h; cases h; exact ⟨h4, h6, by simp⟩)
  rw [ha] at f2 f3 f4 f5
  simp only [Option.isSome_some, Bool.and_true, Option.getD_some] at f2 f3 f4 f5
  rw [f2] at f3 f4 f5
  exact ⟨a, fig, h1, f1, f2, f3, f4 _ rfl, f5 _ _ rfl rfl⟩

/-- An interrupt while the QP is solved leaves a primal value without dual value; then `plot_learning` raises
`ValueError`. -/
theorem C139_violated_interrupt {clock : ℕ → ℚ} {m : SModel X Y} {qp : QP.Solver} {eq : Y → Y → Except PyErr Bool}
    {alt : Option ((X → Y → W → Bool → Y) × (X → W → Y))} {intr : ℕ → Option OneSlack.Phase}
    {o o' : OneSlack.Obj Y} {ts ts' : List ℚ} {samples : List (X × Y)} {a : OneSlack.Attrs Y}
    (h : oneFit clock m qp eq alt intr (o, ts) samples .no = .ok (o', ts')) (ha : o'.attrs = some a)
    (h2 : 2 ≤ a.objectiveCurve.length) (hlt : a.objectiveCurve.length < a.primalCurve.length) (time : Bool) :
    plotLearning time (ofOneSlack (o', ts')) = .error .valueError := by
  obtain ⟨n, a', -, e1, e2, e3, e4, -⟩ := C138_one_slack h
  obtain ⟨_, _, a'', _, _, e5, _, _, _, _, e6, _⟩ := one_fit_counts h
  rw [ha, Option.some.injEq] at e1 e5
  subst e1
  subst e5
  have hA : ofOneSlack (o', ts') = ⟨some a.objectiveCurve, some a.primalCurve, some a.cachedFlags, existing o'.lossCurve,
      some ts', o'.cfg.showLossEvery⟩ := by unfold ofOneSlack; simp only [ha]
  have hr := inferenceRun_ok (a := ofOneSlack (o', ts')) (f := a.cachedFlags) (p := a.primalCurve) (by rw [hA])
    (by rw [hA]) (by omega) (last_false e6)
  have hp := positions_ok (time := time) (a := ofOneSlack (o', ts')) (n := a.objectiveCurve.length) (by
    rw [hA]; intro _ _ h; cases h; refine ⟨h2, ?_⟩; rw [e2]; simp [totalTimes]; omega)
  obtain ⟨d, hd, -⟩ := curve_shows (pos := place (time && (ofOneSlack (o', ts')).timestamps.isSome)
    ((ofOneSlack (o', ts')).timestamps.getD []) a.objectiveCurve.length) (n := a.objectiveCurve.length)
    (ys := a.objectiveCurve) rfl
  have hc : primalCurve (ofOneSlack (o', ts')) ((List.range a.objectiveCurve.length).map
      (place (time && (ofOneSlack (o', ts')).timestamps.isSome) ((ofOneSlack (o', ts')).timestamps.getD [])
        a.objectiveCurve.length)) = .error .valueError := by
    unfold primalCurve
    rw [hA]
    simp only
    unfold curve
    rw [if_neg (by simp; omega)]
  have ho : (ofOneSlack (o', ts')).objective = some a.objectiveCurve := by rw [hA]
  unfold plotLearning
  rw [ho]
  cases hob : a.objectiveCurve with
  | nil => rw [hob] at h2; simp at h2
  | cons x l =>
    rw [hob] at hp hd hc
    simp only
    rw [hr]
    simp only
    rw [hp]
    simp only
    rw [hd]
    simp only
    rw [hc]

/-! ### N-slack learner -/

/-- An n-slack learner after one or more successful calls of `fit`; the first one completed an iteration. -/
inductive TrainedNS : NSlack.Obj Y × List ℚ → Prop
  | first {X : Type} {clock : ℕ → ℚ} {m : SModel X Y} {qp : QP.Solver} {eq : Y → Y → Bool}
      {alt : Option ((X → Y → W → Bool → Y) × (X → W → Y))} {intr : ℕ → ℕ → Option OneSlack.Phase}
      {s s' : NSlack.Obj Y × List ℚ} {samples : List (X × Y)} {out : NSlack.Outcome} (hout : out ≠ .interrupted)
      (h : nFit clock m qp eq alt intr s samples none = .ok (s', out)) : TrainedNS s'
  | more {X : Type} {clock : ℕ → ℚ} {m : SModel X Y} {qp : QP.Solver} {eq : Y → Y → Bool}
      {alt : Option ((X → Y → W → Bool → Y) × (X → W → Y))} {intr : ℕ → ℕ → Option OneSlack.Phase}
      {s s' : NSlack.Obj Y × List ℚ} {samples : List (X × Y)} {cs : List (List (NSlack.NCon Y))} {out : NSlack.Outcome}
      (hs : TrainedNS s) (h : nFit clock m qp eq alt intr s samples (some cs) = .ok (s', out)) : TrainedNS s'

theorem n_start_curves {m : SModel X Y} {qp : QP.Solver} {o : NSlack.Obj Y} {n : ℕ} {cs : List (List (NSlack.NCon Y))}
    {st : NSlack.St X Y} (h : NSlack.start m qp o n (some cs) = .ok st) :
    ∃ a, o.attrs = some a ∧ st.objectiveCurve = a.objectiveCurve ∧ st.primalCurve = a.primalCurve := by
  unfold NSlack.start at h
  simp only at h
  by_cases hl : cs.length ≠ n
  · rw [if_pos hl] at h; cases h
  · rw [if_neg hl] at h
    cases hq : NSlack.solveQP qp m.dim o.cfg.negativity o.cfg.C n (fun i => cs.getD i []) with
    | error e => rw [hq] at h; cases h
    | ok v =>
      rw [hq] at h
      simp only at h
      cases ha : o.attrs with
      | none =>
        rw [ha] at h
        simp only at h
        split_ifs at h
      | some a =>
        rw [ha] at h
        simp only at h
        by_cases hn : a.n < n
        · rw [if_pos hn] at h; cases h
        · rw [if_neg hn] at h
          unfold NSlack.solve at h
          simp only at h
          split at h
          · cases h
          · split at h
            · cases h
            · simp only [Except.ok.injEq] at h
              subst h
              exact ⟨a, rfl, rfl, rfl⟩

theorem trainedNS_inv {s : NSlack.Obj Y × List ℚ} (h : TrainedNS s) :
    ∃ a, s.1.attrs = some a ∧ 2 ≤ a.objectiveCurve.length ∧ a.primalCurve.length = a.objectiveCurve.length ∧
      a.objectiveCurve.length + 1 ≤ s.2.length := by
  induction h with
  | @first X clock m qp eq alt intr s s' samples out hout h =>
    obtain ⟨o, ts⟩ := s
    obtain ⟨o', ts'⟩ := s'
    obtain ⟨n, a, h2, h3, h4, h5, h6⟩ := C138_n_slack h
    have h6 := h6 hout
    refine ⟨a, h2, by omega, by omega, ?_⟩
    simp only
    rw [h3, h4]
    simp [totalTimes]
  | @more X clock m qp eq alt intr s s' samples cs out hs h ih =>
    obtain ⟨o, ts⟩ := s
    obtain ⟨o', ts'⟩ := s'
    obtain ⟨a0, i1, i2, i3, i4⟩ := ih
    obtain ⟨st, n, a, e0, e2, _, e3, e4, e5, _, _⟩ := n_fit_counts h
    obtain ⟨a1, j1, j2, j3⟩ := n_start_curves e0
    simp only at i1 i4
    rw [i1, Option.some.injEq] at j1
    subst j1
    rw [j2] at e4
    rw [j3] at e5
    cases ts with
    | nil => simp at i4
    | cons t0 r =>
      refine ⟨a, e2, by omega, by omega, ?_⟩
      simp only
      rw [e3]
      simp only [Option.isSome_some, if_true]
      rw [push_times, e4]
      simp only [List.cons_append, List.length_cons, List.length_append, totalTimes, List.length_map,
        List.length_range] at i4 ⊢
      omega

/-- **N-slack learner**: `plot_learning` draws the two objective curves completely. -/
theorem C139_n_slack {o : NSlack.Obj Y} {ts : List ℚ} (h : TrainedNS (o, ts)) (time : Bool) :
    ∃ a fig, o.attrs = some a ∧ plotLearning time (ofNSlack (o, ts)) = .ok fig ∧ fig.byTime = time ∧
      Shows (place time ts a.objectiveCurve.length) a.objectiveCurve fig.dual ∧
      (∃ c, fig.primal = some c ∧ Shows (place time ts a.objectiveCurve.length) a.primalCurve c) ∧
      fig.inference = none := by
  obtain ⟨a, h1, h2, h3, h5⟩ := trainedNS_inv h
  simp only at h1 h5
  have ha : ofNSlack (o, ts) = ⟨some a.objectiveCurve, some a.primalCurve, none, existing o.lossCurve,
      some ts, o.cfg.showLossEvery⟩ := by unfold ofNSlack; simp only [h1]
  obtain ⟨fig, f1, f2, f3, -, f4, f5, -, -⟩ := plot_ok (time := time) (a := ofNSlack (o, ts)) (obj := a.objectiveCurve)
    (by rw [ha]) (by rintro h; rw [h] at h2; simp at h2)
    (by rw [ha]; intro _ _ h; cases h; exact ⟨h2, by omega⟩) (by rw [ha]; intro _ h; cases h; exact h3)
    (by rw [ha]; rintro _ h; cases h)
  rw [ha] at f2 f3 f4 f5
  simp only [Option.isSome_some, Bool.and_true, Option.getD_some] at f2 f3 f4 f5
  rw [f2] at f3 f4
  exact ⟨a, fig, h1, f1, f2, f3, f4 _ rfl, f5 trivial⟩

/-! ### Subgradient and Frank-Wolfe learners -/

theorem existing_some {α : Type} {l : List α} (h : l ≠ []) : existing l = some l := by
  cases l with
  | nil => exact absurd rfl h
  | cons x l => rfl

/-- A subgradient learner after one or more successful calls of `fit`. -/
inductive TrainedSub : Subgradient.Obj × List ℚ → Prop
  | first {X Y : Type} {clock : ℕ → ℚ} {m : SModel X Y} {order : ℕ → List (X × Y)} {s s' : Subgradient.Obj × List ℚ}
      {samples : List (X × Y)} (h : subFit clock m order s samples false = .ok s') : TrainedSub s'
  | more {X Y : Type} {clock : ℕ → ℚ} {m : SModel X Y} {order : ℕ → List (X × Y)} {s s' : Subgradient.Obj × List ℚ}
      {samples : List (X × Y)} {warm : Bool} (hs : TrainedSub s)
      (h : subFit clock m order s samples warm = .ok s') : TrainedSub s'

/-- A subgradient learner for latent variables after one or more successful calls of `fit`. -/
inductive TrainedLat : Subgradient.Obj × List ℚ → Prop
  | first {X Y H : Type} {clock : ℕ → ℚ} {L : SubgradientLatent.SLModel X Y H} {jobs : SubgradientLatent.Jobs} {w0 : W}
      {s s' : Subgradient.Obj × List ℚ} {samples : List (X × Y)}
      (h : latFit clock L jobs w0 s samples false = .ok s') : TrainedLat s'
  | more {X Y H : Type} {clock : ℕ → ℚ} {L : SubgradientLatent.SLModel X Y H} {jobs : SubgradientLatent.Jobs} {w0 : W}
      {s s' : Subgradient.Obj × List ℚ} {samples : List (X × Y)} {warm : Bool} (hs : TrainedLat s)
      (h : latFit clock L jobs w0 s samples warm = .ok s') : TrainedLat s'

theorem trainedSub_inv {s : Subgradient.Obj × List ℚ} (h : TrainedSub s) :
    1 ≤ s.1.curves.objective.length ∧ s.2.length = s.1.curves.objective.length + 1 := by
  induction h with
  | @first X Y clock m order s s' samples h =>
    obtain ⟨o, ts⟩ := s
    obtain ⟨o', ts'⟩ := s'
    obtain ⟨n, h1, h2, h3, -⟩ := C138_subgradient h
    simp only
    rw [h2, h3]
    exact ⟨h1, by simp [totalTimes]⟩
  | @more X Y clock m order s s' samples warm hs h ih =>
    obtain ⟨o, ts⟩ := s
    obtain ⟨o', ts'⟩ := s'
    cases warm with
    | false =>
      obtain ⟨n, h1, h2, h3, -⟩ := C138_subgradient h
      simp only
      rw [h2, h3]
      exact ⟨h1, by simp [totalTimes]⟩
    | true =>
      obtain ⟨n, h1, -, h2, -, -⟩ := sub_fit_counts h
      simp only [if_true] at ih h2 ⊢
      cases ts with
      | nil => simp at ih
      | cons t0 r =>
        have e : subStart clock true (t0 :: r) = (t0 - clock 0) :: r.map (· - clock 0) := rfl
        rw [h1, e, push_times]
        simp only [List.cons_append, List.length_cons, List.length_append, totalTimes, List.length_map,
          List.length_range] at ih ⊢
        omega

theorem trainedLat_inv {s : Subgradient.Obj × List ℚ} (h : TrainedLat s) :
    1 ≤ s.1.curves.objective.length ∧ s.1.curves.objective.length + 1 ≤ s.2.length := by
  induction h with
  | @first X Y H clock L jobs w0 s s' samples h =>
    obtain ⟨o, ts⟩ := s
    obtain ⟨o', ts'⟩ := s'
    obtain ⟨n, e, h1, -, h2, h3, -⟩ := C138_latent h
    simp only
    rw [h2, h3]
    exact ⟨h1, by simp [totalTimes]⟩
  | @more X Y H clock L jobs w0 s s' samples warm hs h ih =>
    obtain ⟨o, ts⟩ := s
    obtain ⟨o', ts'⟩ := s'
    cases warm with
    | false =>
      obtain ⟨n, e, h1, -, h2, h3, -⟩ := C138_latent h
      simp only
      rw [h2, h3]
      exact ⟨h1, by simp [totalTimes]⟩
    | true =>
      obtain ⟨n, e, h1, -, h2, -, -, -⟩ := lat_fit_counts h
      simp only [if_true] at ih h2 ⊢
      cases ts with
      | nil => simp at ih
      | cons t0 r =>
        have e : ∃ t, latStart clock true (t0 :: r) = t :: r := by
          unfold latStart
          rw [if_pos rfl]
          cases hg : (t0 :: r).getLast? with
          | none => exact ⟨t0, rfl⟩
          | some v => exact ⟨clock 0 - v, rfl⟩
        obtain ⟨t, e⟩ := e
        rw [h1, e, push_times]
        simp only [List.cons_append, List.length_cons, List.length_append, totalTimes, List.length_map,
          List.length_range] at ih ⊢
        omega

/-- what is drawn for a learner with an objective curve and timestamps. -/
theorem plot_subgradient {o : Subgradient.Obj} {ts : List ℚ} {time : Bool}
    (h1 : 1 ≤ o.curves.objective.length) (h2 : o.curves.objective.length + 1 ≤ ts.length)
    (h3 : time = true → 2 ≤ o.curves.objective.length) :
    ∃ fig, plotLearning time (ofSubgradient (o, ts)) = .ok fig ∧ fig.byTime = time ∧
      Shows (place time ts o.curves.objective.length) o.curves.objective fig.dual ∧ fig.primal = none ∧
      fig.inference = none ∧ fig.loss = Plot.lossCurve (ofSubgradient (o, ts))
        ((List.range o.curves.objective.length).map (place time ts o.curves.objective.length)) := by
  have hne : o.curves.objective ≠ [] := by rintro h; rw [h] at h1; simp at h1
  have hts : ts ≠ [] := by rintro h; rw [h] at h2; simp at h2
  have ha : ofSubgradient (o, ts) = ⟨some o.curves.objective, none, none, existing o.curves.loss, some ts,
      o.cfg.showLossEvery⟩ := by
    unfold ofSubgradient
    simp only [existing_some hne, existing_some hts]
  obtain ⟨fig, f1, f2, f3, f4, -, f5, -, f6⟩ := plot_ok (time := time) (a := ofSubgradient (o, ts))
    (obj := o.curves.objective) (by rw [ha]) hne (by rw [ha]; intro _ ht h; cases h; exact ⟨h3 ht, h2⟩)
    (by rw [ha]; rintro _ h; cases h) (by rw [ha]; rintro _ h; cases h)
  rw [ha] at f2 f3 f4 f5
  have hg : (ofSubgradient (o, ts)).timestamps.getD [] = ts := by rw [ha]; rfl
  rw [hg] at f6
  simp only [Option.isSome_some, Bool.and_true, Option.getD_some] at f2 f3 f4 f5
  rw [f2] at f3 f6
  exact ⟨fig, f1, f2, f3, f4 trivial, f5 trivial, f6⟩

/-- **Subgradient learner**: `plot_learning` draws the objective curve completely, if there was a complete pass over
the data or the x-axis does not show the time. -/
theorem C139_subgradient_partial {o : Subgradient.Obj} {ts : List ℚ} (h : TrainedSub (o, ts)) (time : Bool)
    (h3 : time = true → 2 ≤ o.curves.objective.length) :
    ∃ fig, plotLearning time (ofSubgradient (o, ts)) = .ok fig ∧ fig.byTime = time ∧
      Shows (place time ts o.curves.objective.length) o.curves.objective fig.dual ∧ fig.primal = none ∧
      fig.inference = none := by
  obtain ⟨h1, h2⟩ := trainedSub_inv h
  obtain ⟨fig, f1, f2, f3, f4, f5, -⟩ := plot_subgradient (time := time) h1 h2.ge h3
  exact ⟨fig, f1, f2, f3, f4, f5⟩

/-- **Subgradient learner for latent variables**: likewise. -/
theorem C139_latent_partial {o : Subgradient.Obj} {ts : List ℚ} (h : TrainedLat (o, ts)) (time : Bool)
    (h3 : time = true → 2 ≤ o.curves.objective.length) :
    ∃ fig, plotLearning time (ofSubgradient (o, ts)) = .ok fig ∧ fig.byTime = time ∧
      Shows (place time ts o.curves.objective.length) o.curves.objective fig.dual ∧ fig.primal = none ∧
      fig.inference = none := by
  obtain ⟨h1, h2⟩ := trainedLat_inv h
  obtain ⟨fig, f1, f2, f3, f4, f5, -⟩ := plot_subgradient (time := time) h1 h2 h3
  exact ⟨fig, f1, f2, f3, f4, f5⟩

/-- If no pass over the data was completed (`max_iter=0`, or `break_on_no_constraints` in the first one), then
`plot_learning` raises `IndexError`. -/
theorem C139_violated_no_pass {o : Subgradient.Obj} {ts : List ℚ} (h : TrainedSub (o, ts))
    (h1 : o.curves.objective.length = 1) : plotLearning true (ofSubgradient (o, ts)) = .error .indexError := by
  obtain ⟨-, h2⟩ := trainedSub_inv h
  simp only at h2
  have hne : o.curves.objective ≠ [] := by rintro h; rw [h] at h1; simp at h1
  have hts : ts ≠ [] := by rintro h; rw [h] at h2; simp at h2
  have ha : ofSubgradient (o, ts) = ⟨some o.curves.objective, none, none, existing o.curves.loss, some ts,
      o.cfg.showLossEvery⟩ := by
    unfold ofSubgradient
    simp only [existing_some hne, existing_some hts]
  rw [ha]
  cases hob : o.curves.objective with
  | nil => exact absurd hob hne
  | cons x l =>
    have hl : (x :: l).length = 1 := by rw [← hob]; exact h1
    have : ((ts.take ((x :: l).length + 1)).drop 2).map (· / (60 : ℚ)) = [] := by
      rw [List.map_eq_nil_iff, List.drop_eq_nil_iff, List.length_take, hl]
      omega
    unfold plotLearning
    simp only [inferenceRun, positions]
    rw [this]
    rfl

/-- **Frank-Wolfe learner**: `plot_learning` draws the two objective curves completely. -/
theorem C139_frank_wolfe {clock : ℕ → ℚ} {m : SModel X Y} {order : ℕ → List ℕ} {o o' : FrankWolfe.Obj}
    {ts' : List ℚ} {samples : List (X × Y)} (h : fwFit clock m order o samples = .ok (o', ts')) (time : Bool) :
    ∃ fig, plotLearning time (ofFrankWolfe (o', ts')) = .ok fig ∧ fig.byTime = time ∧
      Shows (place time ts' o'.curves.dual.length) o'.curves.dual fig.dual ∧
      (∃ c, fig.primal = some c ∧ Shows (place time ts' o'.curves.dual.length) o'.curves.primal c) ∧
      fig.inference = none := by
  obtain ⟨n, h1, h2, h3, h4⟩ := C138_frank_wolfe h
  have hlen : ts'.length = n + 1 := by rw [h2]; simp [totalTimes]
  have hd : o'.curves.dual ≠ [] := by rintro h; rw [h] at h3; simp at h3; omega
  have hp : o'.curves.primal ≠ [] := by rintro h; rw [h] at h4; simp at h4; omega
  have hts : ts' ≠ [] := by rw [h2]; simp
  have ha : ofFrankWolfe (o', ts') = ⟨some o'.curves.dual, some o'.curves.primal, none, none, some ts', 0⟩ := by
    unfold ofFrankWolfe
    simp only [existing_some hd, existing_some hp, existing_some hts]
  obtain ⟨fig, f1, f2, f3, -, f4, f5, -, -⟩ := plot_ok (time := time) (a := ofFrankWolfe (o', ts'))
    (obj := o'.curves.dual) (by rw [ha]) hd (by rw [ha]; intro _ _ h; cases h; exact ⟨by omega, by omega⟩)
    (by rw [ha]; intro _ h; cases h; omega) (by rw [ha]; rintro _ h; cases h)
  rw [ha] at f2 f3 f4 f5
  simp only [Option.isSome_some, Bool.and_true, Option.getD_some] at f2 f3 f4 f5
  rw [f2] at f3 f4
  exact ⟨fig, f1, f2, f3, f4 _ rfl, f5 trivial⟩

/-- `plot_learning` raises `AttributeError` for a structured perceptron: it has no objective curve. -/
theorem C139_violated_perceptron (o : Perceptron.Obj) (time : Bool) :
    plotLearning time (ofPerceptron o) = .error .attributeError := rfl

/-! ### The training loss -/

/-- what is drawn for the losses of `k` iterations. -/
theorem loss_drawn {a : Attrs} {l : List ℚ} {pos : ℕ → ℚ} {n k : ℕ} (ha : a.loss = existing l) (hn : n = k + 1)
    (hk0 : k ≠ 0) (he : a.showLossEvery ≠ 0) (hk : l.length = lossCount a.showLossEvery 0 k) :
    l.length = (lossIterations a.showLossEvery (n - 1)).length ∧
    (¬ a.showLossEvery ∣ n - 1 → Plot.lossCurve a ((List.range n).map pos) =
      some (((lossIterations a.showLossEvery (n - 1)).map pos).zip l)) ∧
    (a.showLossEvery ∣ n - 1 → Plot.lossCurve a ((List.range n).map pos) =
      some (((List.range l.length).map fun i : ℕ => (i : ℚ)).zip l)) := by
  subst hn
  rw [Nat.add_sub_cancel]
  have hl : l ≠ [] := by
    rintro rfl
    obtain ⟨k, rfl⟩ := Nat.exists_eq_succ_of_ne_zero hk0
    rw [Nat.succ_eq_add_one, lossCount_zero he] at hk
    simp at hk
  rw [existing_some hl] at ha
  obtain ⟨h1, h2⟩ := lossCurve_drawn (pos := pos) ha he hk
  exact ⟨by rw [hk, lossIterations_length he], h1, h2⟩

/-- **Training loss of the one-slack learner (partial)**: there is a loss for every `show_loss_every`-th iteration. If
the number of iterations is not a multiple of `show_loss_every`, each loss is drawn at the place of its iteration;
otherwise it is drawn at its index, also if the axis is labelled as training time. -/
theorem C139_loss_one_slack_partial {clock : ℕ → ℚ} {m : SModel X Y} {qp : QP.Solver}
    {eq : Y → Y → Except PyErr Bool} {o o' : OneSlack.Obj Y} {ts ts' : List ℚ} {samples : List (X × Y)}
    (h : oneFit clock m qp eq none (fun _ => none) (o, ts) samples .no = .ok (o', ts')) (hl : o.lossCurve = [])
    (he : o.cfg.showLossEvery ≠ 0) (time : Bool) :
    ∃ a fig, o'.attrs = some a ∧ plotLearning time (ofOneSlack (o', ts')) = .ok fig ∧
      o'.lossCurve.length = (lossIterations o.cfg.showLossEvery (a.objectiveCurve.length - 1)).length ∧
      (¬ o.cfg.showLossEvery ∣ a.objectiveCurve.length - 1 → fig.loss =
        some (((lossIterations o.cfg.showLossEvery (a.objectiveCurve.length - 1)).map
          (place time ts' a.objectiveCurve.length)).zip o'.lossCurve)) ∧
      (o.cfg.showLossEvery ∣ a.objectiveCurve.length - 1 → fig.loss =
        some (((List.range o'.lossCurve.length).map fun i : ℕ => (i : ℚ)).zip o'.lossCurve)) := by
  obtain ⟨a, h1, h2, h3, h4, h5, h6⟩ := trainedOS_inv (TrainedOS.first h)
  obtain ⟨st, n, a', e0, e1, e2, ec, _, _, _, _, e7, e8⟩ := one_fit_counts h
  simp only at h1 h5
  rw [h1, Option.some.injEq] at e2
  subst e2
  simp only [OneSlack.start, Except.ok.injEq] at e0
  subst e0
  have e7 := e7 fun _ => rfl
  have e8 := e8 rfl
  simp only [hl, List.length_nil, Nat.zero_add] at e7 e8
  have ha : ofOneSlack (o', ts') = ⟨some a.objectiveCurve, some a.primalCurve, some a.cachedFlags,
      existing o'.lossCurve, some ts', o.cfg.showLossEvery⟩ := by unfold ofOneSlack; simp only [h1, ec]
  obtain ⟨fig, f1, f2, -, -, -, -, -, f6⟩ := plot_ok (time := time) (a := ofOneSlack (o', ts')) (obj := a.objectiveCurve)
    (by rw [ha]) (by rintro h; rw [h] at h2; simp at h2)
    (by rw [ha]; intro _ _ h; cases h; exact ⟨h2, by omega⟩) (by rw [ha]; intro _ h; cases h; exact h3)
    (by rw [ha]; intro _ h; cases h; exact ⟨h4, h6, by simp⟩)
  refine ⟨a, fig, h1, f1, ?_⟩
  rw [ha] at f2 f6
  simp only [Option.isSome_some, Bool.and_true, Option.getD_some] at f2 f6
  rw [f6, f2]
  exact loss_drawn (a := ⟨some a.objectiveCurve, some a.primalCurve, some a.cachedFlags,
      existing o'.lossCurve, some ts', o.cfg.showLossEvery⟩) rfl e7 (by omega) he e8

/-- **Training loss of the n-slack learner (partial)**: likewise. -/
theorem C139_loss_n_slack_partial {clock : ℕ → ℚ} {m : SModel X Y} {qp : QP.Solver} {eq : Y → Y → Bool}
    {alt : Option ((X → Y → W → Bool → Y) × (X → W → Y))} {intr : ℕ → ℕ → Option OneSlack.Phase}
    {o o' : NSlack.Obj Y} {ts ts' : List ℚ} {samples : List (X × Y)} {out : NSlack.Outcome}
    (h : nFit clock m qp eq alt intr (o, ts) samples none = .ok ((o', ts'), out)) (hout : out ≠ .interrupted)
    (hl : o.lossCurve = []) (he : o.cfg.showLossEvery ≠ 0) (time : Bool) :
    ∃ a fig, o'.attrs = some a ∧ plotLearning time (ofNSlack (o', ts')) = .ok fig ∧
      o'.lossCurve.length = (lossIterations o.cfg.showLossEvery (a.objectiveCurve.length - 1)).length ∧
      (¬ o.cfg.showLossEvery ∣ a.objectiveCurve.length - 1 → fig.loss =
        some (((lossIterations o.cfg.showLossEvery (a.objectiveCurve.length - 1)).map
          (place time ts' a.objectiveCurve.length)).zip o'.lossCurve)) ∧
      (o.cfg.showLossEvery ∣ a.objectiveCurve.length - 1 → fig.loss =
        some (((List.range o'.lossCurve.length).map fun i : ℕ => (i : ℚ)).zip o'.lossCurve)) := by
  obtain ⟨a, h1, h2, h3, h5⟩ := trainedNS_inv (TrainedNS.first hout h)
  obtain ⟨st, n, a', e0, e2, ec, _, e7, _, e8, e9⟩ := n_fit_counts h
  simp only at h1 h5
  rw [h1, Option.some.injEq] at e2
  subst e2
  simp only [NSlack.start, Except.ok.injEq] at e0
  subst e0
  simp only [hl, List.length_nil, Nat.zero_add] at e7 e8
  have ha : ofNSlack (o', ts') = ⟨some a.objectiveCurve, some a.primalCurve, none, existing o'.lossCurve,
      some ts', o.cfg.showLossEvery⟩ := by unfold ofNSlack; simp only [h1, ec]
  obtain ⟨fig, f1, f2, -, -, -, -, -, f6⟩ := plot_ok (time := time) (a := ofNSlack (o', ts')) (obj := a.objectiveCurve)
    (by rw [ha]) (by rintro h; rw [h] at h2; simp at h2)
    (by rw [ha]; intro _ _ h; cases h; exact ⟨h2, by omega⟩) (by rw [ha]; intro _ h; cases h; exact h3)
    (by rw [ha]; rintro _ h; cases h)
  refine ⟨a, fig, h1, f1, ?_⟩
  rw [ha] at f2 f6
  simp only [Option.isSome_some, Bool.and_true, Option.getD_some] at f2 f6
  rw [f6, f2]
  exact loss_drawn (a := ⟨some a.objectiveCurve, some a.primalCurve, none, existing o'.lossCurve,
      some ts', o.cfg.showLossEvery⟩) rfl e7 (e9 hout) he e8

/-- **Training loss of the subgradient learner (partial)**: likewise. -/
theorem C139_loss_subgradient_partial {clock : ℕ → ℚ} {m : SModel X Y} {order : ℕ → List (X × Y)}
    {o o' : Subgradient.Obj} {ts ts' : List ℚ} {samples : List (X × Y)}
    (h : subFit clock m order (o, ts) samples false = .ok (o', ts')) (hl : o.curves.loss = [])
    (he : o.cfg.showLossEvery ≠ 0) (h2 : 2 ≤ o'.curves.objective.length) (time : Bool) :
    ∃ fig, plotLearning time (ofSubgradient (o', ts')) = .ok fig ∧
      o'.curves.loss.length = (lossIterations o.cfg.showLossEvery (o'.curves.objective.length - 1)).length ∧
      (¬ o.cfg.showLossEvery ∣ o'.curves.objective.length - 1 → fig.loss =
        some (((lossIterations o.cfg.showLossEvery (o'.curves.objective.length - 1)).map
          (place time ts' o'.curves.objective.length)).zip o'.curves.loss)) ∧
      (o.cfg.showLossEvery ∣ o'.curves.objective.length - 1 → fig.loss =
        some (((List.range o'.curves.loss.length).map fun i : ℕ => (i : ℚ)).zip o'.curves.loss)) := by
  obtain ⟨h3, h4⟩ := trainedSub_inv (TrainedSub.first h)
  obtain ⟨n, -, ec, e7, e8, -⟩ := sub_fit_counts h
  simp only [hl, List.length_nil, Nat.zero_add, Bool.false_eq_true, if_false] at e7 e8
  obtain ⟨fig, f1, -, -, -, -, f6⟩ := plot_subgradient (time := time) h3 h4.ge fun _ => h2
  refine ⟨fig, f1, ?_⟩
  rw [f6]
  have := loss_drawn (a := ofSubgradient (o', ts')) (l := o'.curves.loss)
    (pos := place time ts' o'.curves.objective.length) rfl e7 (by omega)
    (by simp only [ofSubgradient, ec]; exact he) (by simp only [ofSubgradient, ec]; exact e8)
  simp only [ofSubgradient, ec] at this
  simp only [ofSubgradient, ec]
  exact this

/-- **Training loss of the subgradient learner for latent variables (partial)**: likewise. -/
theorem C139_loss_latent_partial {clock : ℕ → ℚ} {L : SubgradientLatent.SLModel X Y H} {jobs : SubgradientLatent.Jobs}
    {w0 : W} {o o' : Subgradient.Obj} {ts ts' : List ℚ} {samples : List (X × Y)}
    (h : latFit clock L jobs w0 (o, ts) samples false = .ok (o', ts')) (hl : o.curves.loss = [])
    (he : o.cfg.showLossEvery ≠ 0) (h2 : 2 ≤ o'.curves.objective.length) (time : Bool) :
    ∃ fig, plotLearning time (ofSubgradient (o', ts')) = .ok fig ∧
      o'.curves.loss.length = (lossIterations o.cfg.showLossEvery (o'.curves.objective.length - 1)).length ∧
      (¬ o.cfg.showLossEvery ∣ o'.curves.objective.length - 1 → fig.loss =
        some (((lossIterations o.cfg.showLossEvery (o'.curves.objective.length - 1)).map
          (place time ts' o'.curves.objective.length)).zip o'.curves.loss)) ∧
      (o.cfg.showLossEvery ∣ o'.curves.objective.length - 1 → fig.loss =
        some (((List.range o'.curves.loss.length).map fun i : ℕ => (i : ℚ)).zip o'.curves.loss)) := by
  obtain ⟨h3, h4⟩ := trainedLat_inv (TrainedLat.first h)
  obtain ⟨n, e, -, ec, e7, e8, -, -⟩ := lat_fit_counts h
  simp only [hl, List.length_nil, Nat.zero_add, Bool.false_eq_true, if_false] at e7 e8
  obtain ⟨fig, f1, -, -, -, -, f6⟩ := plot_subgradient (time := time) h3 h4 fun _ => h2
  refine ⟨fig, f1, ?_⟩
  rw [f6]
  have := loss_drawn (a := ofSubgradient (o', ts')) (l := o'.curves.loss)
    (pos := place time ts' o'.curves.objective.length) rfl e7 (by omega)
    (by simp only [ofSubgradient, ec]; exact he) (by simp only [ofSubgradient, ec]; exact e8)
  simp only [ofSubgradient, ec] at this
  simp only [ofSubgradient, ec]
  exact this

/-- With `show_loss_every=1`, the losses are never drawn at the times of their iterations, although the axis is
labelled as training time. -/
theorem C139_violated_loss {clock : ℕ → ℚ} {m : SModel X Y} {qp : QP.Solver}
    {eq : Y → Y → Except PyErr Bool} {o o' : OneSlack.Obj Y} {ts ts' : List ℚ} {samples : List (X × Y)}
    (h : oneFit clock m qp eq none (fun _ => none) (o, ts) samples .no = .ok (o', ts')) (hl : o.lossCurve = [])
    (he : o.cfg.showLossEvery = 1) :
    ∃ fig, plotLearning true (ofOneSlack (o', ts')) = .ok fig ∧ fig.byTime = true ∧
      fig.loss = some (((List.range o'.lossCurve.length).map fun i : ℕ => (i : ℚ)).zip o'.lossCurve) := by
  obtain ⟨a, fig, -, h2, -, -, h3⟩ := C139_loss_one_slack_partial h hl (by rw [he]; decide) true
  obtain ⟨_, fig', _, h5, h6, _⟩ := C139_one_slack (TrainedOS.first h) true
  rw [h2, Except.ok.injEq] at h5
  subst h5
  exact ⟨fig, h2, h6, h3 (by rw [he]; exact one_dvd _)⟩

/-! ### Examples -/

set_option synthInstance.maxSize 2000

/-- what is drawn, for `decide`. -/
def drawn (e : Except PyErr Figure) :
    Option (Bool × List (ℚ × ℚ) × Option (List (ℚ × ℚ)) × Option (List (ℚ × ℚ)) × Option (List (ℚ × ℚ))) :=
  e.toOption.map fun f => (f.byTime, f.dual, f.primal, f.inference, f.loss)

/-- A one-slack run with one iteration and its plot: both values at the end of the training, after 2 seconds; the loss
at its index. -/
example : ∃ s, oneFit exampleClock exampleTable exampleSolver natEq none (fun _ => none) (curveOS, []) [((), 0)] .no =
    .ok s ∧ TrainedOS s ∧ drawn (plotLearning true (ofOneSlack s)) = some (true, [(1 / 30, 1 / 8), (1 / 30, 1 / 8)],
      some [(1 / 30, 1), (1 / 30, 1 / 8)], some [(1 / 30, 1), (1 / 30, 1 / 8)], some [(0, 0)]) := by
  obtain ⟨a, h1, h2⟩ := isOkWith_iff (e := oneFit exampleClock exampleTable exampleSolver natEq none (fun _ => none)
    (curveOS, []) [((), 0)] .no) (f := fun s => drawn (plotLearning true (ofOneSlack s)))
    (b := some (true, [(1 / 30, 1 / 8), (1 / 30, 1 / 8)],
      some [(1 / 30, 1), (1 / 30, 1 / 8)], some [(1 / 30, 1), (1 / 30, 1 / 8)], some [(0, 0)]))
    (by decide +kernel)
  exact ⟨a, h1, TrainedOS.first h1, h2⟩

/-- Three classes, two of them with violated constraints. -/
def plotTable : SModel Unit ℕ :=
  tableModel 2 3 (fun y => if y = 1 then vec2 2 0 else if y = 2 then vec2 0 2 else vec2 0 0) (fun _ => 1)

/-- The QP of the first iteration. -/
def plotSolver : QP.Solver := tableSolver 2 1 [([(vec2 0 0, 0), (vec2 2 0, 1)], [3 / 4, 1 / 4], 0)]

/-- An interrupt in the second iteration while the QP is solved: `fit` returns, `plot_learning` raises. -/
example : ∃ o' ts' a, oneFit exampleClock plotTable plotSolver natEq none
      (fun i => if i = 1 then some .qp else none) (curveOS, []) [((), 0)] .no = .ok (o', ts') ∧ o'.attrs = some a ∧
    a.objectiveCurve.length = 2 ∧ a.primalCurve.length = 3 := by
  obtain ⟨s, h1, h2⟩ := isOkWith_iff (e := oneFit exampleClock plotTable plotSolver natEq none
      (fun i => if i = 1 then some .qp else none) (curveOS, []) [((), 0)] .no)
    (f := fun s => s.1.attrs.map fun a => (a.objectiveCurve.length, a.primalCurve.length)) (b := some (2, 3))
    (by decide +kernel)
  obtain ⟨o', ts'⟩ := s
  simp only [Option.map_eq_some_iff, Prod.mk.injEq] at h2
  obtain ⟨a, h2, h3, h4⟩ := h2
  exact ⟨o', ts', a, h1, h2, h3, h4⟩

/-- An n-slack run with two iterations and its plot. -/
example : ∃ s, nFit exampleClock exampleTable exampleNSolver natBeq none (fun _ _ => none) (curveNS, [])
      [((), 0), ((), 0)] none = .ok (s, .stopped true) ∧ TrainedNS s ∧ drawn (plotLearning true (ofNSlack s)) =
    some (true, [(1 / 30, 1 / 8), (1 / 20, 1 / 8), (1 / 20, 1 / 8)],
      some [(1 / 30, 17 / 8), (1 / 20, 1 / 8), (1 / 20, 1 / 8)], none, some [(0, 0), (1, 0)]) := by
  obtain ⟨a, h1, h2⟩ := isOkWith_iff (e := nFit exampleClock exampleTable exampleNSolver natBeq none (fun _ _ => none)
    (curveNS, []) [((), 0), ((), 0)] none) (f := fun s => (s.2, drawn (plotLearning true (ofNSlack s.1))))
    (b := (.stopped true, some (true, [(1 / 30, 1 / 8), (1 / 20, 1 / 8), (1 / 20, 1 / 8)],
      some [(1 / 30, 17 / 8), (1 / 20, 1 / 8), (1 / 20, 1 / 8)], none, some [(0, 0), (1, 0)]))) (by decide +kernel)
  obtain ⟨s, out⟩ := a
  simp only [Prod.mk.injEq] at h2
  rw [h2.1] at h1
  exact ⟨s, h1, TrainedNS.first (by simp) h1, h2.2⟩

/-- A subgradient run with three passes, and a loss for every second one: the losses are at the places of the first and
the third value of the objective. -/
example : ∃ s, subFit exampleClock exampleTable (fun _ => [((), 0), ((), 0)]) (timedSub, []) [((), 0), ((), 0)] false =
      .ok s ∧ TrainedSub s ∧ drawn (plotLearning true (ofSubgradient s)) =
    some (true, [(1 / 30, 9 / 32), (1 / 20, 3289 / 8192), (1 / 15, 1022121 / 2097152), (1 / 15, 1022121 / 2097152)],
      none, none, some [(1 / 30, 0), (1 / 15, 0)]) := by
  obtain ⟨a, h1, h2⟩ := isOkWith_iff (e := subFit exampleClock exampleTable (fun _ => [((), 0), ((), 0)]) (timedSub, [])
    [((), 0), ((), 0)] false) (f := fun s => drawn (plotLearning true (ofSubgradient s)))
    (b := some (true, [(1 / 30, 9 / 32), (1 / 20, 3289 / 8192), (1 / 15, 1022121 / 2097152),
      (1 / 15, 1022121 / 2097152)], none, none, some [(1 / 30, 0), (1 / 15, 0)])) (by decide +kernel)
  exact ⟨a, h1, TrainedSub.first h1, h2⟩

/-- A subgradient run without passes. -/
example : ∃ s, subFit exampleClock exampleTable (fun _ => [((), 0), ((), 0)])
      ({ timedSub with cfg := { timedSub.cfg with maxIter := 0 } }, []) [((), 0), ((), 0)] false = .ok s ∧ TrainedSub s ∧
    s.1.curves.objective.length = 1 := by
  obtain ⟨a, h1, h2⟩ := isOkWith_iff (e := subFit exampleClock exampleTable (fun _ => [((), 0), ((), 0)])
    ({ timedSub with cfg := { timedSub.cfg with maxIter := 0 } }, []) [((), 0), ((), 0)] false)
    (f := fun s => s.1.curves.objective.length) (b := 1) (by decide +kernel)
  exact ⟨a, h1, TrainedSub.first h1, h2⟩

/-- A run of the latent learner. -/
example : ∃ s, latFit exampleClock timedLatent .one (fun _ => 0) (timedSub, []) [((), 0), ((), 0)] false = .ok s ∧
    TrainedLat s ∧ s.1.curves.objective.length = 4 := by
  obtain ⟨a, h1, h2⟩ := isOkWith_iff (e := latFit exampleClock timedLatent .one (fun _ => 0) (timedSub, [])
    [((), 0), ((), 0)] false) (f := fun s => s.1.curves.objective.length) (b := 4) (by decide +kernel)
  exact ⟨a, h1, TrainedLat.first h1, h2⟩

end Verif.Props
