import Verif.Model.SwitchTo
import Verif.Props.C44

/-!
# C126: `switch_to` and the inference method of the model
-/

namespace Verif.Props

open Finset Verif.Common Verif.Learner Verif.SwitchTo

variable {X Y M : Type}

theorem nSlack_loop_stopped {qp : QP.Solver} {eq : Y → Y → Bool} {p : (X → Y → W → Bool → Y) × (X → W → Y)} {cfg : NSlack.Config}
    {samples : List (X × Y)} {intr : ℕ → ℕ → Option OneSlack.Phase} {fuel it : ℕ} {st st' : NSlack.St X Y} {b : Bool}
    (h : NSlack.loop qp eq (some p) cfg samples intr fuel it st = .ok (st', .stopped b)) : st'.switched = true := by
  obtain ⟨it', st1, -, hi⟩ := NSlack.loop_end (fun _ => True) (fun _ _ _ _ _ _ => trivial) trivial (by simp) h
  obtain ⟨bs, -, st2, s, k, fl, -, hc⟩ := NSlack.iteration_ok hi
  rcases hc with ⟨-, -, e⟩ | ⟨-, obj, lc, -, ⟨-, -, e, -⟩ | ⟨-, ⟨la, inf, -, -, e, -⟩ | ⟨e1 | e1, -, rfl⟩⟩⟩
  · cases e
  · cases e
  · cases e
  · exact e1
  · cases e1

/-- **C126**, `OneSlackSSVM`: the inference method after training is the old one or `switch_to`; without `switch_to` it is the old
one. If training ends by itself, before `max_iter` iterations and without interruptions, it is `switch_to`: it has the last word. -/
theorem C126_one_slack [DecidableEq M] (mm : MethodModel X Y M) (qp : QP.Solver) (eq : Y → Y → Except PyErr Bool) (μ : M)
    (switchTo : Option M) (intr : ℕ → Option OneSlack.Phase) (o o' : OneSlack.Obj Y) (samples : List (X × Y)) (warm : OneSlack.Warm)
    (μ' : M) (h : oneSlackFit mm qp eq μ switchTo intr o samples warm = .ok (o', μ')) :
    OneSlack.fit (mm.using μ) qp eq (mm.alt μ switchTo) intr o samples warm = .ok o' ∧ (μ' = μ ∨ switchTo = some μ') ∧
    (∀ t a, switchTo = some t → (∀ it, intr it = none) → warm = .no → o'.attrs = some a →
      a.objectiveCurve.length ≤ o.cfg.maxIter → μ' = t) := by
  unfold oneSlackFit at h
  obtain ⟨st0, h0, h⟩ := bind_eq_ok.mp h
  obtain ⟨st, h1, h⟩ := bind_eq_ok.mp h
  obtain ⟨o'', h2, h⟩ := bind_eq_ok.mp h
  simp only [Except.ok.injEq, Prod.mk.injEq] at h
  obtain ⟨rfl, rfl⟩ := h
  refine ⟨h2, ?_, ?_⟩
  · unfold methodAfter
    cases st.switched
    · exact .inl rfl
    · cases switchTo
      · exact .inl rfl
      · exact .inr rfl
  · rintro t a rfl hintr rfl ha hlen
    by_cases hμ : μ = t
    · subst hμ
      unfold methodAfter
      cases st.switched <;> rfl
    · have halt : mm.alt μ (some t) = some (mm.lossAug t, mm.inference t) := if_pos hμ
      have hst0 : st0.objectiveCurve = [] := by
        have := h0
        simp only [OneSlack.start, Except.ok.injEq] at this
        subst this
        rfl
      have hsw : st.switched = true := by
        rcases OneSlack.loop_end hintr _ _ _ _ h1 with ⟨-, e | e⟩ | e
        · exact e
        · rw [halt] at e
          cases e
        · by_contra hc
          rw [if_neg (fun h => hc h.1), hst0] at e
          unfold OneSlack.fit at h2
          rw [h0] at h2
          simp only at h2
          rw [h1] at h2
          simp only at h2
          split at h2
          · cases h2
          · split at h2
            · cases h2
            · rw [Except.ok.injEq] at h2
              subst h2
              simp only [Option.some.injEq] at ha
              subst ha
              simp only [List.length_append, List.length_nil, List.length_singleton] at e hlen
              omega
      unfold methodAfter
      rw [hsw]
      rfl

/-- **C126**, `NSlackSSVM`: the same; training that ends by its stopping criterion ends with `switch_to`. -/
theorem C126_n_slack [DecidableEq M] (mm : MethodModel X Y M) (qp : QP.Solver) (eq : Y → Y → Bool) (μ : M)
    (switchTo : Option M) (intr : ℕ → ℕ → Option OneSlack.Phase) (o o' : NSlack.Obj Y) (samples : List (X × Y))
    (cons : Option (List (List (NSlack.NCon Y)))) (out : NSlack.Outcome) (μ' : M)
    (h : nSlackFit mm qp eq μ switchTo intr o samples cons = .ok (o', out, μ')) :
    NSlack.fit (mm.using μ) qp eq (mm.alt μ switchTo) intr o samples cons = .ok (o', out) ∧ (μ' = μ ∨ switchTo = some μ') ∧
    (∀ t noNew, switchTo = some t → out = .stopped noNew → μ' = t) := by
  unfold nSlackFit at h
  obtain ⟨st0, h0, h⟩ := bind_eq_ok.mp h
  obtain ⟨⟨st, out1⟩, h1, h⟩ := bind_eq_ok.mp h
  obtain ⟨⟨o'', out2⟩, h2, h⟩ := bind_eq_ok.mp h
  simp only [Except.ok.injEq, Prod.mk.injEq] at h
  obtain ⟨rfl, rfl, rfl⟩ := h
  refine ⟨h2, ?_, ?_⟩
  · unfold methodAfter
    cases st.switched
    · exact .inl rfl
    · cases switchTo
      · exact .inl rfl
      · exact .inr rfl
  · rintro t noNew rfl rfl
    by_cases hμ : μ = t
    · subst hμ
      unfold methodAfter
      cases st.switched <;> rfl
    · have halt : mm.alt μ (some t) = some (mm.lossAug t, mm.inference t) := if_pos hμ
      obtain ⟨st0', st', obj, primal, e1, e2, -⟩ := NSlack.fit_ok h2
      rw [h0, Except.ok.injEq] at e1
      subst e1
      rw [h1, Except.ok.injEq, Prod.mk.injEq] at e2
      obtain ⟨rfl, rfl⟩ := e2
      rw [halt] at h1
      unfold methodAfter
      rw [nSlack_loop_stopped h1]
      rfl

/-- **C126**: once the model uses `switch_to`, later trainings of learners with the model never use the first method again: they are
the trainings without `switch_to` of a model that has this method. -/
theorem C126_later [DecidableEq M] (mm : MethodModel X Y M) (t : M) :
    (∀ qp (eq : Y → Y → Except PyErr Bool) intr (o : OneSlack.Obj Y) (samples : List (X × Y)) warm,
      oneSlackFit mm qp eq t (some t) intr o samples warm =
        (OneSlack.fit (mm.using t) qp eq none intr o samples warm).map fun o' => (o', t)) ∧
    (∀ qp (eq : Y → Y → Bool) intr (o : NSlack.Obj Y) (samples : List (X × Y)) cons,
      nSlackFit mm qp eq t (some t) intr o samples cons =
        (NSlack.fit (mm.using t) qp eq none intr o samples cons).map fun r => (r.1, r.2, t)) := by
  have halt : mm.alt t (some t) = none := if_neg (by simp)
  have hm : ∀ b, methodAfter t (some t) b = t := fun b => by cases b <;> rfl
  constructor
  · intro qp eq intr o samples warm
    unfold oneSlackFit
    simp only [halt, hm]
    unfold OneSlack.fit
    cases OneSlack.start (mm.using t) o warm with
    | error err => rfl
    | ok st =>
      simp only [bind, Except.bind]
      cases OneSlack.loop qp eq none o.cfg samples (OneSlack.jointFeatureGt (mm.using t) samples) intr o.cfg.maxIter 0 st with
      | error err => rfl
      | ok st' =>
        simp only
        split <;> simp_all [Except.map]
  · intro qp eq intr o samples cons
    unfold nSlackFit
    simp only [halt, hm]
    unfold NSlack.fit
    cases NSlack.start (mm.using t) qp o samples.length cons with
    | error err => rfl
    | ok st =>
      simp only [bind, Except.bind]
      cases NSlack.loop qp eq none o.cfg samples intr o.cfg.maxIter 0 st with
      | error err => rfl
      | ok st' =>
        simp only
        split <;> simp_all [Except.map]

/-! ### concrete cases -/

/-- A model with two inference methods: `false` always answers 0, `true` is exact. -/
def lazyModel : MethodModel Unit ℕ Bool where
  base := prunedTable
  lossAug := fun μ x y w r => if μ then prunedTable.lossAug x y w r else 0
  inference := fun μ x w => if μ then prunedTable.inference x w else 0

/-- Training of a learner with `switch_to`: with `max_iter = 2` the first training spends one iteration on the first method; fitting
again, to the same data, gives other weights, because the model has kept the method that was switched to. -/
theorem C126_violated_refit :
    (oneSlackFit lazyModel prunedSolver natEq false (some true) (fun _ => none) (exampleOS 2 (1 / 2) 0 1) [((), 0)] .no).map
      (fun r => (r.1.attrs.map fun (a : OneSlack.Attrs ℕ) => (a.w 0, a.w 1, a.objectiveCurve.length), r.2)) = .ok (some (16 / 29, 40 / 29, 2), true) ∧
    (do
      let r ← oneSlackFit lazyModel prunedSolver natEq false (some true) (fun _ => none) (exampleOS 2 (1 / 2) 0 1) [((), 0)] .no
      let r' ← oneSlackFit lazyModel prunedSolver natEq r.2 (some true) (fun _ => none) r.1 [((), 0)] .no
      pure (r'.1.attrs.map fun (a : OneSlack.Attrs ℕ) => (a.w 0, a.w 1, a.objectiveCurve.length))) = .ok (some (0, 3 / 2, 3)) := by
  decide +kernel

/-- With enough iterations the hypotheses of `C126_one_slack` are met: training stops by itself, after switching. -/
example : (oneSlackFit lazyModel prunedSolver natEq false (some true) (fun _ => none) (exampleOS 10 (1 / 2) 0 1) [((), 0)] .no).map
    (fun r => (r.1.attrs.map fun (a : OneSlack.Attrs ℕ) => decide (a.objectiveCurve.length ≤ 10), r.2)) =
      .ok (some true, true) := by
  decide +kernel

/-- N-slack training with two methods that are both exact: it stops with the second one. -/
example : (nSlackFit (⟨exampleTable, fun (_ : Bool) => exampleTable.lossAug, fun _ => exampleTable.inference⟩ : MethodModel Unit ℕ Bool)
    exampleNSolver natBeq false (some true) (fun _ _ => none) (exampleNS 10 1 100 50) [((), 0), ((), 0)] none).map
      (fun r => (decide (r.2.1 = .stopped true), r.2.2)) = .ok (true, true) := by
  decide +kernel

end Verif.Props
