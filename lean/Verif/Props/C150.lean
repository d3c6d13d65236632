import Verif.Lemmas.UnitsOneSlack
import Verif.Model.BinaryInstance
import Verif.Props.C18
import Verif.Lemmas.UnitsNSlack
import Verif.Props.C67N

/-!
# C150: units of features and losses do not matter

In all theorems about learners the features may also be in another order `ρ` (see C180).
-/

namespace Verif.Props

open Finset Verif.Spec Verif.Lemmas Verif.Learner

variable {X X' Y : Type} {ρ : Equiv.Perm ℕ} {a b : ℚ} {f : X → X'} {m : SModel X Y} {m' : SModel X' Y}

/-- StructuredPerceptron: with the learning rate times `c`, in other units, the learned weights are those of the first training times
`c * b`, the loss curve is the same. -/
theorem C150_perceptron (ha : 0 < a) (h : OtherUnits ρ a b f m m') {c : ℚ}
    (hin : ∀ x w w', Multiple ρ (c * b) m.dim w w' → m'.inference (f x) w' = m.inference x w) (o o' : Perceptron.Obj)
    (hcfg : o'.cfg = { o.cfg with lr := fun t => c * o.cfg.lr t }) (havg : o'.average = o.average) (samples : List (X × Y)) :
    BothRun (fun r r' => Multiple ρ (c * b) m.dim r.w r'.w ∧ r'.lossCurve = r.lossCurve ∧ r'.average = r.average)
      (Perceptron.fit m o samples) (Perceptron.fit m' o' (inUnits f samples)) := by
  unfold Perceptron.fit
  rw [havg]
  cases Perceptron.normAverage o.average with
  | error e => exact .error e
  | ok avg =>
    simp only
    have hml : ((inUnits f samples).map fun s => m'.maxLoss s.2).sum = a * (samples.map fun s => m.maxLoss s.2).sum := by
      unfold inUnits
      rw [List.map_map]
      exact sum_units samples fun s => h.maxLoss s.2
    have hs : PercUnits ρ (c * b) m.dim Perceptron.start Perceptron.start :=
      ⟨fun k _ => (mul_zero _).symm, fun k _ => (mul_zero _).symm, rfl, rfl⟩
    have hl := percLoop_units ha h hin o.cfg avg samples (samples.map fun s => m.maxLoss s.2).sum o.cfg.maxIter 0
      _ _ hs
    unfold Perceptron.train
    rw [hcfg, hml]
    refine .ok ⟨?_, hl.curve, rfl⟩
    by_cases hn : avg = none
    · simp only [if_pos hn]; exact hl.w
    · simp only [if_neg hn]; exact hl.wbar

/-- The parameters of `SubgradientSSVM` in other units: `C` and a learning rate given as a number are multiplied by `a / b ^ 2`. -/
def subObjUnits (a b : ℚ) (o : Subgradient.Obj) (w : Option W) : Subgradient.Obj :=
  ⟨subConfigUnits a b o.cfg, w, o.t, o.lr.map fun lr => lr * a / b ^ 2,
    ⟨o.curves.objective.map fun v => (a / b) ^ 2 * v, o.curves.loss⟩⟩

/-- SubgradientSSVM, cold or warm start: with `C` (and the learning rate, unless it is 'auto') times `a / b ^ 2` the weights are those of
the first training times `a / b`, the objective curve is that of the first times `(a / b) ^ 2`, the loss curve is the same. -/
theorem C150_subgradient (ha : 0 < a) (hb : 0 < b) (h : OtherUnits ρ a b f m m') (order : ℕ → List (X × Y)) (o : Subgradient.Obj)
    (w' : Option W) (hw : ∀ w, o.w = some w → ∃ v, w' = some v ∧ Multiple ρ (a / b) m.dim w v) (hn : o.w = none → w' = none)
    (samples : List (X × Y)) (warm : Bool) :
    BothRun (fun r r' => ∃ w, r.w = some w ∧ ∃ v, Multiple ρ (a / b) m.dim w v ∧ r' = subObjUnits a b r (some v))
      (Subgradient.fit m order o samples warm)
      (Subgradient.fit m' (fun i => inUnits f (order i)) (subObjUnits a b o w') (inUnits f samples) warm) := by
  have hlen : (inUnits f samples).length = samples.length := by unfold inUnits; simp
  have hsetup : BothRun (fun p p' => p'.1 = p.1 * a / b ^ 2 ∧ p'.2 = p.2.map fun v => (a / b) ^ 2 * v)
      (Subgradient.setup o samples.length warm) (Subgradient.setup (subObjUnits a b o w') (inUnits f samples).length warm) := by
    unfold Subgradient.setup
    rw [hlen]
    cases warm with
    | true =>
      simp only [if_true, subObjUnits]
      cases o.lr with
      | none => exact .error _
      | some lr => exact .ok ⟨rfl, rfl⟩
    | false =>
      simp only [Bool.false_eq_true, if_false, subObjUnits, subConfigUnits]
      refine .ok ⟨?_, rfl⟩
      cases o.cfg.learningRate with
      | none => simp only [Option.map_none, Option.getD_none]; ring
      | some lr => rfl
  unfold Subgradient.fit
  simp only
  generalize Subgradient.setup o samples.length warm = s at hsetup ⊢
  generalize Subgradient.setup (subObjUnits a b o w') (inUnits f samples).length warm = s' at hsetup ⊢
  cases hsetup with
  | error e => exact .error e
  | @ok p p' hp =>
    obtain ⟨lr, curve⟩ := p
    obtain ⟨lr', curve'⟩ := p'
    obtain ⟨e1, e2⟩ := hp
    simp only at e1 e2
    subst e1 e2
    simp only
    have hw0 : Multiple ρ (a / b) m.dim (o.w.getD fun _ => 0) (w'.getD fun _ => 0) := by
      cases ho : o.w with
      | none => rw [hn ho]; intro k _; simp
      | some w => obtain ⟨v, e, hv⟩ := hw w ho; rw [e]; exact hv
    have hst : SubUnits ρ a b m.dim ⟨o.w.getD fun _ => 0, fun _ => 0, o.w.getD fun _ => 0, o.t⟩
        ⟨w'.getD fun _ => 0, fun _ => 0, w'.getD fun _ => 0, o.t⟩ :=
      ⟨hw0, fun k _ => (mul_zero _).symm, hw0, rfl⟩
    have hl := subLoop_units ha hb h o.cfg lr order o.cfg.maxIter 0 samples _ _ hst ⟨curve, o.curves.loss⟩
      ⟨curve.map fun v => (a / b) ^ 2 * v, o.curves.loss⟩ rfl rfl
    simp only [show (subObjUnits a b o w').cfg = subConfigUnits a b o.cfg from rfl, show (subObjUnits a b o w').w = w' from rfl,
      show (subObjUnits a b o w').t = o.t from rfl, show (subObjUnits a b o w').curves.loss = o.curves.loss from rfl,
      show (subConfigUnits a b o.cfg).maxIter = o.cfg.maxIter from rfl,
      show (subConfigUnits a b o.cfg).C = o.cfg.C * a / b ^ 2 from rfl]
    generalize Subgradient.loop m o.cfg lr order o.cfg.maxIter 0 samples _ _ = r at hl ⊢
    generalize Subgradient.loop m' (subConfigUnits a b o.cfg) (lr * a / b ^ 2) _ o.cfg.maxIter 0 (inUnits f samples) _ _ = r' at hl ⊢
    cases hl with
    | error e => exact .error e
    | @ok r r' hr =>
      obtain ⟨data, st, c⟩ := r
      obtain ⟨data', st', c'⟩ := r'
      obtain ⟨h1, h2, h3, h4⟩ := hr
      simp only at h1 h2 h3 h4
      subst h1
      simp only
      have hp := objectivePrimal_units ha hb h data h2.selfW o.cfg.C true
      generalize objectivePrimal m st.selfW data o.cfg.C true = q at hp ⊢
      generalize objectivePrimal m' st'.selfW (inUnits f data) (o.cfg.C * a / b ^ 2) true = q' at hp ⊢
      cases hp with
      | error e => exact .error e
      | @ok q q' hq =>
        subst hq
        refine .ok ⟨st.selfW, rfl, st'.selfW, h2.selfW, ?_⟩
        simp only [subObjUnits, h2.t, h3, h4, List.map_append, List.map_cons, List.map_nil, Option.map_some]

/-- The parameters of `FrankWolfeSSVM` in other units: `C` times `a / b ^ 2`; the tolerance is a number in units of losses in batch mode, in
units of the objective otherwise. -/
def fwObjUnits (a b : ℚ) (o : FrankWolfe.Obj) (w : Option W) : FrankWolfe.Obj :=
  ⟨fwConfigUnits a b o.cfg, w, o.l.map fun l => a * l, fwCurvesUnits a b o.curves⟩

/-- what `FrankWolfe.fit` does between the starting weights and the final objective. -/
def fwRun (m : SModel X Y) (order : ℕ → List ℕ) (cfg : FrankWolfe.Config) (samples : List (X × Y)) (w0 : W) (l0 : ℚ) :
    Except PyErr (W × ℚ × FrankWolfe.Curves) :=
  if cfg.batchMode then
    if m.rescaleC ∧ cfg.maxIter ≠ 0 then .error .valueError
    else .ok ((FrankWolfe.batchLoop m cfg samples cfg.maxIter 0 w0 0 ⟨[], []⟩).1, l0,
      (FrankWolfe.batchLoop m cfg samples cfg.maxIter 0 w0 0 ⟨[], []⟩).2)
  else match FrankWolfe.bcLoop m cfg order samples cfg.maxIter 0 (FrankWolfe.bcStart w0 l0) none ⟨[], []⟩ with
    | .error err => .error err
    | .ok (st, c) => .ok (st.selfW, st.selfL, c)

theorem fwFit_run (m : SModel X Y) (order : ℕ → List ℕ) (o : FrankWolfe.Obj) (samples : List (X × Y)) :
    FrankWolfe.fit m order o samples = match fwRun m order o.cfg samples (o.w.getD fun _ => 0) (o.l.getD 0) with
      | .error err => .error err
      | .ok (w, l, c) =>
        match objectivePrimal m w samples o.cfg.C true with
        | .error err => .error err
        | .ok p =>
          match c.dual.getLast? with
          | none => .error .indexError
          | some d => .ok ⟨o.cfg, some w, some l, ⟨c.dual ++ [d], c.primal ++ [p]⟩⟩ := by
  obtain ⟨cfg, w, l, cu⟩ := o
  cases w <;> cases l <;> rfl

theorem fwRun_units (ha : 0 < a) (hb : 0 < b) (h : OtherUnits ρ a b f m m') (order : ℕ → List ℕ) (cfg : FrankWolfe.Config)
    (hls : cfg.lineSearch = false ∨ if cfg.batchMode then a = 1 else a = b) (samples : List (X × Y)) {w0 v0 : W}
    (hw0 : Multiple ρ (a / b) m.dim w0 v0) (l0 : ℚ) :
    BothRun (fun r r' => Multiple ρ (a / b) m.dim r.1 r'.1 ∧ r'.2.1 = a * r.2.1 ∧ r'.2.2 = fwCurvesUnits a b r.2.2)
      (fwRun m order cfg samples w0 l0) (fwRun m' order (fwConfigUnits a b cfg) (inUnits f samples) v0 (a * l0)) := by
  have hB : (fwConfigUnits a b cfg).batchMode = cfg.batchMode := rfl
  have hM : (fwConfigUnits a b cfg).maxIter = cfg.maxIter := rfl
  unfold fwRun
  rw [h.rescaleC, hB, hM]
  by_cases hbm : cfg.batchMode = true
  · rw [if_pos hbm, if_pos hbm]
    rw [if_pos hbm] at hls
    by_cases hr : m.rescaleC ∧ cfg.maxIter ≠ 0
    · rw [if_pos hr, if_pos hr]; exact .error _
    · rw [if_neg hr, if_neg hr]
      have hcfg : fwConfigUnits a b cfg = { cfg with C := cfg.C * a / b ^ 2, tol := a * cfg.tol } := by
        unfold fwConfigUnits; rw [if_pos hbm]
      obtain ⟨h1, h2⟩ := fwBatchLoop_units ha hb h cfg hls samples cfg.maxIter 0 w0 v0 hw0 0 ⟨[], []⟩
      rw [mul_zero] at h1 h2
      rw [hcfg]
      exact .ok ⟨h1, rfl, h2⟩
  · rw [if_neg hbm, if_neg hbm]
    rw [if_neg hbm] at hls
    have hcfg : fwConfigUnits a b cfg = { cfg with C := cfg.C * a / b ^ 2, tol := (a / b) ^ 2 * cfg.tol } := by
      unfold fwConfigUnits; rw [if_neg hbm]
    have hst : BcUnits ρ a b m.dim (FrankWolfe.bcStart w0 l0) (FrankWolfe.bcStart v0 (a * l0)) :=
      ⟨hw0, fun i k _ => (mul_zero _).symm, fun i => (mul_zero _).symm, (mul_zero _).symm, rfl, hw0, rfl⟩
    have hl := fwBcLoop_units ha hb h cfg hls order samples cfg.maxIter 0 _ _ hst none ⟨[], []⟩
    rw [hcfg]
    simp only [Option.map_none] at hl
    rw [show fwCurvesUnits a b ⟨[], []⟩ = ⟨[], []⟩ from rfl] at hl
    generalize FrankWolfe.bcLoop m cfg order samples cfg.maxIter 0 _ _ _ = r at hl ⊢
    generalize FrankWolfe.bcLoop m' _ order (inUnits f samples) cfg.maxIter 0 _ _ _ = r' at hl ⊢
    cases hl with
    | error e => exact .error e
    | ok hr => exact .ok ⟨hr.1.selfW, hr.1.selfL, hr.2⟩

/-- FrankWolfeSSVM without line search (with line search: in batch mode if losses are not changed, in block-coordinate mode if features and
losses are multiplied by the same number): the weights are those of the first training times `a / b`, dual and primal curve those of the
first times `(a / b) ^ 2`. -/
theorem C150_frank_wolfe_partial (ha : 0 < a) (hb : 0 < b) (h : OtherUnits ρ a b f m m') (order : ℕ → List ℕ) (o : FrankWolfe.Obj)
    (hls : o.cfg.lineSearch = false ∨ if o.cfg.batchMode then a = 1 else a = b)
    (w' : Option W) (hw : ∀ w, o.w = some w → ∃ v, w' = some v ∧ Multiple ρ (a / b) m.dim w v) (hn : o.w = none → w' = none)
    (samples : List (X × Y)) :
    BothRun (fun r r' => ∃ w, r.w = some w ∧ ∃ v, Multiple ρ (a / b) m.dim w v ∧ r' = fwObjUnits a b r (some v))
      (FrankWolfe.fit m order o samples) (FrankWolfe.fit m' order (fwObjUnits a b o w') (inUnits f samples)) := by
  have hw0 : Multiple ρ (a / b) m.dim (o.w.getD fun _ => 0) (w'.getD fun _ => 0) := by
    cases ho : o.w with
    | none => rw [hn ho]; intro k _; simp
    | some w => obtain ⟨v, e, hv⟩ := hw w ho; rw [e]; exact hv
  have hl0 : (o.l.map fun l => a * l).getD 0 = a * o.l.getD 0 := by cases o.l <;> simp
  have hC : (fwConfigUnits a b o.cfg).C = o.cfg.C * a / b ^ 2 := rfl
  have hrun := fwRun_units ha hb h order o.cfg hls samples hw0 (o.l.getD 0)
  rw [fwFit_run, fwFit_run]
  simp only [show (fwObjUnits a b o w').cfg = fwConfigUnits a b o.cfg from rfl, show (fwObjUnits a b o w').w = w' from rfl,
    show (fwObjUnits a b o w').l = o.l.map (fun l => a * l) from rfl, hl0, hC]
  generalize fwRun m order o.cfg samples _ _ = r at hrun ⊢
  generalize fwRun m' order (fwConfigUnits a b o.cfg) (inUnits f samples) _ _ = r' at hrun ⊢
  cases hrun with
  | error e => exact .error e
  | @ok r r' hr =>
    obtain ⟨w, l, c⟩ := r
    obtain ⟨v, l', c'⟩ := r'
    obtain ⟨h1, h2, h3⟩ := hr
    simp only at h1 h2 h3
    subst h2 h3
    simp only
    have hp := objectivePrimal_units ha hb h samples h1 o.cfg.C true
    generalize objectivePrimal m w samples o.cfg.C true = q at hp ⊢
    generalize objectivePrimal m' v (inUnits f samples) (o.cfg.C * a / b ^ 2) true = q' at hp ⊢
    cases hp with
    | error e => exact .error e
    | @ok q q' hq =>
      subst hq
      simp only [show (fwCurvesUnits a b c).dual = c.dual.map (fun v => (a / b) ^ 2 * v) from rfl, getLast?_units]
      cases c.dual.getLast? with
      | none => exact .error _
      | some d =>
        refine .ok ⟨w, rfl, v, h1, ?_⟩
        simp only [fwObjUnits, fwCurvesUnits, Option.map_some, List.map_append, List.map_cons, List.map_nil]

/-- OneSlackSSVM, from scratch, with exact solvers: with `C` times `a / b ^ 2` and `tol` times `a` the weights are those of the first
training times `a / b`, the curves of the objectives those of the first times `(a / b) ^ 2`, loss curve and use of the cache the same.
The two trainings may use different exact solvers and may both be interrupted at the same place. -/
theorem C150_one_slack (ha : 0 < a) (hb : 0 < b) (h : OtherUnits ρ a b f m m') {qp qp' : QP.Solver}
    (hq : QP.Exact qp) (hqc : QP.Complete qp) (hq' : QP.Exact qp') (hqc' : QP.Complete qp')
    (eq : Y → Y → Except PyErr Bool) (intr : ℕ → Option OneSlack.Phase) (o o' : OneSlack.Obj Y)
    (hcfg : o'.cfg = { o.cfg with C := o.cfg.C * a / b ^ 2, tol := a * o.cfg.tol, negativity := reorderNeg ρ o.cfg.negativity }) (hcurve : o'.lossCurve = o.lossCurve)
    (hw0 : o.cfg.inactiveWindow = 0) (hcc : o.cfg.checkConstraints = false) (ht : o.cfg.tol ≤ 1) (ht' : a * o.cfg.tol ≤ 1)
    (samples : List (X × Y)) (h0 : ∀ s ∈ samples, ∀ w, 0 ≤ m.lossOf s.2 (m.lossAug s.1 s.2 w true)) :
    BothRun (fun r r' => r'.lossCurve = r.lossCurve ∧ ∃ t t', r.attrs = some t ∧ r'.attrs = some t' ∧
        Multiple ρ (a / b) m.dim t.w t'.w ∧ t'.objectiveCurve = t.objectiveCurve.map (fun v => (a / b) ^ 2 * v) ∧
        t'.primalCurve = t.primalCurve.map (fun v => (a / b) ^ 2 * v) ∧ t'.cachedFlags = t.cachedFlags)
      (OneSlack.fit m qp eq none intr o samples .no) (OneSlack.fit m' qp' eq none intr o' (inUnits f samples) .no) := by
  have hC : (oneConfigUnits ρ a b o.cfg).C = o.cfg.C * a / b ^ 2 := rfl
  have hM : (oneConfigUnits ρ a b o.cfg).maxIter = o.cfg.maxIter := rfl
  have hgt : Multiple ρ b m.dim (OneSlack.jointFeatureGt m samples) (OneSlack.jointFeatureGt m' (inUnits f samples)) := by
    intro k hk
    unfold OneSlack.jointFeatureGt inUnits
    rw [List.map_map]
    exact sum_units samples fun s => feat_units h s.1 s.2 s.2 k hk
  have hcfg' : o'.cfg = oneConfigUnits ρ a b o.cfg := hcfg
  unfold OneSlack.fit
  simp only [OneSlack.start, hcfg', hcurve, hC, hM]
  have hl := oneLoop_units ha hb h hq hqc hq' hqc' eq o.cfg hw0 hcc ht ht' hgt samples h0 intr o.cfg.maxIter 0
    ⟨m, false, fun _ => 0, [((fun _ => 0), 0)], false, [[o.cfg.C]], [], [], [], o.lossCurve, none,
      (match o.cfg.cacheTol with | .value t => t | _ => o.cfg.tol), -1, none⟩
    ⟨m', false, fun _ => 0, [((fun _ => 0), 0)], false, [[o.cfg.C * a / b ^ 2]], [], [], [], o.lossCurve, none,
      (match (oneConfigUnits ρ a b o.cfg).cacheTol with | .value t => t | _ => (oneConfigUnits ρ a b o.cfg).tol), -1, none⟩
    ⟨rfl, rfl, fun k _ => (mul_zero _).symm,
      List.Forall₂.cons ⟨fun k _ => (mul_zero _).symm, (mul_zero _).symm⟩ List.Forall₂.nil, rfl, rfl, rfl, rfl, rfl, rfl, trivial, rfl⟩
    (.inr ⟨rfl, rfl, rfl, rfl, fun k _ => rfl⟩)
  generalize OneSlack.loop qp eq none o.cfg samples _ intr o.cfg.maxIter 0 _ = r at hl ⊢
  generalize OneSlack.loop qp' eq none (oneConfigUnits ρ a b o.cfg) (inUnits f samples) _ intr o.cfg.maxIter 0 _ = r' at hl ⊢
  cases hl with
  | error e => exact .error e
  | @ok st st' hs =>
    simp only [hs.model, hs.model']
    have hp := objectivePrimal_units ha hb h samples hs.w o.cfg.C false
    generalize objectivePrimal m st.w samples o.cfg.C false = q at hp ⊢
    generalize objectivePrimal m' st'.w (inUnits f samples) (o.cfg.C * a / b ^ 2) false = q' at hp ⊢
    cases hp with
    | error e => exact .error e
    | @ok q q' hq =>
      subst hq
      simp only [hs.objective]
      cases st.objective with
      | none => exact .error _
      | some obj =>
        refine .ok ⟨hs.lossCurve, _, _, rfl, rfl, hs.w, ?_, ?_, ?_⟩
        · simp only [hs.objectiveCurve, List.map_append, List.map_cons, List.map_nil]
        · simp only [hs.primalCurve, List.map_append, List.map_cons, List.map_nil]
        · simp only [hs.cachedFlags]

theorem reorderNeg_refl (neg : Option (List ℕ)) : reorderNeg (Equiv.refl ℕ) neg = neg := by
  unfold reorderNeg
  cases neg <;> simp

/-- a model is itself in the same units. -/
theorem otherUnits_refl (m : SModel X Y) (hla : ∀ x y w w' r, (∀ k < m.dim, w' k = w k) → m.lossAug x y w' r = m.lossAug x y w r)
    (hin : ∀ x w w', (∀ k < m.dim, w' k = w k) → m.inference x w' = m.inference x w) : OtherUnits (Equiv.refl ℕ) 1 1 id m m where
  order _ := Iff.rfl
  dim := rfl
  rescaleC := rfl
  isTuple _ := rfl
  feature _ _ _ _ := (one_mul _).symm
  featureR _ _ _ _ _ := (one_mul _).symm
  loss _ _ := (one_mul _).symm
  continuousLoss _ _ := (one_mul _).symm
  maxLoss _ := (one_mul _).symm
  lossAug x y w w' r h := hla x y w w' r fun k hk => by rw [h k hk]; simp
  inference x w w' h := hin x w w' fun k hk => by rw [h k hk]; simp

/-- In particular the result of training a OneSlackSSVM does not depend on which exact solver of quadratic programs is used. -/
theorem C150_any_exact_solver (m : SModel X Y)
    (hla : ∀ x y w w' r, (∀ k < m.dim, w' k = w k) → m.lossAug x y w' r = m.lossAug x y w r)
    (hin : ∀ x w w', (∀ k < m.dim, w' k = w k) → m.inference x w' = m.inference x w) {qp qp' : QP.Solver}
    (hq : QP.Exact qp) (hqc : QP.Complete qp) (hq' : QP.Exact qp') (hqc' : QP.Complete qp')
    (eq : Y → Y → Except PyErr Bool) (intr : ℕ → Option OneSlack.Phase) (o : OneSlack.Obj Y)
    (hw0 : o.cfg.inactiveWindow = 0) (hcc : o.cfg.checkConstraints = false) (ht : o.cfg.tol ≤ 1)
    (samples : List (X × Y)) (h0 : ∀ s ∈ samples, ∀ w, 0 ≤ m.lossOf s.2 (m.lossAug s.1 s.2 w true)) :
    BothRun (fun r r' => r'.lossCurve = r.lossCurve ∧ ∃ t t', r.attrs = some t ∧ r'.attrs = some t' ∧
        (∀ k < m.dim, t'.w k = t.w k) ∧ t'.objectiveCurve = t.objectiveCurve ∧ t'.primalCurve = t.primalCurve ∧
        t'.cachedFlags = t.cachedFlags)
      (OneSlack.fit m qp eq none intr o samples .no) (OneSlack.fit m qp' eq none intr o samples .no) := by
  have h := C150_one_slack one_pos one_pos (otherUnits_refl m hla hin) hq hqc hq' hqc' eq intr o o
    (by simp [reorderNeg_refl]) rfl hw0 hcc ht (by rw [one_mul]; exact ht) samples h0
  have e : inUnits id samples = samples := by unfold inUnits; simp
  rw [e] at h
  generalize OneSlack.fit m qp eq none intr o samples .no = r at h ⊢
  generalize OneSlack.fit m qp' eq none intr o samples .no = r' at h ⊢
  cases h with
  | error e => exact .error e
  | ok h =>
    obtain ⟨h1, t, t', h2, h3, h4, h5, h6, h7⟩ := h
    refine .ok ⟨h1, t, t', h2, h3, fun k hk => ?_, ?_, ?_, h7⟩
    · rw [h4 k hk]; simp
    · rw [h5]; simp
    · rw [h6]; simp

/-- NSlackSSVM with inactive constraints kept, when features (and not losses) are in other units: with `C` divided by `b ^ 2` and the
tolerance, a difference of objectives, too, the weights are those of the first training divided by `b`, dual and primal objectives those of
the first divided by `b ^ 2`, losses the same, and the working sets hold the same outputs. Both trainings may use any exact solvers, may
switch to another inference method and may start from constraints that are given. Missing: other units of losses, for which it is wrong
(`C150_violated_n_slack`). -/
theorem C150_n_slack_partial (hb : 0 < b) (h : OtherUnits ρ 1 b f m m') {qp qp' : QP.Solver} (hq : QP.Exact qp)
    (hqc : QP.Complete qp) (hq' : QP.Exact qp') (hqc' : QP.Complete qp') (eq : Y → Y → Bool)
    {alt : Option ((X → Y → W → Bool → Y) × (X → W → Y))} {alt' : Option ((X' → Y → W → Bool → Y) × (X' → W → Y))}
    (halt : AltUnits ρ 1 b f m.dim alt alt') (intr : ℕ → ℕ → Option OneSlack.Phase) {o o' : NSlack.Obj Y}
    (hcfg : o'.cfg = { o.cfg with C := o.cfg.C / b ^ 2, tol := o.cfg.tol / b ^ 2, negativity := reorderNeg ρ o.cfg.negativity })
    (hat : Option.Rel (NAttrsUnits ρ 1 b m.dim) o.attrs o'.attrs) (hlc : o'.lossCurve = o.lossCurve)
    (hw0 : o.cfg.inactiveWindow = 0) (hC : 0 ≤ o.cfg.C) (samples : List (X × Y)) {cs cs' : Option (List (List (NSlack.NCon Y)))}
    (hcs : Option.Rel (List.Forall₂ (List.Forall₂ (NConUnits ρ 1 b m.dim))) cs cs') :
    BothRun (fun r r' => r'.2 = r.2 ∧ r'.1.lossCurve = r.1.lossCurve ∧ ∃ t t', r.1.attrs = some t ∧ r'.1.attrs = some t' ∧
        Multiple ρ (1 / b) m.dim t.w t'.w ∧ t'.objectiveCurve = t.objectiveCurve.map (fun v => v / b ^ 2) ∧
        t'.primalCurve = t.primalCurve.map (fun v => v / b ^ 2) ∧
        ∀ i, List.Forall₂ (fun c c' => c'.yhat = c.yhat ∧ c'.loss = c.loss ∧ Multiple ρ b m.dim c.dj c'.dj) (t.constraints i) (t'.constraints i))
      (NSlack.fit m qp eq alt intr o samples cs) (NSlack.fit m' qp' eq alt' intr o' (inUnits f samples) cs') := by
  have ho : NObjUnits ρ 1 b m.dim o o' := by
    refine ⟨?_, hat, hlc⟩
    rw [hcfg]
    unfold nConfigUnits
    rw [one_div, inv_pow, mul_one, div_eq_inv_mul o.cfg.tol]
  have hr := nFit_units rfl hb h hq hqc hq' hqc' eq halt intr ho hw0 hC samples hcs
  generalize hfit : NSlack.fit m qp eq alt intr o samples cs = r at hr ⊢
  generalize NSlack.fit m' qp' eq alt' intr o' (inUnits f samples) cs' = r' at hr ⊢
  cases hr with
  | error e => exact .error e
  | @ok r r' hr =>
    obtain ⟨⟨h1, h2, h3⟩, h4⟩ := hr
    have hsome : ∃ t, r.1.attrs = some t := by
      unfold NSlack.fit at hfit
      split at hfit
      · simp at hfit
      · split at hfit
        · simp at hfit
        · split_ifs at hfit
          split at hfit
          · simp at hfit
          · split at hfit
            · simp at hfit
            · rw [Except.ok.injEq] at hfit
              rw [← hfit]
              exact ⟨_, rfl⟩
    obtain ⟨t, ht⟩ := hsome
    rw [ht] at h2
    generalize ht' : r'.1.attrs = at' at h2
    cases h2 with
    | @some _ t' h2 =>
      have e : ∀ l : List ℚ, l.map (fun v => (1 / b) ^ 2 * v) = l.map fun v => v / b ^ 2 := by
        intro l
        refine List.map_congr_left fun v _ => ?_
        field_simp
      refine .ok ⟨h4, h3, t, t', ht, ht', h2.w, ?_, ?_, fun i => ?_⟩
      · rw [h2.objectiveCurve, e]
      · rw [h2.primalCurve, e]
      · refine (h2.constraints i).imp fun c c' hc => ⟨hc.1, ?_, hc.2.1⟩
        rw [hc.2.2, one_mul]

/-- In particular the result of training a NSlackSSVM does not depend on which exact solver of quadratic programs is used. -/
theorem C150_n_slack_any_exact_solver (m : SModel X Y)
    (hla : ∀ x y w w' r, (∀ k < m.dim, w' k = w k) → m.lossAug x y w' r = m.lossAug x y w r)
    (hin : ∀ x w w', (∀ k < m.dim, w' k = w k) → m.inference x w' = m.inference x w) {qp qp' : QP.Solver}
    (hq : QP.Exact qp) (hqc : QP.Complete qp) (hq' : QP.Exact qp') (hqc' : QP.Complete qp')
    (eq : Y → Y → Bool) (intr : ℕ → ℕ → Option OneSlack.Phase) (o : NSlack.Obj Y) (hw0 : o.cfg.inactiveWindow = 0) (hC : 0 ≤ o.cfg.C)
    (samples : List (X × Y)) (cs : Option (List (List (NSlack.NCon Y)))) :
    BothRun (fun r r' => r'.2 = r.2 ∧ r'.1.lossCurve = r.1.lossCurve ∧ ∃ t t', r.1.attrs = some t ∧ r'.1.attrs = some t' ∧
        (∀ k < m.dim, t'.w k = t.w k) ∧ t'.objectiveCurve = t.objectiveCurve ∧ t'.primalCurve = t.primalCurve ∧
        ∀ i, (t'.constraints i).map (fun c => (c.yhat, c.loss)) = (t.constraints i).map fun c => (c.yhat, c.loss))
      (NSlack.fit m qp eq none intr o samples cs) (NSlack.fit m qp' eq none intr o samples cs) := by
  have hm : ∀ v : W, Multiple (Equiv.refl ℕ) 1 m.dim v v := fun v k _ => (one_mul _).symm
  have hcon : ∀ c : NSlack.NCon Y, NConUnits (Equiv.refl ℕ) 1 1 m.dim c c := fun c => ⟨rfl, hm _, (one_mul _).symm⟩
  have hl : ∀ l : List (NSlack.NCon Y), List.Forall₂ (NConUnits (Equiv.refl ℕ) 1 1 m.dim) l l := fun l => List.forall₂_same.mpr fun c _ => hcon c
  have hat : Option.Rel (NAttrsUnits (Equiv.refl ℕ) 1 1 m.dim) o.attrs o.attrs := by
    cases o.attrs with
    | none => exact .none
    | some t => exact .some ⟨rfl, by rw [div_one]; exact hm _, fun i => hl _, by simp, by simp⟩
  have hcs : Option.Rel (List.Forall₂ (List.Forall₂ (NConUnits (Equiv.refl ℕ) 1 1 m.dim))) cs cs := by
    cases cs with
    | none => exact .none
    | some cs => exact .some (List.forall₂_same.mpr fun l _ => hl l)
  have h := C150_n_slack_partial one_pos (otherUnits_refl m hla hin) hq hqc hq' hqc' eq (alt := none) (alt' := none) trivial intr
    (o := o) (o' := o) (by simp [reorderNeg_refl]) hat rfl hw0 hC samples hcs
  have e : inUnits id samples = samples := by unfold inUnits; simp
  rw [e] at h
  generalize NSlack.fit m qp eq none intr o samples cs = r at h ⊢
  generalize NSlack.fit m qp' eq none intr o samples cs = r' at h ⊢
  cases h with
  | error e => exact .error e
  | ok h =>
    obtain ⟨h1, h1', t, t', h2, h3, h4, h5, h6, h7⟩ := h
    refine .ok ⟨h1, h1', t, t', h2, h3, fun k hk => ?_, ?_, ?_, fun i => ?_⟩
    · rw [h4 k hk]; simp
    · rw [h5]; simp
    · rw [h6]; simp
    · have := h7 i
      generalize t.constraints i = l at this ⊢
      generalize t'.constraints i = l' at this ⊢
      induction this with
      | nil => rfl
      | cons hc _ ih => rw [List.map_cons, List.map_cons, ih, hc.1, hc.2.1]

/-- The primal objective of corresponding weights is `(a / b) ^ 2` times the first one. -/
theorem C150_objective (ha : 0 < a) (hb : 0 < b) (h : OtherUnits ρ a b f m m') (samples : List (X × Y)) {w w' : W}
    (hw : Multiple ρ (a / b) m.dim w w') (C : ℚ) (newSlack : Bool) :
    BothRun (fun p p' => p' = (a / b) ^ 2 * p) (objectivePrimal m w samples C newSlack)
      (objectivePrimal m' w' (inUnits f samples) (C * a / b ^ 2) newSlack) :=
  objectivePrimal_units ha hb h samples hw C newSlack

/-! ### classifiers -/

open Verif.Unstructured

/-- a `MultiClassClf` whose class weights are multiplied by `a`. -/
def weighted (a : ℚ) (m : MultiClass) : MultiClass :=
  { m with classWeight := ⟨m.classWeight.size, fun c => a * m.classWeight.get c⟩ }

theorem argmaxN_scaled {a : ℚ} (ha : 0 < a) {n : ℕ} {g g' : ℕ → ℚ} (h : ∀ i < n, g' i = a * g i) : argmaxN g' n = argmaxN g n := by
  rw [argmaxN_congr h]
  exact argmaxN_units ha (fun i => rfl) n

theorem mcScores_scaled (m m' : MultiClass) (hs : m'.nStates = m.nStates) (hf : m'.nFeatures = m.nFeatures) {b c : ℚ} {w w' : W}
    (hw : Multiple (Equiv.refl ℕ) c m.size w w') (x : ℕ → ℚ) :
    BothRun (fun s s' => s.size = m.nStates ∧ s'.size = m.nStates ∧ ∀ i < m.nStates, s'.get i = c * b * s.get i)
      (mcScores m ⟨m.nFeatures, x⟩ ⟨m.size, w⟩) (mcScores m' ⟨m'.nFeatures, fun j => b * x j⟩ ⟨m'.size, w'⟩) := by
  have hsz : m'.size = m.size := by unfold MultiClass.size; rw [hs, hf]
  rw [hsz]
  unfold mcScores
  simp only [hs, hf]
  by_cases h1 : m.nStates = 0
  · rw [if_pos h1, if_pos h1]; exact .error _
  rw [if_neg h1, if_neg h1]
  by_cases h2 : m.size % m.nStates ≠ 0
  · rw [if_pos h2, if_pos h2]; exact .error _
  rw [if_neg h2, if_neg h2]
  by_cases h3 : m.size / m.nStates ≠ m.nFeatures
  · rw [if_pos h3, if_pos h3]; exact .error _
  rw [if_neg h3, if_neg h3]
  refine .ok ⟨rfl, rfl, fun i hi => ?_⟩
  simp only
  rw [mul_sum]
  refine sum_congr rfl fun j hj => ?_
  rw [hw (i * m.nFeatures + j) (flat_lt hi (mem_range.mp hj)), Equiv.refl_apply]
  ring

/-- Which class a `MultiClassClf` predicts does not change if inputs and weights are multiplied by positive numbers. -/
theorem C150_multi_class_inference (hb : 0 < b) (m : MultiClass) {c : ℚ} (hc : 0 < c) (x : ℕ → ℚ) (w w' : W)
    (hw : Multiple (Equiv.refl ℕ) c m.size w w') :
    (multiClassModel (weighted a m)).inference (fun j => b * x j) w' = (multiClassModel m).inference x w := by
  change okD 0 (mcInference (weighted a m) ⟨m.nFeatures, _⟩ ⟨m.size, w'⟩) = okD 0 (mcInference m ⟨m.nFeatures, x⟩ ⟨m.size, w⟩)
  have hs := mcScores_scaled m (weighted a m) rfl rfl (b := b) hw x
  congr 1
  unfold mcInference
  rw [show (weighted a m).nFeatures = m.nFeatures from rfl, show (weighted a m).size = m.size from rfl] at hs
  generalize mcScores m ⟨m.nFeatures, x⟩ ⟨m.size, w⟩ = s at hs ⊢
  generalize mcScores (weighted a m) ⟨m.nFeatures, fun j => b * x j⟩ ⟨m.size, w'⟩ = s' at hs ⊢
  cases hs with
  | error e => rfl
  | @ok s s' hss =>
    obtain ⟨h1, h2, h3⟩ := hss
    simp only [h1, h2]
    congr 1
    exact argmaxN_scaled (mul_pos hc hb) h3

/-- Multiplying all inputs of a `MultiClassClf` by `b` and all class weights by `a` is a change of units: losses are multiplied by `a`,
features by `b`, or by `a * b` with `rescale_C`. -/
theorem C150_multi_class (ha : 0 < a) (hb : 0 < b) (m : MultiClass) :
    OtherUnits (Equiv.refl ℕ) a (if m.rescaleC then a * b else b) (fun x j => b * x j) (multiClassModel m) (multiClassModel (weighted a m)) where
  order _ := Iff.rfl
  dim := rfl
  rescaleC := rfl
  isTuple _ := rfl
  feature x y := by
    intro k hk
    rw [Equiv.refl_apply]
    change (okD _ (mcJointFeature (weighted a m) ⟨m.nFeatures, _⟩ y none)).get k = _ *
      (okD _ (mcJointFeature m ⟨m.nFeatures, x⟩ y none)).get k
    unfold mcJointFeature
    simp only [weighted]
    by_cases h1 : m.nStates ≤ y
    · simp [if_pos h1, okD]
    · cases hr : m.rescaleC with
      | true => simp [h1, okD]
      | false =>
        simp only [if_neg h1, ne_eq, not_true, if_false, Bool.false_eq_true, okD, Mat.ravel]
        split_ifs <;> simp
  featureR x y t := by
    intro k hk
    rw [Equiv.refl_apply]
    change (okD _ (mcJointFeature (weighted a m) ⟨m.nFeatures, _⟩ y (some t))).get k = _ *
      (okD _ (mcJointFeature m ⟨m.nFeatures, x⟩ y (some t))).get k
    unfold mcJointFeature
    simp only [weighted]
    by_cases h1 : m.nStates ≤ y
    · simp [if_pos h1, okD]
    · cases hr : m.rescaleC with
      | true =>
        by_cases h2 : m.classWeight.size ≤ t
        · simp [h1, h2, okD]
        · simp only [if_neg h1, ne_eq, not_true, if_false, if_true, if_neg h2, okD, Mat.ravel]
          split_ifs
          · ring
          · simp
      | false =>
        simp only [if_neg h1, ne_eq, not_true, if_false, Bool.false_eq_true, okD, Mat.ravel]
        split_ifs <;> simp
  loss y z := by
    change okD 0 (mcLoss (weighted a m) y z) = a * okD 0 (mcLoss m y z)
    unfold mcLoss
    simp only [show (weighted a m).classWeight.size = m.classWeight.size from rfl,
      show (weighted a m).classWeight.get y = a * m.classWeight.get y from rfl]
    by_cases h1 : m.classWeight.size ≤ y
    · rw [if_pos h1, if_pos h1]; simp [okD]
    · rw [if_neg h1, if_neg h1]
      simp only [okD]
      ring
  continuousLoss _ _ := (mul_zero _).symm
  maxLoss _ := rfl
  lossAug x y w w' r hw := by
    change okD 0 (mcLossAugmented (weighted a m) ⟨m.nFeatures, _⟩ y ⟨m.size, w'⟩) = okD 0 (mcLossAugmented m ⟨m.nFeatures, x⟩ y ⟨m.size, w⟩)
    have hs := mcScores_scaled m (weighted a m) rfl rfl (b := b) hw x
    congr 1
    unfold mcLossAugmented
    rw [show (weighted a m).nFeatures = m.nFeatures from rfl, show (weighted a m).size = m.size from rfl] at hs
    generalize mcScores m ⟨m.nFeatures, x⟩ ⟨m.size, w⟩ = s at hs ⊢
    generalize mcScores (weighted a m) ⟨m.nFeatures, fun j => b * x j⟩ ⟨m.size, w'⟩ = s' at hs ⊢
    cases hs with
    | error e => rfl
    | @ok s s' hss =>
      obtain ⟨h1, h2, h3⟩ := hss
      simp only [weighted, h1, h2]
      cases hr : m.rescaleC with
      | true =>
        simp only [if_true]
        rw [hr, if_pos rfl] at h3
        congr 1
        refine argmaxN_congr fun i hi => ?_
        have : a / (a * b) * b = 1 := by field_simp
        rw [h3 i hi, this, one_mul]
      | false =>
        simp only [Bool.false_eq_true, if_false]
        rw [hr] at h3
        simp only [Bool.false_eq_true, if_false] at h3
        by_cases h4 : m.classWeight.size ≤ y
        · rw [if_pos h4, if_pos h4]
        · rw [if_neg h4, if_neg h4]
          congr 1
          refine argmaxN_scaled ha fun i hi => ?_
          rw [h3 i hi, div_mul_cancel₀ _ hb.ne']
          split_ifs
          · ring
          · rfl
  inference x w w' hw := C150_multi_class_inference hb m (div_pos ha (by split_ifs <;> positivity)) x w w' hw

/-- Which class a `BinaryClf` predicts does not change if inputs and weights are multiplied by positive numbers. -/
theorem C150_binary_inference (hb : 0 < b) (F : ℕ) {c : ℚ} (hc : 0 < c) (x : ℕ → ℚ) (w w' : W)
    (hw : Multiple (Equiv.refl ℕ) c F w w') :
    (binaryModel F).inference (fun j => b * x j) w' = (binaryModel F).inference x w := by
  have e : dot F (fun j => b * x j) w' = b * c * dot F x w := 
    dot_units (s := b) (u := x) (ρ := Equiv.refl ℕ) (fun _ => Iff.rfl) (fun k _ => rfl) hw
  have hp : 0 < b * c := mul_pos hb hc
  have e2 : (0 ≤ b * c * dot F x w) ↔ 0 ≤ dot F x w := mul_nonneg_iff_of_pos_left hp
  simp only [binaryModel, binInference, Vec.dot, if_true, e, binDecide, e2]

/-- Multiplying all inputs of a `BinaryClf` by `b` is a change of units. -/
theorem C150_binary (hb : 0 < b) (F : ℕ) : OtherUnits (Equiv.refl ℕ) 1 b (fun x j => b * x j) (binaryModel F) (binaryModel F) where
  order _ := Iff.rfl
  dim := rfl
  rescaleC := rfl
  isTuple _ := rfl
  feature x y := by
    intro k hk
    simp only [binaryModel, binBatchJointFeature, ne_eq, not_true, if_false, okD, sum_range_one, Equiv.refl_apply]
    ring
  featureR x y t := by
    intro k hk
    simp only [binaryModel, binBatchJointFeature, ne_eq, not_true, if_false, okD, sum_range_one, Equiv.refl_apply]
    ring
  loss _ _ := (one_mul _).symm
  continuousLoss _ _ := (one_mul _).symm
  maxLoss _ := (one_mul _).symm
  lossAug x y w w' r hw := by
    have e : dot F (fun j => b * x j) w' = dot F x w := by
      have e := dot_units (s := b) (u := x) (u' := fun j => b * x j) (d := F) (ρ := Equiv.refl ℕ) (fun _ => Iff.rfl) (fun k _ => rfl) hw
      rw [e]
      field_simp
    simp only [binaryModel, binLossAugmented, Vec.dot, if_true, e]
  inference x w w' hw := C150_binary_inference hb F (div_pos one_pos hb) x w w' hw

/-! ### examples -/

/-- two classes, two features, class weights 1 and 3. -/
def unitsClf : MultiClass := ⟨2, 2, ⟨2, fun c => if c = 0 then 1 else 3⟩, false, false⟩

/-- three points. -/
def unitsSamples : List ((ℕ → ℚ) × ℕ) :=
  [(fun j => if j = 0 then 1 else 0, 0), (fun j => if j = 0 then 1 else 2, 1), (fun j => if j = 0 then 3 else 1, 0)]

/-- inputs in other units, class weights in other units: `a = 5`, `b = 2`. -/
example : OtherUnits (Equiv.refl ℕ) 5 2 (fun x j => 2 * x j) (multiClassModel unitsClf) (multiClassModel (weighted 5 unitsClf)) :=
  C150_multi_class (by norm_num) (by norm_num) unitsClf

/-- the two perceptrons succeed and learn weights that are not 0. -/
example : let o : Perceptron.Obj := ⟨⟨3, false, fun _ => 1⟩, .off, fun _ => 0, []⟩
    let r := Perceptron.fit (multiClassModel unitsClf) o unitsSamples
    let r' := Perceptron.fit (multiClassModel (weighted 5 unitsClf)) o (inUnits (fun x j => 2 * x j) unitsSamples)
    (r.toOption.map fun r => (r.w 0, r.w 1)) = some (1, -3) ∧ (r'.toOption.map fun r => (r.w 0, r.w 1)) = some (2, -6) := by
  decide +kernel

/-- the hypotheses hold for learning rates 1 and 3. -/
example := C150_perceptron (a := 5) (b := 2) (by norm_num) (C150_multi_class (by norm_num) (by norm_num) unitsClf) (c := 3)
  (fun x w w' hw => C150_multi_class_inference (by norm_num) unitsClf (by norm_num) x w w' hw)
  ⟨⟨3, false, fun _ => 1⟩, .off, fun _ => 0, []⟩ ⟨⟨3, false, fun _ => 3 * 1⟩, .off, fun _ => 0, []⟩ rfl rfl unitsSamples

/-- the two subgradient learners succeed and learn weights that are not 0. -/
example : let o : Subgradient.Obj := ⟨⟨2, 1, 1 / 2, none, fun _ => 1, false, some 1, .none, false, 1, 0⟩, none, 0, none, ⟨[], []⟩⟩
    let r := Subgradient.fit (multiClassModel unitsClf) (fun _ => unitsSamples) o unitsSamples false
    let r' := Subgradient.fit (multiClassModel (weighted 5 unitsClf)) (fun _ => inUnits (fun x j => 2 * x j) unitsSamples)
      (subObjUnits 5 2 o none) (inUnits (fun x j => 2 * x j) unitsSamples) false
    (r.toOption.bind fun r => r.w.map fun w => w 0) = some 3 ∧ (r'.toOption.bind fun r => r.w.map fun w => w 0) = some (15 / 2) := by
  decide +kernel

/-- OneSlackSSVM: losses are not negative, exact solvers exist. -/
example (eq : ℕ → ℕ → Except PyErr Bool) (o : OneSlack.Obj ℕ) (ho : o.cfg = ⟨10, 1, false, none, true, 0, 1 / 1000, 5, 1 / 1000, 0, .auto⟩) :=
  C150_one_slack (a := 5) (b := 2) (by norm_num) (by norm_num) (C150_multi_class (by norm_num) (by norm_num) unitsClf)
    QP.ideal_exact.1 QP.ideal_exact.2 QP.ideal_exact.1 QP.ideal_exact.2 eq (fun _ => none) o
    { o with cfg := { o.cfg with C := o.cfg.C * 5 / 2 ^ 2, tol := 5 * o.cfg.tol } } (by rw [ho]; rfl) rfl (by rw [ho]) (by rw [ho])
    (by rw [ho]; norm_num) (by rw [ho]; norm_num) unitsSamples (by
      intro s hs w
      change 0 ≤ okD 0 (mcLoss unitsClf s.2 _)
      unfold mcLoss
      by_cases h : unitsClf.classWeight.size ≤ s.2
      · rw [if_pos h]; simp [okD]
      · rw [if_neg h]
        simp only [okD]
        refine mul_nonneg ?_ ?_
        · simp only [unitsClf]; split_ifs <;> norm_num
        · split_ifs <;> norm_num)

/-- one point, two classes. -/
def onePointClf : MultiClass := ⟨2, 1, ⟨2, fun _ => 1⟩, false, false⟩

/-- NSlackSSVM with `C = 1`, keeping inactive constraints. -/
def onePointN : NSlack.Config := ⟨10, 1, false, none, false, 0, -1, 1 / 1000, 1 / 100000, 0⟩

/-- one iteration of batch Frank-Wolfe with line search. -/
def onePointFw : FrankWolfe.Obj := ⟨⟨1, 1, 0, true, true, 1, false⟩, none, none, ⟨[], []⟩⟩

/-- The constant 1e-15 in the line search of FrankWolfeSSVM has no units: with line search, multiplying all losses by 2 and `C` by 2 does
not multiply the weights by 2. -/
theorem C150_violated_line_search :
    OtherUnits (Equiv.refl ℕ) 2 1 (fun x j => 1 * x j) (multiClassModel onePointClf) (multiClassModel (weighted 2 onePointClf)) ∧
    ∃ r r' w w', FrankWolfe.fit (multiClassModel onePointClf) (fun _ => [0]) onePointFw [(fun _ => 1, 0)] = .ok r ∧
      FrankWolfe.fit (multiClassModel (weighted 2 onePointClf)) (fun _ => [0]) (fwObjUnits 2 1 onePointFw none)
        (inUnits (fun x j => 1 * x j) [(fun _ => 1, 0)]) = .ok r' ∧
      r.w = some w ∧ r'.w = some w' ∧ ¬ Multiple (Equiv.refl ℕ) (2 / 1) (multiClassModel onePointClf).dim w w' := by
  refine ⟨C150_multi_class (by norm_num) (by norm_num) onePointClf, ?_⟩
  have e1 : ((FrankWolfe.fit (multiClassModel onePointClf) (fun _ => [0]) onePointFw [(fun _ => 1, 0)]).toOption.bind
      fun r => r.w.map fun w => w 0) = some (1000000000000000 / 2000000000000001) := by decide +kernel
  have e2 : ((FrankWolfe.fit (multiClassModel (weighted 2 onePointClf)) (fun _ => [0]) (fwObjUnits 2 1 onePointFw none)
        (inUnits (fun x j => 1 * x j) [(fun _ => 1, 0)])).toOption.bind fun r => r.w.map fun w => w 0) =
      some (4000000000000000 / 4000000000000001) := by decide +kernel
  have aux : ∀ (x : Except PyErr FrankWolfe.Obj) (q : ℚ), (x.toOption.bind fun r => r.w.map fun w => w 0) = some q →
      ∃ r w, x = .ok r ∧ r.w = some w ∧ w 0 = q := by
    intro x q h
    cases x with
    | error e => simp [Except.toOption] at h
    | ok r =>
      simp only [Except.toOption, Option.bind_some] at h
      cases hw : r.w with
      | none => rw [hw] at h; simp at h
      | some w => rw [hw] at h; exact ⟨r, w, rfl, hw, by simpa using h⟩
  obtain ⟨r, w, h1, h2, h3⟩ := aux _ _ e1
  obtain ⟨r', w', h1', h2', h3'⟩ := aux _ _ e2
  refine ⟨r, r', w, w', h1, h1', h2, h2', fun hm => ?_⟩
  have := hm 0 (by decide)
  rw [Equiv.refl_apply, h3, h3'] at this
  norm_num at this

/-- Frank-Wolfe without line search: the hypotheses hold. -/
example := C150_frank_wolfe_partial (a := 5) (b := 2) (by norm_num) (by norm_num)
  (C150_multi_class (by norm_num) (by norm_num) unitsClf) (fun _ => [0, 1, 2])
  ⟨⟨3, 1, 0, false, false, 1, true⟩, none, none, ⟨[], []⟩⟩ (.inl rfl) none (by simp) (by simp) unitsSamples

/-- NSlackSSVM: class weights in the same units, inputs multiplied by 2; the hypotheses hold. -/
example (eq : ℕ → ℕ → Bool) := C150_n_slack_partial (b := 2) (by norm_num)
  (show OtherUnits (Equiv.refl ℕ) 1 2 _ _ _ from C150_multi_class (by norm_num) (by norm_num) unitsClf)
  QP.ideal_exact.1 QP.ideal_exact.2 QP.ideal_exact.1 QP.ideal_exact.2 eq (alt := none) (alt' := none) trivial (fun _ _ => none)
  (o := ⟨onePointN, none, []⟩) (o' := ⟨{ onePointN with C := onePointN.C / 2 ^ 2, tol := onePointN.tol / 2 ^ 2 }, none, []⟩)
  rfl .none rfl rfl (by norm_num [onePointN]) unitsSamples (cs := none) (cs' := none) .none

/-- The threshold 1e-5 that NSlackSSVM applies to slacks has no units: a training that succeeds raises UnboundLocalError if all losses are
multiplied by 1e-6, `C` by the same factor. -/
theorem C150_violated_n_slack {qp : QP.Solver} (hq : QP.Exact qp) (hqc : QP.Complete qp) (eq : ℕ → ℕ → Bool) :
    OtherUnits (Equiv.refl ℕ) (1 / 10 ^ 6) 1 (fun x j => 1 * x j) (multiClassModel onePointClf) (multiClassModel (weighted (1 / 10 ^ 6) onePointClf)) ∧
    (∃ r, NSlack.fit (multiClassModel onePointClf) qp eq none (fun _ _ => none) ⟨onePointN, none, []⟩ [(fun _ => 1, 0)] none = .ok r) ∧
    NSlack.fit (multiClassModel (weighted (1 / 10 ^ 6) onePointClf)) qp eq none (fun _ _ => none)
      ⟨nConfigUnits (Equiv.refl ℕ) (1 / 10 ^ 6) 1 onePointN, none, []⟩ (inUnits (fun x j => 1 * x j) [(fun _ => 1, 0)]) none =
        .error .unboundLocalError := by
  refine ⟨C150_multi_class (by norm_num) (by norm_num) onePointClf, ?_, ?_⟩
  · have := (C67_nslack_returns_iff_partial (multiClassModel onePointClf) qp hq hqc eq none ⟨onePointN, none, []⟩ rfl (.inl rfl)
      (by norm_num [onePointN]) (by simp [onePointN]) [(fun _ => 1, 0)] (by simp)).mpr
      ⟨by simp [onePointN], _, List.mem_singleton.mpr rfl, by decide +kernel⟩
    obtain ⟨o, out, h⟩ := this
    exact ⟨_, h⟩
  · have hC : (0 : ℚ) ≤ (nConfigUnits (Equiv.refl ℕ) (1 / 10 ^ 6) 1 onePointN).C := by norm_num [onePointN, nConfigUnits]
    rcases C67_nslack_returns_partial (multiClassModel (weighted (1 / 10 ^ 6) onePointClf)) qp hq hqc eq none (fun _ _ => none)
      ⟨nConfigUnits (Equiv.refl ℕ) (1 / 10 ^ 6) 1 onePointN, none, []⟩ rfl (.inl rfl) hC (by simp [onePointN, nConfigUnits, reorderNeg])
      (inUnits (fun x j => 1 * x j) [(fun _ => 1, 0)]) (by simp [inUnits]) with h | h
    · have := (C67_nslack_returns_iff_partial (multiClassModel (weighted (1 / 10 ^ 6) onePointClf)) qp hq hqc eq none
        ⟨nConfigUnits (Equiv.refl ℕ) (1 / 10 ^ 6) 1 onePointN, none, []⟩ rfl (.inl rfl) hC (by simp [onePointN, nConfigUnits, reorderNeg])
        (inUnits (fun x j => 1 * x j) [(fun _ => 1, 0)]) (by simp [inUnits])).mp h
      obtain ⟨_, s, hs, hl⟩ := this
      rw [show inUnits (fun x j => 1 * x j) [((fun _ => 1 : ℕ → ℚ), (0 : ℕ))] = [((fun j => 1 * (fun _ => (1 : ℚ)) j), 0)] from rfl,
        List.mem_singleton] at hs
      rw [hs] at hl
      exact absurd hl (by decide +kernel)
    · exact h

end Verif.Props
