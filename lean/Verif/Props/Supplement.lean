import Verif.Props.C36
import Verif.Props.C123L
import Verif.Props.C127
import Verif.Props.C137
import Verif.Props.C139
import Verif.Props.C140

/-!
# Supplements to C36, C74, C123, C127, C137 and C139
-/

namespace Verif.Props

open Finset Verif.Common Verif.Spec Verif.Learner Verif.Typed Verif.Lemmas

/-! ### C36 -/

/-- **C36**, no labels at all: `flattenY` raises `ValueError`, whatever the model. -/
theorem C36_no_labels (m : Typed.Model) : Typed.flattenY m [] = .error .valueError := by
  unfold Typed.flattenY
  rw [List.zip_nil_right]

/-! ### C74 -/

/-- **C74**, relaxed inference: if AD3 reports a fractional solution, loss-augmented inference with `relaxed=True` returns its
marginals, and with `relaxed=False` the label of largest marginal at every node; an integral solution is returned as labels in both
cases. -/
theorem C74_relaxed {T : ℕ} {S F : List ℕ} {rows cols : ℕ} {Fe : ℕ → ℕ → ℕ} {cw : Option (List Vec)} {m : Typed.Model}
    (hm : Typed.construct T S F rows cols Fe cw = .ok m) (x : Typed.X) (hx : TypedGood T F Fe x) (y : List ℤ)
    (hy : LabelsFit S (counts T x.nodeFeatures) y) (w : ℕ → ℚ) (solver : Typed.Solver) (r : Typed.Solution)
    (hr : ∀ us ps es, solver us ps es = .ok r) :
    (r.unsolved = true → (typedModel solver m).lossAug x (.discrete y) w true = .lists r.unary r.pairwise) ∧
    ∀ z, Typed.decode r.unary = .ok z → (typedModel solver m).lossAug x (.discrete y) w false = .discrete z ∧
      (r.unsolved = false → (typedModel solver m).lossAug x (.discrete y) w true = .discrete z) := by
  obtain ⟨hg, e1, e2, e3, e4⟩ := construct_good hm
  have hsz : m.size = typedSize T S F Fe := by rw [size_eq hg, e1, e2, e3, e4]
  obtain ⟨us, ps, us', hus, hps, ha, -, -, -⟩ := C74_augmented_energy hm x hx.1 hx.2.1 hx.2.2 ⟨m.size, w⟩ hsz y hy
  have key : ∀ relaxed, (typedModel solver m).lossAug x (.discrete y) w relaxed =
      (okD (.discrete y, 0) (Typed.inferenceMulti solver us' ps (Typed.edgeLists x) relaxed false)).1 := by
    intro relaxed
    change typedLossAug solver m x (.discrete y) w relaxed = _
    unfold typedLossAug
    simp only
    unfold Typed.lossAugmentedInference
    rw [GraphCRF.checkSizeW_ok (show (⟨m.size, w⟩ : Vec).size = m.size from rfl), hus, hps]
    simp only [bind, Except.bind]
    rw [ha]
  have hinf : ∀ relaxed, Typed.inferenceMulti solver us' ps (Typed.edgeLists x) relaxed false =
      if r.unsolved && relaxed then .ok (.lists r.unary r.pairwise, -r.energy)
      else match Typed.decode r.unary with
        | .error e => .error e
        | .ok z => .ok (.discrete z, -r.energy) := by
    intro relaxed
    unfold Typed.inferenceMulti
    rw [hr]
    simp only [bind, Except.bind, Bool.false_and, Bool.false_eq_true, if_false, pure, Except.pure]
    cases Typed.decode r.unary <;> rfl
  refine ⟨fun hu => ?_, fun z hz => ⟨?_, fun hu => ?_⟩⟩
  · rw [key, hinf, hu]
    rfl
  · rw [key, hinf, Bool.and_false, hz]
    rfl
  · rw [key, hinf, hu, hz]
    rfl

/-- **C140**, relaxed inference: if AD3 reports a fractional solution, `inference` with `relaxed=True` returns its marginals, and with
`relaxed=False` the label of largest marginal at every node; an integral solution is returned as labels in both cases. -/
theorem C140_relaxed {T : ℕ} {S F : List ℕ} {rows cols : ℕ} {Fe : ℕ → ℕ → ℕ} {cw : Option (List Vec)} {m : Typed.Model}
    (hm : Typed.construct T S F rows cols Fe cw = .ok m) (x : Typed.X) (hx : TypedGood T F Fe x) (y : List ℤ)
    (hy : LabelsFit S (counts T x.nodeFeatures) y) (w : ℕ → ℚ) (solver : Typed.Solver) (r : Typed.Solution)
    (hr : ∀ us ps es, solver us ps es = .ok r) (ie : Bool) :
    (r.unsolved = true → Typed.inference solver m ie x ⟨m.size, w⟩ true = .ok (.lists r.unary r.pairwise, -r.energy)) ∧
    ∀ z, Typed.decode r.unary = .ok z → Typed.inference solver m ie x ⟨m.size, w⟩ false = .ok (.discrete z, -r.energy) ∧
      (r.unsolved = false → Typed.inference solver m ie x ⟨m.size, w⟩ true = .ok (.discrete z, -r.energy)) := by
  obtain ⟨hg, e1, e2, e3, e4⟩ := construct_good hm
  have hsz : m.size = typedSize T S F Fe := by rw [size_eq hg, e1, e2, e3, e4]
  obtain ⟨us, ps, -, hus, hps, -, -, -, -⟩ := C74_augmented_energy hm x hx.1 hx.2.1 hx.2.2 ⟨m.size, w⟩ hsz y hy
  have key : ∀ relaxed, Typed.inference solver m ie x ⟨m.size, w⟩ relaxed =
      Typed.inferenceMulti solver us ps (Typed.edgeLists x) relaxed false := by
    intro relaxed
    unfold Typed.inference
    rw [GraphCRF.checkSizeW_ok (show (⟨m.size, w⟩ : Vec).size = m.size from rfl), hus, hps]
    rfl
  have hinf : ∀ relaxed, Typed.inferenceMulti solver us ps (Typed.edgeLists x) relaxed false =
      if r.unsolved && relaxed then .ok (.lists r.unary r.pairwise, -r.energy)
      else match Typed.decode r.unary with
        | .error e => .error e
        | .ok z => .ok (.discrete z, -r.energy) := by
    intro relaxed
    unfold Typed.inferenceMulti
    rw [hr]
    simp only [bind, Except.bind, Bool.false_and, Bool.false_eq_true, if_false, pure, Except.pure]
    cases Typed.decode r.unary <;> rfl
  refine ⟨fun hu => ?_, fun z hz => ⟨?_, fun hu => ?_⟩⟩
  · rw [key, hinf, hu]
    rfl
  · rw [key, hinf, Bool.and_false, if_neg (by decide), hz]
  · rw [key, hinf, hu, Bool.false_and, if_neg (by decide), hz]

/-! ### C123 -/

section Log

open Verif.Logger Verif.TrainingLog Verif.Subgradient

variable {X Y H : Type}

/-- **C123**, `NSlackSSVM`: in the final call the logger sees the weights, constraints and curves of the trained learner. -/
theorem C123_n_slack_final (m : SModel X Y) (qp : QP.Solver) (eq : Y → Y → Bool) (intr : ℕ → ℕ → Option OneSlack.Phase)
    (o o' : NSlack.Obj Y) (samples : List (X × Y)) (cs : Option (List (List (NSlack.NCon Y)))) (out : NSlack.Outcome)
    (h : NSlack.fit m qp eq none intr o samples cs = .ok (o', out)) :
    ∃ a, o'.attrs = some a ∧ ∀ l, (l, Iter.final) ∈ nCalls m qp eq none intr o samples cs →
      l.state.w = a.w ∧ l.state.constraints = some a.constraints ∧ l.state.lastActive = a.lastActive ∧
        l.state.objectiveCurve = a.objectiveCurve ∧ l.state.primalCurve = a.primalCurve ∧ l.state.lossCurve = o'.lossCurve := by
  obtain ⟨L, n, a, -, ha, hcalls, -, -⟩ := C123_n_slack_partial m qp eq intr o o' samples cs out h
  refine ⟨a, ha, fun l hl => ?_⟩
  rw [hcalls] at hl
  simp only [trainingCalls, List.mem_append, List.mem_map, List.mem_range, Prod.mk.injEq, reduceCtorEq, and_false, exists_false,
    false_or, List.mem_singleton, and_true] at hl
  subst hl
  exact ⟨rfl, rfl, rfl, rfl, rfl, rfl⟩

/-- The states after the iterations, and the calls made: `R i` is where the first `i` iterations lead. -/
theorem subLatentLoopCalls_spec (L : SubgradientLatent.SLModel X Y H) (cfg : Subgradient.Config) (jobs : SubgradientLatent.Jobs)
    (lr : ℚ) (samples : List (X × Y)) : ∀ (fuel it : ℕ) (st : Subgradient.St) (c : Curves),
      ∃ (R : ℕ → Subgradient.St × Curves) (n : ℕ), n ≤ fuel ∧ R 0 = (st, c) ∧
      (∀ i ≤ n, SubgradientLatent.loop L cfg jobs lr samples i it st c = .ok (R i) ∧
        (R i).2.objective.length = c.objective.length + i) ∧
      subLatentLoopCalls L cfg jobs lr samples fuel it st c =
        (List.range n).map (fun i => (⟨⟨cfg, some (R (i + 1)).1.selfW, (R (i + 1)).1.t, some lr, (R (i + 1)).2⟩, none⟩, .num (it + i)))
  | 0, it, st, c => ⟨fun _ => (st, c), 0, le_refl _, rfl, fun i hi => by
      obtain rfl : i = 0 := by omega
      exact ⟨rfl, rfl⟩, rfl⟩
  | fuel + 1, it, st, c => by
    have none : ∃ (R : ℕ → Subgradient.St × Curves) (n : ℕ), n ≤ fuel + 1 ∧ R 0 = (st, c) ∧
      (∀ i ≤ n, SubgradientLatent.loop L cfg jobs lr samples i it st c = .ok (R i) ∧
        (R i).2.objective.length = c.objective.length + i) ∧
      ([] : List (Call Subgradient.Obj Empty)) = (List.range n).map
        (fun i => (⟨⟨cfg, some (R (i + 1)).1.selfW, (R (i + 1)).1.t, some lr, (R (i + 1)).2⟩, none⟩, .num (it + i))) :=
      ⟨fun _ => (st, c), 0, by omega, rfl, fun i hi => by
        obtain rfl : i = 0 := by omega
        exact ⟨rfl, rfl⟩, rfl⟩
    unfold subLatentLoopCalls
    cases hl : SubgradientLatent.pass L cfg jobs lr samples st with
    | error e => exact none
    | ok sp =>
      obtain ⟨s, p, obj⟩ := sp
      simp only
      by_cases hp : p = 0 ∧ cfg.breakOnNoConstraints = true
      · rw [if_pos hp]; exact none
      · rw [if_neg hp]
        generalize hc : (⟨c.objective ++ [obj * cfg.C + (∑ k ∈ range L.m.dim, s.selfW k ^ 2) / 2],
          SubgradientLatent.trainingLoss L cfg.showLossEvery s.selfW samples it c.loss⟩ : Curves) = c'
        obtain ⟨R, n, hn, h0, hstep, hcalls⟩ := subLatentLoopCalls_spec L cfg jobs lr samples fuel (it + 1) s c'
        refine ⟨fun i => match i with | 0 => (st, c) | i + 1 => R i, n + 1, by omega, rfl, ?_, ?_⟩
        · intro i hi
          cases i with
          | zero => exact ⟨rfl, rfl⟩
          | succ i =>
            obtain ⟨h1, h2⟩ := hstep i (by omega)
            constructor
            · rw [SubgradientLatent.loop, hl]
              simp only
              rw [if_neg hp, hc]
              exact h1
            · simp only [h2, ← hc, List.length_append, List.length_singleton]
              omega
        · rw [hcalls, List.range_succ_eq_map, List.map_cons, List.map_map]
          simp only [Nat.add_zero, h0, List.cons.injEq]
          refine ⟨trivial, ?_⟩
          apply List.map_congr_left
          intro i _
          simp only [Function.comp, Nat.succ_eq_add_one]
          rw [show it + 1 + i = it + (i + 1) from by omega]

/-- **C123**, `SubgradientLatentSSVM`: a training that returns calls the logger with the iterations `0, …, n - 1`, `n ≤ max_iter`, in
this order, and once with `'final'`. The call of iteration `i` sees the learner that a loop of `i + 1` iterations ends with, whose
objective curve has `i + 1` new entries. -/
theorem C123_subgradient_latent (L : SubgradientLatent.SLModel X Y H) (jobs : SubgradientLatent.Jobs) (w0 : W) (o o' : Subgradient.Obj)
    (samples : List (X × Y)) (warm : Bool) (h : SubgradientLatent.fit L jobs w0 o samples warm = .ok o') :
    ∃ lr curve K n, Subgradient.setup o samples.length warm = .ok (lr, curve) ∧ n ≤ o.cfg.maxIter ∧
      subLatentCalls L jobs w0 o samples warm = trainingCalls K n ++ [(⟨o', none⟩, .final)] ∧
      ∀ i < n, (K i).state.curves.objective.length = curve.length + (i + 1) ∧
        ∃ st c, SubgradientLatent.loop L o.cfg jobs lr samples (i + 1) 0 ⟨o.w.getD w0, fun _ => 0, o.w.getD w0, o.t⟩
            ⟨curve, o.curves.loss⟩ = .ok (st, c) ∧
          (K i).state = ⟨o.cfg, some st.selfW, st.t, some lr, c⟩ := by
  obtain ⟨lr, curve, hset⟩ : ∃ lr curve, setup o samples.length warm = .ok (lr, curve) := by
    unfold SubgradientLatent.fit at h
    cases hst : setup o samples.length warm with
    | error e => rw [hst] at h; cases h
    | ok r => exact ⟨r.1, r.2, rfl⟩
  obtain ⟨R, n, hn, -, hR, hcalls⟩ := subLatentLoopCalls_spec L o.cfg jobs lr samples o.cfg.maxIter 0
    ⟨o.w.getD w0, fun _ => 0, o.w.getD w0, o.t⟩ ⟨curve, o.curves.loss⟩
  refine ⟨lr, curve, fun i => ⟨⟨o.cfg, some (R (i + 1)).1.selfW, (R (i + 1)).1.t, some lr, (R (i + 1)).2⟩, none⟩, n, hset, hn, ?_,
    fun i hi => ⟨(hR (i + 1) (by omega)).2, (R (i + 1)).1, (R (i + 1)).2, (hR (i + 1) (by omega)).1, rfl⟩⟩
  unfold subLatentCalls
  rw [hset]
  simp only [hcalls, h, Nat.zero_add]
  rfl

end Log

/-! ### C127 -/

/-- **C127**, weights assigned through a `LatentSSVM` are those a `SubgradientSSVM` as base learner starts from; without weights it
starts from zero, and a number in place of an array is an `AttributeError`. -/
theorem C127_start {M R : Type} (o : LatentSSVM.Facade M R) (size : ℕ) (v : Vec) (a : ℚ) :
    LatentSSVM.subgradientStart size (o.setW (.array v)).base.w = .ok v ∧
    LatentSSVM.subgradientStart size (o.setW (.number a)).base.w = .error .attributeError ∧
    (o.w = .error .attributeError → LatentSSVM.subgradientStart size o.base.w = .ok ⟨size, fun _ => 0⟩) := by
  refine ⟨rfl, rfl, fun h => ?_⟩
  unfold LatentSSVM.Facade.w at h
  cases hw : o.base.w with
  | none => rfl
  | some v => rw [hw] at h; cases h

/-! ### C137 -/

theorem nodeContinuousLoss_value {nv nh L S : ℕ} {cw : Vec} {h : Labels} (hcw : cw.size = L) (hh : h.size = nv + nh) (hLS : L ≤ S)
    (hS : 1 ≤ S) (hl : Legal nv nh L S h.get) {u : Vec} {p : Vec} (hu : u.size = (nv + nh) * S) :
    nodeContinuousLoss L S cw (.discrete h) (.relaxed u p) =
      ∑ i ∈ range nv, cw.get (h.get i) * (1 - u.get (i * S + h.get i)) := by
  unfold nodeContinuousLoss
  simp only
  rw [C137_node_continuous_loss nv nh L S cw h hcw hh hl _ (by
    simp only
    rw [hu, Nat.mul_div_cancel _ (by omega)]
    omega) hLS]
  rfl

theorem nodeMaxLoss_value {nv nh L S : ℕ} {cw : Vec} {h : Labels} (hcw : cw.size = L) (hh : h.size = nv + nh)
    (hl : Legal nv nh L S h.get) : nodeMaxLoss L cw (.discrete h) = ∑ i ∈ range nv, cw.get (h.get i) := by
  obtain ⟨s1, g1⟩ := labelFromLatent_legal hh hl
  unfold nodeMaxLoss LatentNode.maxLoss Loss.maxLoss
  simp only
  rw [s1, if_pos (fun i hi => by rw [g1 i hi, hcw]; exact hl.1 i hi)]
  exact sum_congr rfl fun i hi => by rw [g1 i (mem_range.mp hi)]

/-- **C137 (hidden nodes, losses seen by learners).** The loss of a tuple of marginals, as base learners of `LatentNodeCRF` compute
it, is the class weight of every visible node times the mass missing at its true label; `max_loss` is the sum of the class weights of
the visible nodes. -/
theorem C137_node_losses (nv nh : ℕ) (m : LatentNode.Model) (hLS : m.nLabels ≤ m.nStates) (hS : 1 ≤ m.nStates) (cw : Vec)
    (backend : Bool → GraphCRF.Infer) (h : Labels) (hcw : cw.size = m.nLabels) (hh : h.size = nv + nh)
    (hl : Legal nv nh m.nLabels m.nStates h.get) (u : Vec) (p : Vec) (hu : u.size = (nv + nh) * m.nStates) :
    (latentNodeModel backend cw m).lossOf (.discrete h) (.relaxed u p) =
      ∑ i ∈ range nv, cw.get (h.get i) * (1 - u.get (i * m.nStates + h.get i)) ∧
    (latentNodeModel backend cw m).loss (.discrete h) (.relaxed u p) =
      (latentNodeModel backend cw m).lossOf (.discrete h) (.relaxed u p) ∧
    (latentNodeModel backend cw m).maxLoss (.discrete h) = ∑ i ∈ range nv, cw.get (h.get i) :=
  ⟨nodeContinuousLoss_value (p := p) hcw hh hLS hS hl hu, rfl, nodeMaxLoss_value hcw hh hl⟩

/-- **C137 (hidden nodes, losses seen by learners)**, `EdgeFeatureLatentNodeCRF`. -/
theorem C137_edge_node_losses (nv nh : ℕ) (m : LatentNode.EModel) (hLS : m.base.nLabels ≤ m.base.nStates) (hS : 1 ≤ m.base.nStates)
    (cw : Vec) (backend : Bool → GraphCRF.Infer) (h : Labels) (hcw : cw.size = m.base.nLabels) (hh : h.size = nv + nh)
    (hl : Legal nv nh m.base.nLabels m.base.nStates h.get) (u : Vec) (p : Vec) (hu : u.size = (nv + nh) * m.base.nStates) :
    (edgeLatentNodeModel backend cw m).lossOf (.discrete h) (.relaxed u p) =
      ∑ i ∈ range nv, cw.get (h.get i) * (1 - u.get (i * m.base.nStates + h.get i)) ∧
    (edgeLatentNodeModel backend cw m).loss (.discrete h) (.relaxed u p) =
      (edgeLatentNodeModel backend cw m).lossOf (.discrete h) (.relaxed u p) ∧
    (edgeLatentNodeModel backend cw m).maxLoss (.discrete h) = ∑ i ∈ range nv, cw.get (h.get i) :=
  ⟨nodeContinuousLoss_value (p := p) hcw hh hLS hS hl hu, rfl, nodeMaxLoss_value hcw hh hl⟩

/-! ### C139 -/

/-- **C139**, a learner that was not trained has no curves: `plot_learning` raises `AttributeError`. -/
theorem C139_untrained {Y : Type} (time : Bool) (ts : List ℚ) :
    (∀ o : OneSlack.Obj Y, o.attrs = none → Plot.plotLearning time (Plot.ofOneSlack (o, ts)) = .error .attributeError) ∧
    (∀ o : NSlack.Obj Y, o.attrs = none → Plot.plotLearning time (Plot.ofNSlack (o, ts)) = .error .attributeError) ∧
    (∀ o : Subgradient.Obj, o.curves.objective = [] → Plot.plotLearning time (Plot.ofSubgradient (o, ts)) = .error .attributeError) ∧
    (∀ o : FrankWolfe.Obj, o.curves.dual = [] → Plot.plotLearning time (Plot.ofFrankWolfe (o, ts)) = .error .attributeError) ∧
    ∀ o : Perceptron.Obj, Plot.plotLearning time (Plot.ofPerceptron o) = .error .attributeError := by
  refine ⟨fun o h => ?_, fun o h => ?_, fun o h => ?_, fun o h => ?_, fun o => rfl⟩
  · unfold Plot.ofOneSlack Plot.plotLearning
    simp only [h]
  · unfold Plot.ofNSlack Plot.plotLearning
    simp only [h]
  · unfold Plot.ofSubgradient Plot.plotLearning
    simp only [h]
    rfl
  · unfold Plot.ofFrankWolfe Plot.plotLearning
    simp only [h]
    rfl

/-! ### Concrete cases -/

example : ∃ m, Typed.construct 2 [2, 3] [1, 1] 2 2 (fun _ _ => 1) none = .ok m ∧
    (typedModel (fun _ _ _ => .ok ⟨[⟨2, 2, fun _ _ => 1 / 2⟩, ⟨1, 3, fun _ _ => 1 / 3⟩], [], 0, true⟩) m).lossAug typedPair
      (.discrete [1, 0, 4]) (fun k => k) false = .discrete [0, 0, 2] := by
  refine ⟨_, rfl, ?_⟩
  obtain ⟨h1, h2⟩ := typedPair_data _ (List.mem_singleton.mpr rfl)
  exact ((C74_relaxed (rows := 2) (cols := 2) (cw := none) rfl typedPair h1 [1, 0, 4] h2 (fun k => k) _ _ fun _ _ _ => rfl).2 [0, 0, 2] (by decide +kernel)).1

example : ∃ m, Typed.construct 2 [2, 3] [1, 1] 2 2 (fun _ _ => 1) none = .ok m ∧
    Typed.inference (fun _ _ _ => .ok ⟨[⟨2, 2, fun _ _ => 1 / 2⟩, ⟨1, 3, fun _ _ => 1 / 3⟩], [], 7, true⟩) m true typedPair
      ⟨m.size, fun k => k⟩ true = .ok (.lists [⟨2, 2, fun _ _ => 1 / 2⟩, ⟨1, 3, fun _ _ => 1 / 3⟩] [], -7) := by
  refine ⟨_, rfl, ?_⟩
  obtain ⟨h1, h2⟩ := typedPair_data _ (List.mem_singleton.mpr rfl)
  exact (C140_relaxed (rows := 2) (cols := 2) (cw := none) rfl typedPair h1 [1, 0, 4] h2 (fun k => k) _ _ (fun _ _ _ => rfl) true).1 rfl

example : (latentNodeModel (fun _ _ _ _ => .error .valueError) ⟨2, fun c => c + 1⟩ ⟨2, 2, 1, false⟩).maxLoss
    (.discrete ⟨3, fun i => if i < 2 then i else 3⟩) = 3 := by
  rw [(C137_node_losses 2 1 _ (by decide) (by decide) _ _ _ rfl rfl nodePair_legal ⟨12, fun _ => 1 / 4⟩ ⟨0, fun _ => 0⟩ rfl).2.2]
  decide +kernel

end Verif.Props
