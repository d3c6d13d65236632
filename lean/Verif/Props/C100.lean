import Verif.Props.C99
import Verif.Props.C91

/-!
# C100: on forests, training with relaxed inference minimises the exact risk
-/

namespace Verif.Props

open Finset Verif.Common Verif.GraphCRF Verif.Spec Verif.Learner Verif.Dispatch Verif.MaxProd

/-- On a forest the hinge loss over labellings is also the hinge loss over relaxed labellings. -/
theorem forest_hinge (bk : Bool → Infer) (cw : Vec) (m : Model) (hS : 1 ≤ m.nStates) (hc : cw.size = m.nStates)
    (x : X) (hcyc : ¬ HasCycle x.edges) (t : Labels) (ht : t.size = x.features.rows)
    (htv : Valid x.features.rows m.nStates t.get) (w : W) (h : ℚ)
    (hh : (problemOf (graphModel bk cw m) (outputsOver m (labellings m.nStates))).IsHinge w x (.discrete t) h) :
    (problemOf (graphModel bk cw m) (outputsOver m (relaxedOutputs m.nStates))).IsHinge w x (.discrete t) h := by
  obtain ⟨⟨v0, hv0, e0⟩, hub⟩ := hh
  refine ⟨⟨v0, labellings_subset m x hv0, e0⟩, ?_⟩
  rintro _ ⟨v, ⟨⟨hn, hF, hE⟩, hv⟩, rfl⟩
  obtain ⟨y, hy, hmax⟩ := C99_polytope_tight x.features.rows m.nStates hS x.edges hE hcyc
    (fun i s => if s = t.get i then UN m x.features w i s else UN m x.features w i s + cw.get (t.get i))
    (fun _ => PW m w)
  have hyl : IsRelaxed x.features.rows m.nStates x.edges (.discrete ⟨x.features.rows, y⟩) :=
    .inl ⟨_, rfl, rfl, hy.1⟩
  have hyo : (.discrete ⟨x.features.rows, y⟩ : YVal) ∈ outputsOver m (labellings m.nStates) x :=
    ⟨⟨hn, hF, hE⟩, _, rfl, rfl, hy.1⟩
  refine le_trans ?_ (hub ⟨_, hyo, rfl⟩)
  have h1 := hmax _ _ (isRelaxed_polytope hE hv)
  have h2 := outputScore_labelling hE (y := ⟨x.features.rows, y⟩) hy.1
    (fun i s => if s = t.get i then UN m x.features w i s else UN m x.features w i s + cw.get (t.get i)) (PW m w)
  simp only at h2
  rw [← h2] at h1
  change outputScore _ _ _ _ _ v ≤ _ at h1
  rw [outputScore_augment _ _ _ _ htv (isRelaxed_polytope hE hv),
    outputScore_augment _ _ _ _ htv (isRelaxed_polytope hE hyl),
    ← value_output hF hE hS hv w, ← value_output hF hE hS hyl w,
    ← lossOf_output (backend := bk) hS hc ht htv hv, ← lossOf_output (backend := bk) hS hc ht htv hyl] at h1
  change (graphModel bk cw m).lossOf (.discrete t) v + dot (sizeJointFeature m) w (graphFeature m x v) -
      dot (sizeJointFeature m) w (graphFeature m x (.discrete t)) ≤
    (graphModel bk cw m).lossOf (.discrete t) (.discrete ⟨x.features.rows, y⟩) +
      dot (sizeJointFeature m) w (graphFeature m x (.discrete ⟨x.features.rows, y⟩)) -
      dot (sizeJointFeature m) w (graphFeature m x (.discrete t))
  linarith

/-- **C100a.** If all training graphs are forests, the risk over relaxed labellings and the risk over labellings are
the same function of the weights. -/
theorem C100_risks_agree (bk : Bool → Infer) (cw : Vec) (m : Model) (hS : 1 ≤ m.nStates) (hc : cw.size = m.nStates)
    (data : List (X × Labels)) (hd : GraphData m data) (hcyc : ∀ d ∈ data, ¬ HasCycle d.1.edges) (C : ℚ) (w : W)
    (p : ℚ) :
    (problemOf (graphModel bk cw m) (outputsOver m (relaxedOutputs m.nStates))).IsObjective C (graphSamples data) w p ↔
      (problemOf (graphModel bk cw m) (outputsOver m (labellings m.nStates))).IsObjective C (graphSamples data) w p := by
  have key : ∀ hs, List.Forall₂ (fun s h => (problemOf (graphModel bk cw m)
        (outputsOver m (labellings m.nStates))).IsHinge w s.1 s.2 h) (graphSamples data) hs →
      List.Forall₂ (fun s h => (problemOf (graphModel bk cw m)
        (outputsOver m (relaxedOutputs m.nStates))).IsHinge w s.1 s.2 h) (graphSamples data) hs := by
    unfold graphSamples
    intro hs hf
    rw [List.forall₂_map_left_iff] at hf ⊢
    induction hf with
    | nil => exact .nil
    | cons hh _ ih =>
      obtain ⟨_, h2, h3⟩ := hd _ List.mem_cons_self
      exact .cons (forest_hinge bk cw m hS hc _ (hcyc _ List.mem_cons_self) _ h2 h3 w _ hh)
        (ih (fun d h => hd d (List.mem_cons_of_mem _ h)) (fun d h => hcyc d (List.mem_cons_of_mem _ h)))
  constructor
  · rintro ⟨ks, kf, rfl⟩
    obtain ⟨q, hs, hf, hq⟩ := labellings_objective bk cw m hS hc data hd C w
    refine ⟨hs, hf, ?_⟩
    have huniq : ks = hs := by
      have hf' := key hs hf
      clear hf hq
      generalize graphSamples data = l at kf hf'
      induction kf generalizing hs with
      | nil => cases hf'; rfl
      | cons a _ ih =>
        cases hf' with
        | cons b hf' => rw [a.unique b, ih _ hf']
    rw [huniq]
    rfl
  · rintro ⟨hs, hf, rfl⟩
    exact ⟨hs, key hs hf, rfl⟩

/-- **C100b.** One-slack training in the situation of `C91_relaxed_oneslack` (relaxed inference by `lp` or `ad3`), if
all training graphs are forests: training returns, and the risk of the learned weights over all labellings is within
`C n tol` of that of any weights. -/
theorem C100_oneslack (P : Packages) (method : Method) (cw : Vec) (m : Model) (hS : 2 ≤ m.nStates)
    (hP : Relaxes m.nStates P method) (hc : cw.size = m.nStates)
    (hpos : ∀ c < m.nStates, 0 < cw.get c) (data : List (X × Labels)) (hne : data ≠ []) (hd : GraphData m data)
    (hcyc : ∀ d ∈ data, ¬ HasCycle d.1.edges)
    (qp : QP.Solver) (hqp : QP.Exact qp) (hcomp : QP.Complete qp) (eq : YVal → YVal → Except PyErr Bool)
    (o : OneSlack.Obj YVal) (heq : o.cfg.inferenceCache = 0 ∨ ∀ a b, ∃ r, eq a b = .ok r) (hC : 0 < o.cfg.C)
    (htol : 0 < o.cfg.tol) (htol1 : o.cfg.tol ≤ 1) (hneg : o.cfg.negativity = none)
    (hthr : o.cfg.inactiveThreshold ≤ 1) (hbr : o.cfg.breakOnBad = false) (hwin : o.cfg.inactiveWindow = 0)
    (hmi : o.cfg.maxIter ≠ 0)
    (R : ℚ) (hR0 : 0 ≤ R) (hR : ∀ d ∈ data, featureBound m d.1 ≤ R)
    (μ : ℚ) (hμ0 : 0 ≤ μ) (hμ1 : 2 * μ ≤ o.cfg.C * data.length * o.cfg.tol) (hμ2 : 2 * R * μ ≤ o.cfg.tol ^ 2)
    (hmax : o.cfg.C * (data.map fun d => ∑ i ∈ range d.2.size, cw.get (d.2.get i)).sum <
      ((o.cfg.maxIter : ℚ) - 1) * μ) :
    ∃ o' a p, OneSlack.fit (graphModel (backend P method) cw m) qp eq none (fun _ => none) o (graphSamples data) .no =
        .ok o' ∧ o'.attrs = some a ∧
      (graphProblem P method cw m (labellings m.nStates)).IsObjective o.cfg.C (graphSamples data) a.w p ∧
      ∀ w obj, (graphProblem P method cw m (labellings m.nStates)).IsObjective o.cfg.C (graphSamples data) w obj →
        p ≤ obj + o.cfg.C * data.length * o.cfg.tol := by
  obtain ⟨o', a, p, _, h1, h2, h3, _, _, h6⟩ := C91_relaxed_oneslack P method cw m hS hP hc hpos data hne hd qp hqp hcomp
    eq o heq hC htol htol1 hneg hthr hbr hwin hmi R hR0 hR μ hμ0 hμ1 hμ2 hmax
  have hag := C100_risks_agree (backend P method) cw m (by omega) hc data hd hcyc o.cfg.C
  exact ⟨o', a, p, h1, h2, (hag _ _).mp h3, fun w obj hw => h6 w obj ((hag _ _).mpr hw)⟩

/-- **C100c.** The same for Frank-Wolfe training in the situation of `C91_relaxed_frankwolfe`. -/
theorem C100_frankwolfe (P : Packages) (method : Method) (cw : Vec) (m : Model) (hS : 1 ≤ m.nStates)
    (hP : Relaxes m.nStates P method) (hc : cw.size = m.nStates)
    (hpos : ∀ c < m.nStates, 0 ≤ cw.get c) (data : List (X × Labels)) (hne : data ≠ []) (hd : GraphData m data)
    (hcyc : ∀ d ∈ data, ¬ HasCycle d.1.edges)
    (order : ℕ → List ℕ) (ho : VisitsAll data.length order) (o : FrankWolfe.Obj) (hw : o.w = none) (hol : o.l = none)
    (hb : o.cfg.batchMode = false) (hls : o.cfg.lineSearch = true) (hav : o.cfg.averaging = false)
    (hC : 0 ≤ o.cfg.C) (htol : 0 < o.cfg.tol) (hck : o.cfg.checkDualEvery ≠ 0) (hm : o.cfg.maxIter ≠ 0)
    (R : ℚ) (hR0 : 0 ≤ R) (hR : ∀ d ∈ data, featureBound m d.1 ≤ R) :
    let n : ℚ := data.length
    let H : ℚ := o.cfg.C * (data.map fun d => ∑ i ∈ range d.2.size, cw.get (d.2.get i)).sum
    let K : ℚ := 4 * n ^ 2 * (o.cfg.C ^ 2 * R + 1 / 10 ^ 15 + H + n * o.cfg.C ^ 2 * R)
    o.cfg.checkDualEvery * (K * H) < o.cfg.maxIter * o.cfg.tol ^ 2 →
    ∃ o' w p, FrankWolfe.fit (graphModel (backend P method) cw m) order o (graphSamples data) = .ok o' ∧ o'.w = some w ∧
      (graphProblem P method cw m (labellings m.nStates)).IsObjective o.cfg.C (graphSamples data) w p ∧
      ∀ v obj, (graphProblem P method cw m (labellings m.nStates)).IsObjective o.cfg.C (graphSamples data) v obj →
        p < obj + o.cfg.tol := by
  intro n H K hmax
  obtain ⟨o', w, p, _, h1, h2, h3, _, _, h6⟩ := C91_relaxed_frankwolfe P method cw m hS hP hc hpos data hne hd order ho o hw
    hol hb hls hav hC htol hck hm R hR0 hR hmax
  have hag := C100_risks_agree (backend P method) cw m hS hc data hd hcyc o.cfg.C
  exact ⟨o', w, p, h1, h2, (hag _ _).mp h3, fun v obj hv => h6 v obj ((hag _ _).mpr hv)⟩

/-! ### examples -/

/-- a star with three vertices and one feature per vertex, and its labels. -/
def starData : List (X × Labels) := [(⟨⟨3, 1, fun i _ => i⟩, [(0, 1), (2, 1)]⟩, ⟨3, fun i => if i = 2 then 1 else 0⟩)]

theorem star_data : GraphData triangleModel starData ∧ ∀ d ∈ starData, ¬ HasCycle d.1.edges := by
  refine ⟨fun d hd => ?_, fun d hd => ?_⟩ <;> (rw [starData, List.mem_singleton] at hd; subst hd)
  · refine ⟨⟨by decide, rfl, ?_⟩, rfl, ?_⟩
    · unfold EdgesIn; decide
    · unfold Valid; decide
  · exact (explore_isSome_iff (n := 3) true (by unfold EdgesIn; decide)).mp (by decide +kernel)

theorem star_bound : ∀ d ∈ starData, featureBound triangleModel d.1 ≤ 126 := by
  intro d hd
  rw [starData, List.mem_singleton] at hd
  subst hd
  decide +kernel

/-- All hypotheses of `C100_oneslack` can be met. -/
example : ∃ o' a, OneSlack.fit (graphModel (backend idealPackages (.name "lp")) ⟨2, fun _ => 1⟩ triangleModel) QP.ideal
    (fun _ _ => .error .typeError) none (fun _ => none)
    ⟨⟨4000, 1, false, none, false, 0, 1 / 2, 0, 1 / 10 ^ 5, 0, .auto⟩, none, []⟩ (graphSamples starData) .no = .ok o' ∧
    o'.attrs = some a := by
  obtain ⟨o', a, p, h1, h2, -⟩ := C100_oneslack idealPackages (.name "lp") ⟨2, fun _ => 1⟩ triangleModel (by decide)
    (idealPackages_relaxes _ (by decide)) rfl (by decide +kernel) starData (by decide) star_data.1 star_data.2 QP.ideal
    QP.ideal_exact.1 QP.ideal_exact.2 (fun _ _ => .error .typeError)
    ⟨⟨4000, 1, false, none, false, 0, 1 / 2, 0, 1 / 10 ^ 5, 0, .auto⟩, none, []⟩ (.inl rfl) (by norm_num) (by norm_num)
    (by norm_num) rfl (by norm_num) rfl rfl (by norm_num) 126 (by norm_num) star_bound (1 / 1008) (by norm_num)
    (by decide +kernel) (by decide +kernel) (by decide +kernel)
  exact ⟨o', a, h1, h2⟩

/-- All hypotheses of `C100_frankwolfe` can be met. -/
example : ∃ o' w, FrankWolfe.fit (graphModel (backend idealPackages (.name "lp")) ⟨2, fun _ => 1⟩ triangleModel)
      (fun _ => [0]) ⟨⟨10 ^ 6, 1, 1, false, true, 1, false⟩, none, none, ⟨[], []⟩⟩ (graphSamples starData) =
      .ok o' ∧ o'.w = some w := by
  obtain ⟨o', w, p, h1, h2, -⟩ := C100_frankwolfe idealPackages (.name "lp") ⟨2, fun _ => 1⟩ triangleModel (by decide)
    (idealPackages_relaxes _ (by decide)) rfl (by decide +kernel) starData (by decide) star_data.1 star_data.2
    (fun _ => [0]) (fun _ => List.Perm.refl _) ⟨⟨10 ^ 6, 1, 1, false, true, 1, false⟩, none, none, ⟨[], []⟩⟩
    rfl rfl rfl rfl rfl (by norm_num) (by norm_num) (by decide) (by decide) 126 (by norm_num) star_bound
    (by decide +kernel)
  exact ⟨o', w, h1, h2⟩

end Verif.Props
