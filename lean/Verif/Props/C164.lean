import Verif.Props.C112
import Verif.Props.C119
import Verif.Props.C103
import Verif.Props.C43
import Verif.Props.C100

/-!
# C164: `negativity_constraint` on the mixed pairwise weight of a binary `GraphCRF`

The pairwise weights that are learned add up to zero (C112), so it is enough to constrain the weight of disagreement to get weights
that reward agreement: inference by linear programming is then exact, on every graph.
-/

namespace Verif.Props

open Finset Verif.Common Verif.GraphCRF Verif.Spec Verif.Learner Verif.Dispatch Verif.Lemmas Verif.MaxProd

/-- The weights of disagreement of a `GraphCRF` with two states are among those the constraint lists. -/
def ListsDisagreement (m : Model) (ks : List ℕ) : Prop :=
  2 * m.nFeatures + 1 ∈ ks ∧ (m.directed → 2 * m.nFeatures + 2 ∈ ks)

/-- the pairwise weights of a model with two states. -/
theorem pairwise_sum {m : Model} (hS : m.nStates = 2) (w : W) :
    ∑ k ∈ Ico (m.nStates * m.nFeatures) (sizeJointFeature m), w k =
      if m.directed then w (2 * m.nFeatures) + w (2 * m.nFeatures + 1) + w (2 * m.nFeatures + 2) + w (2 * m.nFeatures + 3)
      else w (2 * m.nFeatures) + w (2 * m.nFeatures + 1) + w (2 * m.nFeatures + 2) := by
  rw [sum_Ico_eq_sum_range]
  unfold sizeJointFeature
  rw [hS]
  by_cases hd : m.directed
  · simp only [hd, if_true]
    rw [show 2 * m.nFeatures + 2 ^ 2 - 2 * m.nFeatures = 4 by omega]
    simp [sum_range_succ]
  · simp only [hd]
    simp only [Bool.false_eq_true, if_false]
    rw [show 2 * m.nFeatures + 2 * (2 + 1) / 2 - 2 * m.nFeatures = 3 by omega]
    simp [sum_range_succ]

/-- Pairwise weights that add up to zero and do not reward disagreement reward agreement. -/
theorem attractive_of_sum {m : Model} (hS : m.nStates = 2) {w : W} {ks : List ℕ} (hk : ListsDisagreement m ks)
    (hneg : ∀ k ∈ ks, w k ≤ 0) (h : ∑ k ∈ Ico (m.nStates * m.nFeatures) (sizeJointFeature m), w k = 0) : AttractiveWeights m w := by
  rw [pairwise_sum hS] at h
  unfold AttractiveWeights
  have h1 := hneg _ hk.1
  by_cases hd : m.directed
  · simp only [hd, if_true] at h ⊢
    have h2 := hneg _ (hk.2 hd)
    linarith
  · simp only [hd] at h ⊢
    simp only [Bool.false_eq_true, if_false] at h ⊢
    linarith

/-- **C164a.** One-slack training of a `GraphCRF` with two states, with any inference method, any interrupts and any earlier training,
where `negativity_constraint` lists the weight of disagreement (both, if edges are directed) and the QP solver returns feasible points:
the pairwise weights learned reward agreement. -/
theorem C164_one_slack (bk : Bool → Infer) (cw : Vec) (m : Model) (hS : m.nStates = 2) (samples : List (X × YVal))
    (hs : ∀ s ∈ samples, Fits m s.1 ∧ IsLabelling s.1.features.rows m.nStates s.2)
    (hla : ∀ s ∈ samples, ∀ w, IsRelaxed s.1.features.rows m.nStates s.1.edges ((graphModel bk cw m).lossAug s.1 s.2 w true))
    (qp : QP.Solver) (hqp : QP.Sound qp) (eq : YVal → YVal → Except PyErr Bool) (intr : ℕ → Option OneSlack.Phase)
    (o o' : OneSlack.Obj YVal) (ks : List ℕ) (hn : o.cfg.negativity = some ks) (hk : ListsDisagreement m ks)
    (h : OneSlack.fit (graphModel bk cw m) qp eq none intr o samples .no = .ok o') :
    ∃ a, o'.attrs = some a ∧ AttractiveWeights m a.w := by
  obtain ⟨a, ha, hneg⟩ := C61_one_slack _ qp hqp eq none intr o o' samples .no ks hn h
  exact ⟨a, ha, attractive_of_sum hS hk hneg
    (C112_graph bk cw m (by omega) samples hs hla a.w (.oneslack qp eq intr o o' h a ha)).2⟩

/-- **C164b.** The same for n-slack training. -/
theorem C164_n_slack (bk : Bool → Infer) (cw : Vec) (m : Model) (hS : m.nStates = 2) (samples : List (X × YVal))
    (hs : ∀ s ∈ samples, Fits m s.1 ∧ IsLabelling s.1.features.rows m.nStates s.2)
    (hla : ∀ s ∈ samples, ∀ w, IsRelaxed s.1.features.rows m.nStates s.1.edges ((graphModel bk cw m).lossAug s.1 s.2 w true))
    (qp : QP.Solver) (hqp : QP.Sound qp) (eq : YVal → YVal → Bool) (intr : ℕ → ℕ → Option OneSlack.Phase)
    (o o' : NSlack.Obj YVal) (out : NSlack.Outcome) (ks : List ℕ) (hn : o.cfg.negativity = some ks) (hk : ListsDisagreement m ks)
    (h : NSlack.fit (graphModel bk cw m) qp eq none intr o samples none = .ok (o', out)) :
    ∃ a, o'.attrs = some a ∧ AttractiveWeights m a.w := by
  obtain ⟨a, ha, hneg⟩ := C61_n_slack _ qp hqp eq none intr o o' samples none out ks hn h
  exact ⟨a, ha, attractive_of_sum hS hk hneg
    (C112_graph bk cw m (by omega) samples hs hla a.w (.nslack qp eq intr o o' out h a ha)).2⟩

/-- **C164c.** With two states the unary weights learned for the second state are those of the first, negated. -/
theorem C164_opposite (bk : Bool → Infer) (cw : Vec) (m : Model) (hS : m.nStates = 2) (samples : List (X × YVal))
    (hs : ∀ s ∈ samples, Fits m s.1 ∧ IsLabelling s.1.features.rows m.nStates s.2)
    (hla : ∀ s ∈ samples, ∀ w, IsRelaxed s.1.features.rows m.nStates s.1.edges ((graphModel bk cw m).lossAug s.1 s.2 w true))
    (w : W) (h : Learned (graphModel bk cw m) none samples w) : ∀ f < m.nFeatures, w (m.nFeatures + f) = - w f := by
  intro f hf
  have := (C112_graph bk cw m (by omega) samples hs hla w h).1 f hf
  rw [hS, sum_range_succ, sum_range_one] at this
  simp only [Nat.zero_mul, Nat.zero_add, Nat.one_mul] at this
  linarith

/-! ### the risk -/

/-- If the pairwise weights reward agreement, the hinge loss over labellings is also the hinge loss over relaxed labellings. -/
theorem attractive_hinge (bk : Bool → Infer) (cw : Vec) (m : Model) (hS : m.nStates = 2) (hc : cw.size = m.nStates)
    (x : X) (t : Labels) (ht : t.size = x.features.rows)
    (htv : Valid x.features.rows m.nStates t.get) (w : W) (hw : AttractiveWeights m w) (h : ℚ)
    (hh : (problemOf (graphModel bk cw m) (outputsOver m (labellings m.nStates))).IsHinge w x (.discrete t) h) :
    (problemOf (graphModel bk cw m) (outputsOver m (relaxedOutputs m.nStates))).IsHinge w x (.discrete t) h := by
  have hS1 : 1 ≤ m.nStates := by omega
  obtain ⟨⟨v0, hv0, e0⟩, hub⟩ := hh
  refine ⟨⟨v0, labellings_subset m x hv0, e0⟩, ?_⟩
  rintro _ ⟨v, ⟨⟨hn, hF, hE⟩, hv⟩, rfl⟩
  obtain ⟨y, hy, hmax⟩ := C103_polytope_tight x.features.rows m.nStates hS1 x.edges hE
    (fun i s => if s = t.get i then UN m x.features w i s else UN m x.features w i s + cw.get (t.get i))
    (fun _ => PW m w) (by rw [hS]; exact attractive_PW hS hw x.edges)
  have hyl : IsRelaxed x.features.rows m.nStates x.edges (.discrete ⟨x.features.rows, y⟩) :=
    .inl ⟨_, rfl, rfl, hy.1⟩
  have hyo : (.discrete ⟨x.features.rows, y⟩ : YVal) ∈ outputsOver m (labellings m.nStates) x :=
    ⟨⟨hn, hF, hE⟩, _, rfl, rfl, hy.1⟩
  refine le_trans ?_ (hub ⟨_, hyo, rfl⟩)
  have h1 := hmax _ _ (isRelaxed_polytope hE hv)
  have h2 := outputScore_labelling hE (y := ⟨x.features.rows, y⟩) hy.1
    (fun i s => if s = t.get i then UN m x.features w i s else UN m x.features w i s + cw.get (t.get i)) (PW m w)
  simp only at h2
  rw [← h2] at h1
  change outputScore _ _ _ _ _ v ≤ _ at h1
  rw [outputScore_augment _ _ _ _ htv (isRelaxed_polytope hE hv),
    outputScore_augment _ _ _ _ htv (isRelaxed_polytope hE hyl),
    ← value_output hF hE hS1 hv w, ← value_output hF hE hS1 hyl w,
    ← lossOf_output (backend := bk) hS1 hc ht htv hv, ← lossOf_output (backend := bk) hS1 hc ht htv hyl] at h1
  change (graphModel bk cw m).lossOf (.discrete t) v + dot (sizeJointFeature m) w (graphFeature m x v) -
      dot (sizeJointFeature m) w (graphFeature m x (.discrete t)) ≤
    (graphModel bk cw m).lossOf (.discrete t) (.discrete ⟨x.features.rows, y⟩) +
      dot (sizeJointFeature m) w (graphFeature m x (.discrete ⟨x.features.rows, y⟩)) -
      dot (sizeJointFeature m) w (graphFeature m x (.discrete t))
  linarith

/-- **C164d.** At weights that reward agreement, the risk over relaxed labellings is the risk over labellings, on any graphs. -/
theorem C164_risks_agree (bk : Bool → Infer) (cw : Vec) (m : Model) (hS : m.nStates = 2) (hc : cw.size = m.nStates)
    (data : List (X × Labels)) (hd : GraphData m data) (C : ℚ) (w : W) (hw : AttractiveWeights m w) (p : ℚ) :
    (problemOf (graphModel bk cw m) (outputsOver m (relaxedOutputs m.nStates))).IsObjective C (graphSamples data) w p ↔
      (problemOf (graphModel bk cw m) (outputsOver m (labellings m.nStates))).IsObjective C (graphSamples data) w p := by
  have key : ∀ hs, List.Forall₂ (fun s h => (problemOf (graphModel bk cw m)
        (outputsOver m (labellings m.nStates))).IsHinge w s.1 s.2 h) (graphSamples data) hs →
      List.Forall₂ (fun s h => (problemOf (graphModel bk cw m)
        (outputsOver m (relaxedOutputs m.nStates))).IsHinge w s.1 s.2 h) (graphSamples data) hs := by
    unfold graphSamples
    intro hs hf
    rw [List.forall₂_map_left_iff] at hf ⊢
    induction hf with
    | nil => exact .nil
    | cons hh _ ih =>
      obtain ⟨_, h2, h3⟩ := hd _ List.mem_cons_self
      exact .cons (attractive_hinge bk cw m hS hc _ _ h2 h3 w hw _ hh) (ih (fun d h => hd d (List.mem_cons_of_mem _ h)))
  constructor
  · rintro ⟨ks, kf, rfl⟩
    obtain ⟨q, hs, hf, hq⟩ := labellings_objective bk cw m (by omega) hc data hd C w
    refine ⟨hs, hf, ?_⟩
    have huniq : ks = hs := by
      have hf' := key hs hf
      clear hf hq
      generalize graphSamples data = l at kf hf'
      induction kf generalizing hs with
      | nil => cases hf'; rfl
      | cons a _ ih =>
        cases hf' with
        | cons b hf' => rw [a.unique b, ih _ hf']
    rw [huniq]
    rfl
  · rintro ⟨hs, hf, rfl⟩
    exact ⟨hs, key hs hf, rfl⟩

/-- **C164e.** One-slack training of a binary `GraphCRF` on arbitrary graphs, with `lp` or `ad3` that find optima of the relaxation
only, and `negativity_constraint` on the weight of disagreement. The last reported primal objective is the exact risk of the learned
weights, over labellings; and for every graph, `inference` with these weights returns a best labelling. -/
theorem C164_trained (P : Packages) (method : Method) (cw : Vec) (m : Model) (hS : m.nStates = 2)
    (hP : Relaxes 2 P method) (hc : cw.size = 2) (data : List (X × Labels)) (hne : data ≠ []) (hd : GraphData m data)
    (qp : QP.Solver) (hqp : QP.Sound qp) (eq : YVal → YVal → Except PyErr Bool)
    (o o' : OneSlack.Obj YVal) (hC : 0 < o.cfg.C) (ks : List ℕ) (hn : o.cfg.negativity = some ks) (hk : ListsDisagreement m ks)
    (h : OneSlack.fit (graphModel (backend P method) cw m) qp eq none (fun _ => none) o (graphSamples data) .no = .ok o') :
    ∃ a p, o'.attrs = some a ∧ a.primalCurve.getLast? = some p ∧
      (graphProblem P method cw m (labellings 2)).IsObjective o.cfg.C (graphSamples data) a.w p ∧
      ∀ x, Fits m x → ∃ y : Labels, inference (backend P method false) m x ⟨sizeJointFeature m, a.w⟩ = .ok (.discrete y) ∧
        IsLabelling x.features.rows 2 (.discrete y) ∧ ∀ y' : Labels, IsLabelling x.features.rows 2 (.discrete y') →
          ∑ k ∈ range (sizeJointFeature m), a.w k * graphFeature m x (.discrete y') k ≤
            ∑ k ∈ range (sizeJointFeature m), a.w k * graphFeature m x (.discrete y) k := by
  have hS1 : 1 ≤ m.nStates := by omega
  have hex : (problemOf (graphModel (backend P method) cw m) (outputsOver m (relaxedOutputs m.nStates))).ExactLossAug
      (fun x y w => (graphModel (backend P method) cw m).lossAug x y w true) :=
    graph_exact hS1 (by rw [hc, hS]) (fun _ _ _ h => h) true (by rw [hS]; exact relaxes_solves (by decide) hP)
  have hsl := graphData_labelled hd (O := relaxedOutputs m.nStates) (fun _ _ _ h => .inl h)
  have hl := graph_labelled (backend := backend P method) (cw := cw) hS1 (by rw [hc, hS]) hsl
  obtain ⟨a, ha, hat⟩ := C164_one_slack (backend P method) cw m hS (graphSamples data) (fun s hs => ⟨(hsl s hs).2.1, (hsl s hs).1⟩)
    (fun s hs w => (hex s.1 s.2 w (hl s hs).1 (hl s hs).2).1.2) qp hqp eq (fun _ => none) o o' ks hn hk h
  obtain ⟨a', p, d, h1, h2, -, h4, -⟩ := C119_one_slack _ _ hex qp hqp eq _ (by simpa [graphSamples] using hne) hl o o' hC
    (.inr rfl) h
  obtain rfl : a' = a := Option.some.inj (h1.symm.trans ha)
  refine ⟨a', p, ha, h2, ?_, fun x hx => C103_graphcrf P method hP m hS x hx a'.w hat⟩
  have := (C164_risks_agree (backend P method) cw m hS (by rw [hc, hS]) data hd o.cfg.C a'.w hat p).mp h4
  rw [hS] at this
  exact this

/-! ### examples -/

/-- one chain of two vertices with the same feature, both of state 0. -/
def agreeData : List (Mat × Labels) := [(⟨2, 1, fun _ _ => 1⟩, ⟨2, fun _ => 0⟩)]

/-- the joint feature of the labels minus that of the labels 1, 1. -/
def agreeCut : W := fun k => if k = 0 then 2 else if k = 1 then -2 else if k = 2 then 1 else if k = 4 then -1 else 0

/-- the QP of the first iteration. -/
def agreeQP : QP.Problem := OneSlack.qpOf 5 (some [3]) 1 [(fun _ => 0, 0), (agreeCut, 2)] 0

/-- its solution. -/
def agreeSolver : QP.Solver := fun p => if p = agreeQP then some ⟨[4 / 5, 1 / 5], - 1 / 5⟩ else none

theorem agreeSolver_sound : QP.Sound agreeSolver := by
  intro p s h
  unfold agreeSolver at h
  split at h
  · rename_i hp
    subst hp
    obtain rfl := Option.some.inj h
    refine ⟨?_, by decide +kernel⟩
    unfold QP.Problem.Feasible
    exact ⟨by decide +kernel, by decide +kernel, by decide +kernel⟩
  · cases h

/-- `OneSlackSSVM(negativity_constraint=[3])`. -/
def agreeOS : OneSlack.Obj YVal := { chainExampleOS with cfg := { chainExampleOS.cfg with negativity := some [3] } }

/-- Training with the constraint returns, the weight of agreement in state 0 is positive, and the weights reward agreement. -/
example : ∃ o' a, OneSlack.fit (graphModel (fun _ => maxProductInfer {}) chainExampleWeights chainExampleModel) agreeSolver
      (fun _ _ => .ok false) none (fun _ => none) agreeOS (chainSamples agreeData) .no = .ok o' ∧ o'.attrs = some a ∧
    a.w 2 = 1 / 5 ∧ AttractiveWeights chainExampleModel a.w := by
  obtain ⟨o', h1, h2⟩ := isOkWith_iff (e := OneSlack.fit (graphModel (fun _ => maxProductInfer {}) chainExampleWeights
    chainExampleModel) agreeSolver (fun _ _ => .ok false) none (fun _ => none) agreeOS (chainSamples agreeData) .no)
    (f := fun o => o.attrs.map fun a => a.w 2) (b := some (1 / 5)) (by decide +kernel)
  have hdata : ∀ s ∈ chainSamples agreeData, Fits chainExampleModel s.1 ∧ s.1.edges = chainEdges s.1.features.rows ∧
      IsLabelling s.1.features.rows 2 s.2 := by
    intro s hs
    obtain ⟨d, hd, rfl⟩ := List.mem_map.mp hs
    rw [agreeData, List.mem_singleton] at hd
    subst hd
    refine ⟨⟨by decide, rfl, ?_⟩, by decide, _, rfl, rfl, fun i _ => (by decide : 0 < 2)⟩
    unfold EdgesIn
    decide
  obtain ⟨a, ha, hat⟩ := C164_one_slack (fun _ => maxProductInfer {}) chainExampleWeights chainExampleModel rfl (chainSamples agreeData)
    (fun s hs => ⟨(hdata s hs).1, (hdata s hs).2.2⟩) (fun s hs w => by
      obtain ⟨hfit, hch, y, hy, hys, hyv⟩ := hdata s hs
      have hex := graph_exact (backend := fun _ => maxProductInfer {}) (cw := chainExampleWeights) (m := chainExampleModel) (by decide)
        rfl (O := chainOutputs 2) (fun n edges v hv => .inl hv.2) true (chain_solves {} (by decide)) s.1 s.2 w
        ⟨hfit, hch, y, hy, hys, hyv⟩ ((graph_labelled (O := chainOutputs 2) (samples := chainSamples agreeData) (by decide) rfl
          (fun s hs => ⟨(hdata s hs).2.2, (hdata s hs).1, (hdata s hs).2.1, (hdata s hs).2.2⟩) s hs).2)
      exact .inl hex.1.2.2) agreeSolver agreeSolver_sound (fun _ _ => .ok false) (fun _ => none) agreeOS o' [3] rfl
    ⟨by decide, by decide⟩ h1
  rw [ha] at h2
  exact ⟨o', a, h1, ha, Option.some.inj h2, hat⟩

/-- The other hypotheses of C164e are met: a triangle, an ideal solver, and a constraint on the weight of disagreement. -/
example : Relaxes 2 idealPackages (.name "lp") ∧ ListsDisagreement chainExampleModel [3] ∧
    ListsDisagreement ⟨2, 1, true⟩ [3, 4] ∧ ¬ ListsDisagreement ⟨2, 1, true⟩ [3] ∧ GraphData chainExampleModel starData := by
  refine ⟨idealPackages_relaxes 2 (by decide), ⟨by decide, by decide⟩, ⟨by decide, by decide⟩, fun h => ?_, ?_⟩
  · exact absurd (h.2 rfl) (by decide)
  · exact star_data.1

/-- With a constraint on other weights than that of disagreement, nothing follows: weights that add up to zero need not reward
agreement. -/
example : ∃ w : W, w 2 + w 3 + w 4 = 0 ∧ w 2 ≤ 0 ∧ w 4 ≤ 0 ∧ ¬ AttractiveWeights chainExampleModel w := by
  refine ⟨fun k => if k = 3 then 2 else -1, by decide +kernel, by decide +kernel, by decide +kernel, ?_⟩
  unfold AttractiveWeights
  decide +kernel

end Verif.Props
