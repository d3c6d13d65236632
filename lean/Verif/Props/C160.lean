import Verif.Props.C105
import Verif.Props.C106
import Verif.Props.C91
import Verif.Props.C156
import Verif.Props.C77
import Verif.Lemmas.GraphTraining

/-!
# C160: training on graphs without edges is training a multi-class classifier on their vertices
-/

namespace Verif.Props

open Finset Verif.Common Verif.Spec Verif.Learner Verif.GraphCRF

/-- labellings of graphs without edges. -/
def edgeFree (S n : ℕ) (edges : Edges) : Set YVal := {v | edges = [] ∧ IsLabelling n S v}

/-- The vertices of the graphs, with their features and labels, as samples for a classifier. -/
def vertexSamples (data : List (X × Labels)) : List ((ℕ → ℚ) × ℕ) :=
  data.flatMap fun d => (List.range d.1.features.rows).map fun i => (d.1.features.get i, d.2.get i)

theorem UN_linearScore (m : Model) (x : Mat) (w : ℕ → ℚ) (i s : ℕ) :
    UN m x w i s = linearScore m.nFeatures w (x.get i) s := by
  unfold UN linearScore
  exact sum_congr rfl fun f _ => mul_comm _ _

/-- the violation of a labelling is the sum of the violations at the vertices. -/
theorem edgeFree_violation {backend : Bool → Infer} {cw : Vec} {m : Model} (hS : 1 ≤ m.nStates) (hc : cw.size = m.nStates)
    {outputs : X → Set YVal} {x : X} (hF : x.features.cols = m.nFeatures) (hE : x.edges = []) {y z : Labels}
    (ys : y.size = x.features.rows) (yv : Valid x.features.rows m.nStates y.get) (zs : z.size = x.features.rows)
    (zv : Valid x.features.rows m.nStates z.get) (w : W) :
    (problemOf (graphModel backend cw m) outputs).violation w x (.discrete y) (.discrete z) =
      ∑ i ∈ range x.features.rows, if z.get i = y.get i then 0 else cw.get (y.get i) +
        linearScore m.nFeatures w (x.features.get i) (z.get i) - linearScore m.nFeatures w (x.features.get i) (y.get i) := by
  have hE' : EdgesIn x.features.rows x.edges := by rw [hE]; intro e he; simp at he
  have val : ∀ t : Labels, t.size = x.features.rows → Valid x.features.rows m.nStates t.get →
      (problemOf (graphModel backend cw m) outputs).value w x (.discrete y) (.discrete t) =
        ∑ i ∈ range x.features.rows, linearScore m.nFeatures w (x.features.get i) (t.get i) := by
    intro t ts tv
    have h := value_output hF hE' hS (v := .discrete t) (.inl ⟨t, rfl, ts, tv⟩) w
    rw [outputScore_labelling hE' tv] at h
    refine Eq.trans h ?_
    unfold Spec.score
    rw [hE]
    simp [UN_linearScore]
  have hl : (problemOf (graphModel backend cw m) outputs).loss (.discrete y) (.discrete z) =
      weightedHamming x.features.rows cw.get y.get z.get := by
    change okD 0 (Loss.loss (some cw) y z) = _
    rw [loss_some_ok ys zs (by rw [hc]; exact yv)]
    rfl
  unfold Problem.violation
  rw [val z zs zv, val y ys yv, hl]
  unfold weightedHamming
  rw [← sum_add_distrib, ← sum_sub_distrib]
  refine sum_congr rfl fun i _ => ?_
  by_cases e : y.get i = z.get i
  · rw [if_pos e, if_pos e.symm, e]; ring
  · rw [if_neg e, if_neg (Ne.symm e)]

theorem multiHinge_attained (S F : ℕ) (margin : ℚ) (w x : ℕ → ℚ) {y : ℕ} (hy : y < S) :
    (∃ c < S, multiHinge S F margin w x y =
      if c = y then 0 else margin + linearScore F w x c - linearScore F w x y) ∧
    ∀ c < S, (if c = y then 0 else margin + linearScore F w x c - linearScore F w x y) ≤ multiHinge S F margin w x y := by
  refine ⟨?_, fun c hc => (Finset.le_fold_max _).mpr (.inr ⟨c, mem_range.mpr hc, le_rfl⟩)⟩
  have := (Finset.le_fold_max (s := range S) (b := (0 : ℚ)) (f := fun c => if c = y then 0 else
    margin + linearScore F w x c - linearScore F w x y) (multiHinge S F margin w x y)).mp le_rfl
  rcases this with h1 | ⟨c, hcS, h1⟩
  · refine ⟨y, hy, ?_⟩
    rw [if_pos rfl]
    exact le_antisymm h1 ((Finset.le_fold_max _).mpr (.inl le_rfl))
  · exact ⟨c, mem_range.mp hcS, le_antisymm h1 ((Finset.le_fold_max _).mpr (.inr ⟨c, hcS, le_rfl⟩))⟩

theorem edgeFree_hinge {backend : Bool → Infer} {cw : Vec} {m : Model} (hS : 1 ≤ m.nStates) (hc : cw.size = m.nStates)
    {x : X} (hx : Fits m x) (hE : x.edges = []) {y : Labels} (ys : y.size = x.features.rows)
    (yv : Valid x.features.rows m.nStates y.get) (w : W) (h : ℚ) :
    (problemOf (graphModel backend cw m) (outputsOver m (edgeFree m.nStates))).IsHinge w x (.discrete y) h ↔
      h = ∑ i ∈ range x.features.rows,
        multiHinge m.nStates m.nFeatures (cw.get (y.get i)) w (x.features.get i) (y.get i) := by
  have key : (problemOf (graphModel backend cw m) (outputsOver m (edgeFree m.nStates))).IsHinge w x (.discrete y)
      (∑ i ∈ range x.features.rows,
        multiHinge m.nStates m.nFeatures (cw.get (y.get i)) w (x.features.get i) (y.get i)) := by
    constructor
    · have hz : ∀ i, ∃ c, i < x.features.rows → c < m.nStates ∧
          multiHinge m.nStates m.nFeatures (cw.get (y.get i)) w (x.features.get i) (y.get i) =
            if c = y.get i then 0 else cw.get (y.get i) + linearScore m.nFeatures w (x.features.get i) c -
              linearScore m.nFeatures w (x.features.get i) (y.get i) := by
        intro i
        by_cases hi : i < x.features.rows
        · obtain ⟨c, h1, h2⟩ := (multiHinge_attained m.nStates m.nFeatures (cw.get (y.get i)) w (x.features.get i)
            (yv i hi)).1
          exact ⟨c, fun _ => ⟨h1, h2⟩⟩
        · exact ⟨0, fun h => absurd h hi⟩
      choose z hz using hz
      have zv : Valid x.features.rows m.nStates z := fun i hi => (hz i hi).1
      refine ⟨.discrete ⟨x.features.rows, z⟩, ⟨hx, hE, _, rfl, rfl, zv⟩, ?_⟩
      rw [edgeFree_violation hS hc hx.2.1 hE ys yv (z := ⟨x.features.rows, z⟩) rfl zv w]
      exact sum_congr rfl fun i hi => (hz i (mem_range.mp hi)).2
    · rintro v ⟨_, ⟨-, -, z, rfl, zs, zv⟩, rfl⟩
      rw [edgeFree_violation hS hc hx.2.1 hE ys yv zs zv w]
      refine sum_le_sum fun i hi => ?_
      have hi := mem_range.mp hi
      exact (multiHinge_attained m.nStates m.nFeatures (cw.get (y.get i)) w (x.features.get i) (yv i hi)).2 _ (zv i hi)
  exact ⟨fun hh => hh.unique key, fun hh => hh ▸ key⟩

theorem edgeFree_dim (m : Model) : m.nStates * m.nFeatures ≤ sizeJointFeature m := by
  unfold sizeJointFeature
  split <;> omega

/-- **C160, objective.** On graphs without edges the regularised risk of a `GraphCRF` is the Crammer-Singer objective of
its unary weights on the vertices, plus half the squared norm of the pairwise weights. -/
theorem C160_objective (backend : Bool → Infer) (cw : Vec) (m : Model) (hS : 1 ≤ m.nStates) (hc : cw.size = m.nStates)
    (data : List (X × Labels)) (hd : GraphData m data) (hE : ∀ d ∈ data, d.1.edges = []) (C : ℚ) (w : W) (a : ℚ) :
    (problemOf (graphModel backend cw m) (outputsOver m (edgeFree m.nStates))).IsObjective C (graphSamples data) w a ↔
      a = multiSVM m.nStates m.nFeatures C (fun _ => 1) cw.get (vertexSamples data) w +
        (∑ k ∈ Ico (m.nStates * m.nFeatures) (sizeJointFeature m), w k ^ 2) / 2 := by
  have hs : ∀ hs : List ℚ, List.Forall₂ (fun s h =>
      (problemOf (graphModel backend cw m) (outputsOver m (edgeFree m.nStates))).IsHinge w s.1 s.2 h) (graphSamples data) hs ↔
      hs = data.map fun d => ∑ i ∈ range d.1.features.rows,
        multiHinge m.nStates m.nFeatures (cw.get (d.2.get i)) w (d.1.features.get i) (d.2.get i) := by
    induction data with
    | nil => intro hs; simp [graphSamples]
    | cons d r ih =>
      intro hs
      obtain ⟨h1, h2, h3⟩ := hd d List.mem_cons_self
      have h4 := fun h => edgeFree_hinge (backend := backend) hS hc h1 (hE d List.mem_cons_self) h2 h3 w h
      have h5 := ih (fun t ht => hd t (List.mem_cons_of_mem _ ht)) (fun t ht => hE t (List.mem_cons_of_mem _ ht))
      cases hs with
      | nil => simp [graphSamples]
      | cons b bs =>
        change List.Forall₂ _ ((d.1, .discrete d.2) :: graphSamples r) _ ↔ _
        rw [List.forall₂_cons, h4, h5, List.map_cons, List.cons.injEq]
  have hsum : (data.map fun d => ∑ i ∈ range d.1.features.rows,
        multiHinge m.nStates m.nFeatures (cw.get (d.2.get i)) w (d.1.features.get i) (d.2.get i)).sum =
      ((vertexSamples data).map fun s => 1 * multiHinge m.nStates m.nFeatures (cw.get s.2) w s.1 s.2).sum := by
    clear hs
    unfold vertexSamples
    induction data with
    | nil => simp
    | cons d r ih =>
      rw [List.map_cons, List.sum_cons, List.flatMap_cons, List.map_append, List.sum_append,
        ih (fun t ht => hd t (List.mem_cons_of_mem _ ht)) (fun t ht => hE t (List.mem_cons_of_mem _ ht))]
      congr 1
      rw [List.map_map, sum_list_range]
      exact sum_congr rfl fun i _ => (one_mul _).symm
  have hn : (∑ k ∈ range (problemOf (graphModel backend cw m) (outputsOver m (edgeFree m.nStates))).dim, w k * w k) =
      ∑ k ∈ range (m.nStates * m.nFeatures), w k ^ 2 +
        ∑ k ∈ Ico (m.nStates * m.nFeatures) (sizeJointFeature m), w k ^ 2 := by
    rw [Finset.sum_range_add_sum_Ico _ (edgeFree_dim m)]
    exact sum_congr rfl fun k _ => (pow_two _).symm
  unfold Problem.IsObjective multiSVM
  rw [hn]
  constructor
  · rintro ⟨hs', h1, rfl⟩
    rw [(hs hs').mp h1, hsum]
    ring
  · rintro rfl
    refine ⟨_, (hs _).mpr rfl, ?_⟩
    rw [hsum]
    ring

theorem multiSVM_congr (S F : ℕ) (C : ℚ) (cost margin : ℕ → ℚ) (samples : List ((ℕ → ℚ) × ℕ))
    (hd : ∀ s ∈ samples, s.2 < S) {w v : ℕ → ℚ} (h : ∀ k < S * F, w k = v k) :
    multiSVM S F C cost margin samples w = multiSVM S F C cost margin samples v := by
  have hl : ∀ x c, c < S → linearScore F w x c = linearScore F v x c := by
    intro x c hc
    unfold linearScore
    exact sum_congr rfl fun f hf => by rw [h _ (flat_lt hc (mem_range.mp hf))]
  unfold multiSVM
  congr 2
  · exact sum_congr rfl fun k hk => by rw [h k (mem_range.mp hk)]
  · congr 1
    refine List.map_congr_left fun s hs => ?_
    congr 1
    unfold multiHinge
    refine Finset.fold_congr fun c hc => ?_
    rw [hl _ _ (mem_range.mp hc), hl _ _ (hd s hs)]

theorem vertexSamples_valid {m : Model} {data : List (X × Labels)} (hd : GraphData m data) :
    ∀ s ∈ vertexSamples data, s.2 < m.nStates := by
  intro s hs
  obtain ⟨d, h1, h2⟩ := List.mem_flatMap.mp hs
  obtain ⟨i, hi, rfl⟩ := List.mem_map.mp h2
  exact (hd d h1).2.2 i (List.mem_range.mp hi)

/-- **C160, near optimality.** Weights of a `GraphCRF` that are optimal up to `ε` on graphs without edges solve the
multi-class problem of the vertices up to `ε`, and the squared norm of the pairwise weights is at most `2 ε`. -/
theorem C160_near (backend : Bool → Infer) (cw : Vec) (m : Model) (hS : 1 ≤ m.nStates) (hc : cw.size = m.nStates)
    (data : List (X × Labels)) (hd : GraphData m data) (hE : ∀ d ∈ data, d.1.edges = []) (C ε : ℚ) (w : W)
    (h : (problemOf (graphModel backend cw m) (outputsOver m (edgeFree m.nStates))).NearOptimal C (graphSamples data) ε w) :
    (∀ v, multiSVM m.nStates m.nFeatures C (fun _ => 1) cw.get (vertexSamples data) w ≤
      multiSVM m.nStates m.nFeatures C (fun _ => 1) cw.get (vertexSamples data) v + ε) ∧
    ∑ k ∈ Ico (m.nStates * m.nFeatures) (sizeJointFeature m), w k ^ 2 ≤ 2 * ε := by
  obtain ⟨p, h1, h2⟩ := h
  rw [C160_objective backend cw m hS hc data hd hE] at h1
  have key : ∀ v, p ≤ multiSVM m.nStates m.nFeatures C (fun _ => 1) cw.get (vertexSamples data) v + ε := by
    intro v
    have := h2 (fun k => if k < m.nStates * m.nFeatures then v k else 0) _
      ((C160_objective backend cw m hS hc data hd hE C _ _).mpr rfl)
    rw [multiSVM_congr m.nStates m.nFeatures C _ _ _ (vertexSamples_valid hd) (v := v) (fun k hk => if_pos hk)] at this
    have h0 : ∑ k ∈ Ico (m.nStates * m.nFeatures) (sizeJointFeature m),
        (if k < m.nStates * m.nFeatures then v k else 0) ^ 2 = 0 := by
      refine sum_eq_zero fun k hk => ?_
      rw [if_neg (by have := (mem_Ico.mp hk).1; omega)]
      norm_num
    rw [h0] at this
    linarith
  have hp : 0 ≤ ∑ k ∈ Ico (m.nStates * m.nFeatures) (sizeJointFeature m), w k ^ 2 := sum_nonneg fun k _ => sq_nonneg _
  refine ⟨fun v => ?_, ?_⟩
  · have := key v
    linarith
  · have := key w
    linarith

theorem edgeFree_relaxed {S : ℕ} (n : ℕ) (edges : Edges) : ∀ v ∈ edgeFree S n edges, IsRelaxed n S edges v :=
  fun _ h => .inl h.2

/-- the unary method is exact on graphs without edges. -/
theorem edgeFree_unary (P : Dispatch.Packages) {S : ℕ} (hS : 1 ≤ S) (relaxed : Bool) :
    SolvesOver S (edgeFree S) (Dispatch.backend P (.name "unary") relaxed) := by
  rintro n edges hn hE ⟨_, rfl, -⟩ U Q
  obtain ⟨y, h1, h2, h3, h4⟩ := C60_routes_unary P ⟨n, S, U⟩ (.mat ⟨S, S, Q⟩) [] (fun _ => Q) (denotes_mat S 0 Q) hS false
    [("relaxed", .bool relaxed)] (fun p hp => by
      rw [List.mem_singleton] at hp
      rw [hp]
      change "relaxed" ∉ Dispatch.posArgs
      decide)
  refine ⟨.discrete y, ⟨rfl, y, rfl, h2, h3⟩, ?_, ?_⟩
  · unfold Dispatch.backend
    rw [h1]
    rfl
  · rintro _ ⟨-, z, rfl, -, zv⟩
    rw [outputScore_labelling hE zv, outputScore_labelling hE h3]
    unfold Spec.score
    simpa using h4 z.get zv

theorem edgeFree_labelled {backend : Bool → Infer} {cw : Vec} {m : Model} (hc : cw.size = m.nStates)
    {data : List (X × Labels)} (hd : GraphData m data) (hE : ∀ d ∈ data, d.1.edges = []) :
    (problemOf (graphModel backend cw m) (outputsOver m (edgeFree m.nStates))).Labelled (graphSamples data) := by
  intro s hs
  obtain ⟨d, hd', rfl⟩ := List.mem_map.mp hs
  obtain ⟨h1, h2, h3⟩ := hd d hd'
  refine ⟨⟨h1, hE d hd', d.2, rfl, h2, h3⟩, ?_⟩
  change okD 0 (Loss.loss (some cw) d.2 d.2) = 0
  rw [loss_some_ok h2 h2 (by rw [hc]; exact h3)]
  simp [okD, weightedHamming]

/-- **C160.** Any of the learners of C106, trained to accuracy `ε` with a `GraphCRF` and unary inference on graphs without
edges, solves the Crammer-Singer problem of the vertices up to `ε` and leaves hardly any pairwise weights. -/
theorem C160_trained (P : Dispatch.Packages) (cw : Vec) (m : Model) (hS : 1 ≤ m.nStates) (hc : cw.size = m.nStates)
    (data : List (X × Labels)) (hd : GraphData m data) (hE : ∀ d ∈ data, d.1.edges = []) (C ε : ℚ) (hC : 0 < C) (w : W)
    (h : Trained (graphModel (Dispatch.backend P (.name "unary")) cw m) (outputsOver m (edgeFree m.nStates))
      (graphSamples data) C ε w) :
    (∀ v, multiSVM m.nStates m.nFeatures C (fun _ => 1) cw.get (vertexSamples data) w ≤
      multiSVM m.nStates m.nFeatures C (fun _ => 1) cw.get (vertexSamples data) v + ε) ∧
    ∑ k ∈ Ico (m.nStates * m.nFeatures) (sizeJointFeature m), w k ^ 2 ≤ 2 * ε :=
  C160_near _ cw m hS hc data hd hE C ε w
    (trained_near _ _ (graph_exact hS hc edgeFree_relaxed true (edgeFree_unary P hS true)) _ (edgeFree_labelled hc hd hE) hC h)

/-- **C160.** A `GraphCRF` trained on graphs without edges and a `MultiClassClf` trained on their vertices, with the same
`C` and class weights, have the same unary weights up to the accuracy of training. -/
theorem C160_same_weights (P : Dispatch.Packages) (cw : Vec) (m : Model) (hS : 1 ≤ m.nStates) (hc : cw.size = m.nStates)
    (hpos : ∀ c < m.nStates, 0 ≤ cw.get c) (uniform : Bool) (data : List (X × Labels)) (hd : GraphData m data)
    (hE : ∀ d ∈ data, d.1.edges = []) (C ε δ : ℚ) (hC : 0 < C) (w v : W)
    (hw : Trained (graphModel (Dispatch.backend P (.name "unary")) cw m) (outputsOver m (edgeFree m.nStates))
      (graphSamples data) C ε w)
    (hv : Trained (multiClassModel ⟨m.nStates, m.nFeatures, cw, uniform, false⟩) (classes m.nStates) (vertexSamples data) C δ v) :
    ∑ k ∈ range (m.nStates * m.nFeatures), (w k - v k) ^ 2 ≤ 4 * (ε + δ) := by
  have hLA := (multiClass_exact ⟨m.nStates, m.nFeatures, cw, uniform, false⟩ hc hpos true).1
  have hl := multiClass_labelled ⟨m.nStates, m.nFeatures, cw, uniform, false⟩ hc _ (vertexSamples_valid hd)
  have hob := C105_objective ⟨m.nStates, m.nFeatures, cw, uniform, false⟩ hc hpos C _ (vertexSamples_valid hd)
  have h1 := (C160_trained P cw m hS hc data hd hE C ε hC w hw).1
  refine Lemmas.near_close (P := classProblem ⟨m.nStates, m.nFeatures, cw, uniform, false⟩) hC.le
    (fun s hs w => ⟨_, (C29_slack _ _ true hLA s.1 s.2 w (hl s hs).1 (hl s hs).2).1⟩)
    ⟨_, (hob w _).mpr rfl, fun w' obj ho => ?_⟩ (trained_near _ _ hLA _ hl hC hv)
  rw [(hob w' obj).mp ho]
  exact h1 w'

theorem backend_unary (P : Dispatch.Packages) {n S : ℕ} (hS : 1 ≤ S) (U Q : ℕ → ℕ → ℚ) (edges : Edges) (relaxed : Bool) :
    Dispatch.backend P (.name "unary") relaxed ⟨n, S, U⟩ (.mat ⟨S, S, Q⟩) edges =
      .ok (.discrete ⟨n, fun i => argmaxN (U i) S⟩) := by
  unfold Dispatch.backend
  rw [dispatch_unary P _ _ _ _ _ (fun p hp => by
      rw [List.mem_singleton] at hp
      rw [hp]
      change "relaxed" ∉ Dispatch.posArgs
      decide)]
  simp [Dispatch.inferenceUnaries, validateParams, show S ≠ 0 by omega]
  rfl

/-- **C160, predictions.** With unary inference a `GraphCRF` predicts at every vertex — whatever the edges are — what a
`MultiClassClf` with the unary weights predicts for the features of that vertex. -/
theorem C160_predictions (P : Dispatch.Packages) (m : Model) (hS : 1 ≤ m.nStates) (c : Unstructured.MultiClass)
    (h1 : c.nStates = m.nStates) (h2 : c.nFeatures = m.nFeatures) (x : X) (hF : x.features.cols = m.nFeatures) (w : W) :
    ∃ y : Labels, GraphCRF.inference (Dispatch.backend P (.name "unary") false) m x ⟨sizeJointFeature m, w⟩ =
        .ok (.discrete y) ∧ y.size = x.features.rows ∧
      ∀ i < x.features.rows, Unstructured.mcInference c ⟨c.nFeatures, x.features.get i⟩ ⟨c.size, w⟩ = .ok (y.get i) := by
  refine ⟨⟨x.features.rows, fun i => argmaxN (UN m x.features w i) m.nStates⟩, ?_, rfl, fun i _ => ?_⟩
  · unfold GraphCRF.inference
    rw [checkSizeW_ok (w := ⟨sizeJointFeature m, w⟩) rfl, unary_ok (w := ⟨sizeJointFeature m, w⟩) hF rfl,
      pairwise_ok (w := ⟨sizeJointFeature m, w⟩) hF rfl]
    exact backend_unary P hS _ _ _ _
  · unfold Unstructured.mcInference Unstructured.mcScores Unstructured.MultiClass.size
    simp only [h1, h2]
    rw [if_neg (by omega), if_neg (by simp), if_neg (by rw [Nat.mul_div_cancel_left _ (by omega)]; simp)]
    simp only
    congr 1
    refine argmaxN_congr fun s _ => ?_
    rw [UN_linearScore]
    rfl

/-- one graph with two vertices and one with a single vertex, no edges. -/
def looseVertices : List (X × Labels) :=
  [(⟨⟨2, 1, fun i _ => i + 1⟩, []⟩, ⟨2, fun i => i⟩), (⟨⟨1, 1, fun _ _ => -1⟩, []⟩, ⟨1, fun _ => 2⟩)]

theorem looseVertices_fit : GraphData ⟨3, 1, false⟩ looseVertices ∧ ∀ d ∈ looseVertices, d.1.edges = [] := by
  refine ⟨?_, ?_⟩
  · intro d hd
    simp only [looseVertices, List.mem_cons, List.not_mem_nil, or_false] at hd
    rcases hd with rfl | rfl
    · exact ⟨⟨by decide, rfl, fun e he => by simp at he⟩, rfl, fun i hi => by have : i < 2 := hi; change i < 3; omega⟩
    · exact ⟨⟨by decide, rfl, fun e he => by simp at he⟩, rfl, fun i _ => by change 2 < 3; omega⟩
  · intro d hd
    simp only [looseVertices, List.mem_cons, List.not_mem_nil, or_false] at hd
    rcases hd with rfl | rfl <;> rfl

example : (vertexSamples looseVertices).map (fun s => (s.1 0, s.2)) = [(1, 0), (2, 1), (-1, 2)] := by decide +kernel

/-- training to any accuracy is possible. -/
example (C ε : ℚ) (hC : 0 < C) (hε : 0 < ε) : ∃ w v : W,
    Trained (graphModel (Dispatch.backend idealPackages (.name "unary")) ⟨3, fun _ => 1⟩ ⟨3, 1, false⟩)
      (outputsOver ⟨3, 1, false⟩ (edgeFree 3)) (graphSamples looseVertices) C ε w ∧
    Trained (multiClassModel ⟨3, 1, ⟨3, fun _ => 1⟩, true, false⟩) (classes 3) (vertexSamples looseVertices) C ε v ∧
    ∑ k ∈ range (3 * 1), (w k - v k) ^ 2 ≤ 4 * (ε + ε) := by
  obtain ⟨h1, h2⟩ := looseVertices_fit
  have hO : ∀ n edges, ∀ v ∈ edgeFree 3 n edges, IsRelaxed n 3 edges v := edgeFree_relaxed
  obtain ⟨w, hw⟩ := trained_exists (graphModel (Dispatch.backend idealPackages (.name "unary")) ⟨3, fun _ => 1⟩ ⟨3, 1, false⟩)
    (outputsOver ⟨3, 1, false⟩ (edgeFree 3))
    (graph_exact (m := ⟨3, 1, false⟩) (by decide) rfl hO true (edgeFree_unary _ (by decide) true))
    (graphSamples looseVertices) (by simp [looseVertices, graphSamples]) rfl
    (edgeFree_labelled (m := ⟨3, 1, false⟩) rfl h1 h2) 100
    (graph_range (m := ⟨3, 1, false⟩) (by decide) hO _ _ (by
      intro s hs
      simp only [graphSamples, looseVertices, List.map_cons, List.map_nil, List.mem_cons, List.not_mem_nil, or_false] at hs
      rcases hs with rfl | rfl <;> decide +kernel)) C ε hC hε
  obtain ⟨v, hv⟩ := trained_exists (multiClassModel ⟨3, 1, ⟨3, fun _ => 1⟩, true, false⟩) (classes 3)
    (multiClass_exact ⟨3, 1, ⟨3, fun _ => 1⟩, true, false⟩ rfl (fun _ _ => by norm_num) true).1 (vertexSamples looseVertices)
    (by simp [looseVertices, vertexSamples]) rfl
    (multiClass_labelled ⟨3, 1, ⟨3, fun _ => 1⟩, true, false⟩ rfl _ (vertexSamples_valid h1)) 100
    (mc_range ⟨3, 1, ⟨3, fun _ => 1⟩, true, false⟩ rfl _ (vertexSamples_valid h1) 100 (by
      intro s hs
      simp only [vertexSamples, looseVertices, List.flatMap_cons, List.flatMap_nil, List.append_nil, List.mem_append,
        List.mem_map, List.mem_range] at hs
      rcases hs with ⟨i, hi, rfl⟩ | ⟨i, hi, rfl⟩
      · have hi : i < 2 := hi
        interval_cases i <;> decide +kernel
      · decide +kernel)) C ε hC hε
  exact ⟨w, v, hw, hv, C160_same_weights idealPackages ⟨3, fun _ => 1⟩ ⟨3, 1, false⟩ (by decide) rfl (fun _ _ => by norm_num)
    true looseVertices h1 h2 C ε ε hC w v hw hv⟩

end Verif.Props
