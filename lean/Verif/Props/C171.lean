import Verif.Props.C111
import Verif.Props.C106
import Verif.Props.C13
import Verif.Props.C156
import Verif.Lemmas.GraphTraining
import Verif.Lemmas.RiskClose

/-!
# C171: a `GraphCRF` is an `EdgeFeatureGraphCRF` whose edges have the one feature 1
-/

namespace Verif.Props

open Finset Verif.Common Verif.Spec Verif.Learner Verif.Lemmas
open Verif.GraphCRF (Infer)

/-- The instance with the edge feature 1 on every edge. -/
def constantX (x : GraphCRF.X) : EdgeFeature.X := ⟨x.features, x.edges, ⟨x.edges.length, 1, fun _ _ => 1⟩⟩

/-- The model with one edge feature. -/
def constantModel (m : GraphCRF.Model) : EdgeFeature.Model := ⟨m.nStates, m.nFeatures, 1, [], []⟩

/-- The weights of the model with one edge feature that belong to `w`: the pairwise weights written as a full matrix. For a directed
model these are the same weights; in the order of storage of an undirected one the entry for the states `a` and `b` is the one
of the larger state, then the smaller. -/
def fullWeights (m : GraphCRF.Model) (w : W) : W := fun k =>
  if k < m.nStates * m.nFeatures then w k
  else
    let a := (k - m.nStates * m.nFeatures) / m.nStates
    let b := (k - m.nStates * m.nFeatures) % m.nStates
    if m.directed then w (m.nStates * m.nFeatures + (a * m.nStates + b))
    else w (m.nStates * m.nFeatures + (max a b * (max a b + 1) / 2 + min a b))

theorem constant_fits {m : GraphCRF.Model} {x : GraphCRF.X} (h : Fits m x) : EdgeFits (constantModel m) (constantX x) :=
  ⟨h.1, h.2.1, h.2.2, rfl, rfl⟩

theorem constant_valid (m : GraphCRF.Model) : EdgeFeature.checkModel (constantModel m) = .ok () := by
  unfold EdgeFeature.checkModel constantModel
  simp

theorem constant_unary (m : GraphCRF.Model) (x : Mat) (w : W) (i s : ℕ) (hs : s < m.nStates) :
    EdgeFeature.EU (constantModel m) x (fullWeights m w) i s = GraphCRF.UN m x w i s := by
  unfold EdgeFeature.EU GraphCRF.UN fullWeights constantModel
  refine sum_congr rfl fun f hf => ?_
  rw [if_pos (flat_lt hs (mem_range.mp hf))]

theorem constant_pairwise (m : GraphCRF.Model) (w : W) (E e a b : ℕ) (hb : b < m.nStates) :
    EdgeFeature.EP (constantModel m) ⟨E, 1, fun _ _ => 1⟩ (fullWeights m w) e a b = GraphCRF.PW m w a b := by
  unfold EdgeFeature.EP
  rw [PW_eq]
  change ∑ k ∈ range 1, _ = _
  rw [sum_range_one]
  unfold EdgeFeature.EW fullWeights constantModel
  simp only [zero_mul, zero_add, one_mul]
  rw [if_neg (by omega), Nat.add_sub_cancel_left, flat_div hb, flat_mod hb]

/-- **C171, size.** A directed model has as many weights, in the same order. -/
theorem C171_size (m : GraphCRF.Model) (hd : m.directed = true) (w : W) :
    EdgeFeature.sizeJointFeature (constantModel m) = GraphCRF.sizeJointFeature m ∧
      ∀ k < GraphCRF.sizeJointFeature m, fullWeights m w k = w k := by
  refine ⟨?_, fun k hk => ?_⟩
  · unfold EdgeFeature.sizeJointFeature GraphCRF.sizeJointFeature constantModel
    simp [hd]
  · unfold fullWeights
    simp only [hd, if_true]
    split
    · rfl
    · rw [mul_comm (_ / _), Nat.div_add_mod]
      congr 1
      omega

/-- **C171, potentials.** The potentials of inference are the same: of the nodes, and on every edge those of the one matrix. -/
theorem C171_potentials (m : GraphCRF.Model) (x : GraphCRF.X) (hx : Fits m x) (w : W) :
    ∃ U V P T, GraphCRF.unaryPotentials m x ⟨GraphCRF.sizeJointFeature m, w⟩ = .ok U ∧
      GraphCRF.pairwisePotentials m x ⟨GraphCRF.sizeJointFeature m, w⟩ = .ok P ∧
      EdgeFeature.unaryPotentials EdgeFeature.checkSizeX (constantModel m) (constantX x)
        ⟨EdgeFeature.sizeJointFeature (constantModel m), fullWeights m w⟩ = .ok V ∧
      EdgeFeature.pairwisePotentials EdgeFeature.checkSizeX (constantModel m) (constantX x)
        ⟨EdgeFeature.sizeJointFeature (constantModel m), fullWeights m w⟩ = .ok T ∧
      (V.rows = U.rows ∧ V.cols = U.cols ∧ ∀ i < U.rows, ∀ s < U.cols, V.get i s = U.get i s) ∧
      (T.d0 = x.edges.length ∧ T.d1 = P.rows ∧ T.d2 = P.cols ∧
        ∀ e < x.edges.length, ∀ a < P.rows, ∀ b < P.cols, T.get e a b = P.get a b) := by
  obtain ⟨T, h1, h2⟩ := pairwise_some (constant_fits hx) (show 0 < (constantModel m).nEdgeFeatures from Nat.one_pos) (fullWeights m w)
  refine ⟨_, _, _, _, GraphCRF.unary_ok (w := ⟨GraphCRF.sizeJointFeature m, w⟩) hx.2.1 rfl,
    GraphCRF.pairwise_ok (w := ⟨GraphCRF.sizeJointFeature m, w⟩) hx.2.1 rfl,
    EdgeFeature.unary_ok (EdgeFeature.checkSizeX_ok hx.2.1 rfl rfl) hx.2.1 rfl, h1,
    ⟨rfl, rfl, fun i _ s hs => constant_unary m _ w i s hs⟩, rfl, rfl, rfl, fun e he a ha b hb => ?_⟩
  exact (h2 e he a ha b hb).trans (constant_pairwise m w _ e a b hb)

/-- the score of an output under the two kinds of potentials. -/
theorem constant_score (m : GraphCRF.Model) (x : GraphCRF.X) (w : W) (v : YVal) :
    edgeScore x.features.rows m.nStates x.edges (EdgeFeature.EU (constantModel m) x.features (fullWeights m w))
      (EdgeFeature.EP (constantModel m) (constantX x).edgeFeatures (fullWeights m w)) v =
    outputScore x.features.rows m.nStates x.edges (GraphCRF.UN m x.features w) (GraphCRF.PW m w) v :=
  edgeScore_congr (fun i _ s hs => constant_unary m _ w i s hs) (fun e _ a _ b hb => constant_pairwise m w _ e a b hb) v

/-- **C171, scores.** Weights times joint feature are the same for every labelling, relaxed or not, whether the model is directed
or not. -/
theorem C171_scores (m : GraphCRF.Model) (hS : 1 ≤ m.nStates) (x : GraphCRF.X) (hx : Fits m x) (w : W) (v : YVal)
    (hv : IsRelaxed x.features.rows m.nStates x.edges v) :
    dot (EdgeFeature.sizeJointFeature (constantModel m)) (fullWeights m w)
        (EdgeFeature.edgeFeature (constantModel m) (constantX x) v) =
      dot (GraphCRF.sizeJointFeature m) w (graphFeature m x v) := by
  rw [value_output hx.2.1 hx.2.2 hS hv, edge_value (constant_valid m) (constant_fits hx) (v := v) hv, ← constant_score]
  exact edgeScore_congr (fun _ _ _ _ => rfl) (fun e _ a ha b hb =>
    symEP_eq (m := constantModel m) (noSymmetry _ _ _) _ e a b ha hb) v

/-- **C171, features.** For a directed model even the joint features are the same vectors. -/
theorem C171_features (m : GraphCRF.Model) (hd : m.directed = true) (hS : 1 ≤ m.nStates) (x : GraphCRF.X) (hx : Fits m x)
    (v : YVal) (hv : IsRelaxed x.features.rows m.nStates x.edges v) (k : ℕ) (hk : k < GraphCRF.sizeJointFeature m) :
    EdgeFeature.edgeFeature (constantModel m) (constantX x) v k = graphFeature m x v k := by
  have h := C171_scores m hS x hx (fun j => if j = k then 1 else 0) v hv
  obtain ⟨h1, h2⟩ := C171_size m hd fun j => if j = k then 1 else 0
  rw [h1] at h
  unfold dot at h
  rw [sum_congr rfl fun j hj => by rw [h2 j (mem_range.mp hj)]] at h
  simpa [hk] using h

/-- **C171, inference.** With inference methods that find the best output of one kind, both models return an output that is best
for either: the same score, which is the highest. -/
theorem C171_inference (m : GraphCRF.Model) {O : ℕ → Edges → Set YVal} {inf inf' : Infer} (hI : SolvesOver m.nStates O inf)
    (hI' : SolvesEdges m.nStates O inf') (x : GraphCRF.X) (hx : Fits m x) (hne : (O x.features.rows x.edges).Nonempty) (w : W) :
    ∃ v v', GraphCRF.inference inf m x ⟨GraphCRF.sizeJointFeature m, w⟩ = .ok v ∧
      EdgeFeature.inference EdgeFeature.checkSizeX inf' (constantModel m) (constantX x)
        ⟨EdgeFeature.sizeJointFeature (constantModel m), fullWeights m w⟩ = .ok v' ∧
      v ∈ O x.features.rows x.edges ∧ v' ∈ O x.features.rows x.edges ∧
      outputScore x.features.rows m.nStates x.edges (GraphCRF.UN m x.features w) (GraphCRF.PW m w) v =
        outputScore x.features.rows m.nStates x.edges (GraphCRF.UN m x.features w) (GraphCRF.PW m w) v' ∧
      ∀ z ∈ O x.features.rows x.edges,
        outputScore x.features.rows m.nStates x.edges (GraphCRF.UN m x.features w) (GraphCRF.PW m w) z ≤
        outputScore x.features.rows m.nStates x.edges (GraphCRF.UN m x.features w) (GraphCRF.PW m w) v := by
  obtain ⟨v, hv, e1, e2⟩ := hI _ _ hx.1 hx.2.2 hne (GraphCRF.UN m x.features w) (GraphCRF.PW m w)
  obtain ⟨T, h1, h2⟩ := pairwise_some (constant_fits hx) (show 0 < (constantModel m).nEdgeFeatures from Nat.one_pos) (fullWeights m w)
  obtain ⟨v', hv', e3, e4⟩ := hI' _ _ hx.1 hx.2.2 hne (EdgeFeature.EU (constantModel m) x.features (fullWeights m w)) T
  have hsc : ∀ z, edgeScore x.features.rows m.nStates x.edges
      (EdgeFeature.EU (constantModel m) x.features (fullWeights m w)) T z =
      outputScore x.features.rows m.nStates x.edges (GraphCRF.UN m x.features w) (GraphCRF.PW m w) z := by
    intro z
    rw [← constant_score]
    exact edgeScore_congr (fun _ _ _ _ => rfl) (fun e he a ha b hb => h2 e he a ha b hb) z
  simp only [hsc] at e4
  refine ⟨v, v', ?_, ?_, hv, hv', le_antisymm (e4 v hv) (e2 v' hv'), e2⟩
  · unfold GraphCRF.inference
    rw [GraphCRF.checkSizeW_ok (w := ⟨GraphCRF.sizeJointFeature m, w⟩) rfl,
      GraphCRF.unary_ok (w := ⟨GraphCRF.sizeJointFeature m, w⟩) hx.2.1 rfl,
      GraphCRF.pairwise_ok (w := ⟨GraphCRF.sizeJointFeature m, w⟩) hx.2.1 rfl]
    exact e1
  · unfold EdgeFeature.inference
    rw [GraphCRF.checkSizeW_ok (w := ⟨EdgeFeature.sizeJointFeature (constantModel m), fullWeights m w⟩) rfl,
      EdgeFeature.unary_ok (EdgeFeature.checkSizeX_ok hx.2.1 rfl rfl) hx.2.1 rfl, h1]
    exact e3

/-! ### training -/

/-- The data with constant edge features. -/
def constantSamples (samples : List (GraphCRF.X × YVal)) : List (EdgeFeature.X × YVal) :=
  samples.map fun s => (constantX s.1, s.2)

theorem constant_outputs (m : GraphCRF.Model) (O : ℕ → Edges → Set YVal) (x : GraphCRF.X) :
    edgeOutputs (constantModel m) O (constantX x) = outputsOver m O x := by
  ext v
  exact ⟨fun h => ⟨⟨h.1.1, h.1.2.1, h.1.2.2.1⟩, h.2⟩, fun h => ⟨constant_fits h.1, h.2⟩⟩

theorem constant_value {backend backend' : Bool → Infer} {cw : Vec} {m : GraphCRF.Model} (hd : m.directed = true)
    (hS : 1 ≤ m.nStates) {O : ℕ → Edges → Set YVal} (hO : ∀ n edges, ∀ v ∈ O n edges, IsRelaxed n m.nStates edges v)
    {x : GraphCRF.X} {y v : YVal} (hv : v ∈ outputsOver m O x) (w : W) :
    (problemOf (EdgeFeature.edgeModel backend' cw (constantModel m)) (edgeOutputs (constantModel m) O)).value w (constantX x) y v =
      (problemOf (graphModel backend cw m) (outputsOver m O)).value w x y v := by
  obtain ⟨h1, h2⟩ := C171_size m hd w
  have h := C171_scores m hS x hv.1 w v (hO _ _ v hv.2)
  rw [h1] at h
  change dot (EdgeFeature.sizeJointFeature (constantModel m)) w (EdgeFeature.edgeFeature (constantModel m) (constantX x) v) =
    dot (GraphCRF.sizeJointFeature m) w (graphFeature m x v)
  rw [← h, h1]
  unfold dot
  exact sum_congr rfl fun k hk => by rw [h2 k (mem_range.mp hk)]

theorem constant_hinge {backend backend' : Bool → Infer} {cw : Vec} {m : GraphCRF.Model} (hd : m.directed = true)
    (hS : 1 ≤ m.nStates) {O : ℕ → Edges → Set YVal} (hO : ∀ n edges, ∀ v ∈ O n edges, IsRelaxed n m.nStates edges v)
    {x : GraphCRF.X} {y : YVal} (hy : y ∈ outputsOver m O x) (w : W) (h : ℚ) :
    (problemOf (EdgeFeature.edgeModel backend' cw (constantModel m)) (edgeOutputs (constantModel m) O)).IsHinge w (constantX x) y h ↔
      (problemOf (graphModel backend cw m) (outputsOver m O)).IsHinge w x y h := by
  have hv : ∀ v ∈ outputsOver m O x,
      (problemOf (EdgeFeature.edgeModel backend' cw (constantModel m)) (edgeOutputs (constantModel m) O)).violation w (constantX x) y v =
      (problemOf (graphModel backend cw m) (outputsOver m O)).violation w x y v := by
    intro v hv
    unfold Problem.violation
    rw [constant_value (backend := backend) hd hS hO hv, constant_value (backend := backend) hd hS hO hy]
    rfl
  have ho : (problemOf (EdgeFeature.edgeModel backend' cw (constantModel m)) (edgeOutputs (constantModel m) O)).outputs (constantX x) =
      (problemOf (graphModel backend cw m) (outputsOver m O)).outputs x := constant_outputs m O x
  have hset : {v | ∃ ŷ ∈ outputsOver m O x, v = (problemOf (EdgeFeature.edgeModel backend' cw (constantModel m))
      (edgeOutputs (constantModel m) O)).violation w (constantX x) y ŷ} =
      {v | ∃ ŷ ∈ outputsOver m O x, v = (problemOf (graphModel backend cw m) (outputsOver m O)).violation w x y ŷ} := by
    ext v
    exact ⟨fun ⟨z, hz, e⟩ => ⟨z, hz, e.trans (hv z hz)⟩, fun ⟨z, hz, e⟩ => ⟨z, hz, e.trans (hv z hz).symm⟩⟩
  unfold Problem.IsHinge
  rw [ho]
  exact Iff.of_eq (congrArg (fun t => IsGreatest t h) hset)

/-- **C171, training objective.** The regularised risk of a directed model is that of the model with constant edge features. -/
theorem C171_objective (backend backend' : Bool → Infer) (cw : Vec) (m : GraphCRF.Model) (hd : m.directed = true)
    (hS : 1 ≤ m.nStates) {O : ℕ → Edges → Set YVal} (hO : ∀ n edges, ∀ v ∈ O n edges, IsRelaxed n m.nStates edges v)
    (samples : List (GraphCRF.X × YVal)) (hl : ∀ s ∈ samples, s.2 ∈ outputsOver m O s.1) (C : ℚ) (w : W) (a : ℚ) :
    (problemOf (EdgeFeature.edgeModel backend' cw (constantModel m)) (edgeOutputs (constantModel m) O)).IsObjective C
        (constantSamples samples) w a ↔
      (problemOf (graphModel backend cw m) (outputsOver m O)).IsObjective C samples w a := by
  have hs : ∀ hs : List ℚ, List.Forall₂ (fun s h => (problemOf (EdgeFeature.edgeModel backend' cw (constantModel m))
      (edgeOutputs (constantModel m) O)).IsHinge w s.1 s.2 h) (constantSamples samples) hs ↔
      List.Forall₂ (fun s h => (problemOf (graphModel backend cw m) (outputsOver m O)).IsHinge w s.1 s.2 h) samples hs := by
    induction samples with
    | nil => intro hs; simp [constantSamples]
    | cons s r ih =>
      intro hs
      have h4 := fun h => constant_hinge (backend := backend) (backend' := backend') (cw := cw) hd hS hO (hl s List.mem_cons_self) w h
      have h5 := ih fun t ht => hl t (List.mem_cons_of_mem _ ht)
      cases hs with
      | nil => simp [constantSamples]
      | cons b bs =>
        change List.Forall₂ _ ((constantX s.1, s.2) :: constantSamples r) _ ↔ _
        rw [List.forall₂_cons, List.forall₂_cons, h4, h5]
  have hn : (∑ k ∈ range (problemOf (EdgeFeature.edgeModel backend' cw (constantModel m))
      (edgeOutputs (constantModel m) O)).dim, w k * w k) =
      ∑ k ∈ range (problemOf (graphModel backend cw m) (outputsOver m O)).dim, w k * w k := by
    change ∑ k ∈ range (EdgeFeature.sizeJointFeature (constantModel m)), _ = ∑ k ∈ range (GraphCRF.sizeJointFeature m), _
    rw [(C171_size m hd w).1]
  unfold Problem.IsObjective
  rw [hn]
  simp only [hs]

/-- **C171, near optimality.** Weights are optimal for one up to `ε` if and only if they are for the other. -/
theorem C171_near (backend backend' : Bool → Infer) (cw : Vec) (m : GraphCRF.Model) (hd : m.directed = true)
    (hS : 1 ≤ m.nStates) {O : ℕ → Edges → Set YVal} (hO : ∀ n edges, ∀ v ∈ O n edges, IsRelaxed n m.nStates edges v)
    (samples : List (GraphCRF.X × YVal)) (hl : ∀ s ∈ samples, s.2 ∈ outputsOver m O s.1) (C ε : ℚ) (w : W) :
    (problemOf (EdgeFeature.edgeModel backend' cw (constantModel m)) (edgeOutputs (constantModel m) O)).NearOptimal C
        (constantSamples samples) ε w ↔
      (problemOf (graphModel backend cw m) (outputsOver m O)).NearOptimal C samples ε w := by
  unfold Problem.NearOptimal
  simp only [C171_objective backend backend' cw m hd hS hO samples hl]

theorem constant_labelled {backend : Bool → Infer} {cw : Vec} {m : GraphCRF.Model} (hc : cw.size = m.nStates)
    {O : ℕ → Edges → Set YVal} {data : List (GraphCRF.X × Labels)} (hdata : GraphData m data)
    (hA : AllLabellings m.nStates O data) :
    (problemOf (EdgeFeature.edgeModel backend cw (constantModel m)) (edgeOutputs (constantModel m) O)).Labelled
      (constantSamples (graphSamples data)) := by
  intro s hs
  obtain ⟨t, ht, rfl⟩ := List.mem_map.mp hs
  obtain ⟨d, hd', rfl⟩ := List.mem_map.mp ht
  obtain ⟨h1, h2, h3⟩ := hdata d hd'
  refine ⟨⟨constant_fits h1, hA d hd' _ ⟨d.2, rfl, h2, h3⟩⟩, ?_⟩
  change okD 0 (Loss.loss (some cw) d.2 d.2) = 0
  rw [loss_some_ok h2 h2 (by rw [hc]; exact h3)]
  simp [okD, weightedHamming]

theorem constant_graph_labelled {backend : Bool → Infer} {cw : Vec} {m : GraphCRF.Model} (hc : cw.size = m.nStates)
    {O : ℕ → Edges → Set YVal} {data : List (GraphCRF.X × Labels)} (hdata : GraphData m data)
    (hA : AllLabellings m.nStates O data) :
    (problemOf (graphModel backend cw m) (outputsOver m O)).Labelled (graphSamples data) := by
  intro s hs
  obtain ⟨d, hd', rfl⟩ := List.mem_map.mp hs
  obtain ⟨h1, h2, h3⟩ := hdata d hd'
  refine ⟨⟨h1, hA d hd' _ ⟨d.2, rfl, h2, h3⟩⟩, ?_⟩
  change okD 0 (Loss.loss (some cw) d.2 d.2) = 0
  rw [loss_some_ok h2 h2 (by rw [hc]; exact h3)]
  simp [okD, weightedHamming]

theorem constant_exact {backend : Bool → Infer} {cw : Vec} {m : GraphCRF.Model} (hS : 1 ≤ m.nStates) (hc : cw.size = m.nStates)
    {O : ℕ → Edges → Set YVal} (hO : ∀ n edges, ∀ v ∈ O n edges, IsRelaxed n m.nStates edges v)
    (hI : SolvesEdges m.nStates O (backend true)) :
    (problemOf (EdgeFeature.edgeModel backend cw (constantModel m)) (edgeOutputs (constantModel m) O)).ExactLossAug
      (fun x y w => (EdgeFeature.edgeModel backend cw (constantModel m)).lossAug x y w true) := fun x y w hy h0 =>
  edge_exact_at (constant_valid m) (show 0 < (constantModel m).nEdgeFeatures from Nat.one_pos) hS hc hO true hI x y w
    (noSymmetry _ _ _) hy h0

/-- **C171, learned weights.** A directed `GraphCRF` trained by any of the learners of C106, and an `EdgeFeatureGraphCRF` trained
by any of them on the same data with the constant edge feature 1, have the same weights up to the accuracy of training. -/
theorem C171_same_weights (backend backend' : Bool → Infer) (cw : Vec) (m : GraphCRF.Model) (hd : m.directed = true)
    (hS : 1 ≤ m.nStates) (hc : cw.size = m.nStates) {O : ℕ → Edges → Set YVal}
    (hO : ∀ n edges, ∀ v ∈ O n edges, IsRelaxed n m.nStates edges v) (hI : SolvesOver m.nStates O (backend true))
    (hI' : SolvesEdges m.nStates O (backend' true)) (data : List (GraphCRF.X × Labels)) (hdata : GraphData m data)
    (hA : AllLabellings m.nStates O data) (C ε δ : ℚ) (hC : 0 < C) (w v : W)
    (hw : Trained (graphModel backend cw m) (outputsOver m O) (graphSamples data) C ε w)
    (hv : Trained (EdgeFeature.edgeModel backend' cw (constantModel m)) (edgeOutputs (constantModel m) O)
      (constantSamples (graphSamples data)) C δ v) :
    ∑ k ∈ range (GraphCRF.sizeJointFeature m), (w k - v k) ^ 2 ≤ 4 * (ε + δ) := by
  have hLA := graph_exact (cw := cw) hS hc hO true hI
  have hl := constant_graph_labelled (backend := backend) hc hdata hA
  have h1 := trained_near _ _ hLA _ hl hC hw
  have h2 := trained_near _ _ (constant_exact hS hc hO hI') _ (constant_labelled hc hdata hA) hC hv
  rw [C171_near backend backend' cw m hd hS hO _ (fun s hs => (hl s hs).1)] at h2
  exact near_close (P := problemOf (graphModel backend cw m) (outputsOver m O)) hC.le
    (fun s hs w => ⟨_, (C29_slack _ _ true hLA s.1 s.2 w (hl s hs).1 (hl s hs).2).1⟩) h1 h2

/-! ### cases that meet the hypotheses -/

/-- two vertices joined by an edge, with one feature. -/
def joinedX : GraphCRF.X := ⟨⟨2, 1, fun i _ => i + 1⟩, [(0, 1)]⟩

/-- one labelled sample. -/
def joinedData : List (GraphCRF.X × Labels) := [(joinedX, ⟨2, fun i => i⟩)]

theorem joinedData_fits (directed : Bool) : GraphData ⟨2, 1, directed⟩ joinedData := by
  intro d hd
  simp only [joinedData, List.mem_cons, List.not_mem_nil, or_false] at hd
  subst hd
  refine ⟨⟨by decide, rfl, fun e he => ?_⟩, rfl, fun i hi => hi⟩
  have he : e ∈ [((0 : ℕ), (1 : ℕ))] := he
  rw [List.mem_singleton] at he
  subst he
  decide

theorem joinedData_all : AllLabellings 2 (relaxedOutputs 2) joinedData := fun _ _ _ h => .inl h

/-- the weights of an undirected model written as a matrix. -/
example : (List.range 6).map (fullWeights ⟨2, 1, false⟩ fun k => k) = [0, 1, 2, 3, 3, 4] ∧
    (List.range 6).map (fullWeights ⟨2, 1, true⟩ fun k => k) = [0, 1, 2, 3, 4, 5] := by decide +kernel

/-- prediction with either model. -/
example (directed : Bool) (w : W) : ∃ v v',
    GraphCRF.inference (Dispatch.backend idealPackages (.name "lp") true) ⟨2, 1, directed⟩ joinedX
      ⟨GraphCRF.sizeJointFeature ⟨2, 1, directed⟩, w⟩ = .ok v ∧
    EdgeFeature.inference EdgeFeature.checkSizeX (Dispatch.backend idealPackages (.name "lp") true)
      (constantModel ⟨2, 1, directed⟩) (constantX joinedX) ⟨6, fullWeights ⟨2, 1, directed⟩ w⟩ = .ok v' := by
  have hr := idealPackages_relaxes 2 (by decide)
  obtain ⟨h1, h2, h3⟩ := joinedData_fits directed _ List.mem_cons_self
  obtain ⟨v, v', e1, e2, -⟩ := C171_inference ⟨2, 1, directed⟩ (relaxes_solves one_le_two hr) (relaxes_solves_edges one_le_two hr)
    joinedX h1 ⟨_, .inl ⟨_, rfl, h2, h3⟩⟩ w
  exact ⟨v, v', e1, e2⟩

/-- training to any accuracy is possible. -/
example (C ε : ℚ) (hC : 0 < C) (hε : 0 < ε) : ∃ w v : W,
    Trained (graphModel (Dispatch.backend idealPackages (.name "lp")) ⟨2, fun _ => 1⟩ ⟨2, 1, true⟩)
      (outputsOver ⟨2, 1, true⟩ (relaxedOutputs 2)) (graphSamples joinedData) C ε w ∧
    Trained (EdgeFeature.edgeModel (Dispatch.backend idealPackages (.name "lp")) ⟨2, fun _ => 1⟩ (constantModel ⟨2, 1, true⟩))
      (edgeOutputs (constantModel ⟨2, 1, true⟩) (relaxedOutputs 2)) (constantSamples (graphSamples joinedData)) C ε v ∧
    ∑ k ∈ range 6, (w k - v k) ^ 2 ≤ 4 * (ε + ε) := by
  have hr := idealPackages_relaxes 2 (by decide)
  have hO : ∀ n edges, ∀ v ∈ relaxedOutputs 2 n edges, IsRelaxed n 2 edges v := fun _ _ _ h => h
  have hI := relaxes_solves (by decide) hr
  have hI' := relaxes_solves_edges (by decide) hr
  obtain ⟨w, hw⟩ := trained_exists (graphModel (Dispatch.backend idealPackages (.name "lp")) ⟨2, fun _ => 1⟩ ⟨2, 1, true⟩)
    (outputsOver ⟨2, 1, true⟩ (relaxedOutputs 2)) (graph_exact (m := ⟨2, 1, true⟩) one_le_two rfl hO true hI)
    (graphSamples joinedData) (by simp [graphSamples, joinedData]) rfl
    (constant_graph_labelled (m := ⟨2, 1, true⟩) rfl (joinedData_fits true) joinedData_all) 1000
    (graph_range (m := ⟨2, 1, true⟩) (by decide) hO _ _ (by
      intro s hs
      simp only [graphSamples, joinedData, List.map_cons, List.map_nil, List.mem_cons, List.not_mem_nil, or_false] at hs
      subst hs
      decide +kernel)) C ε hC hε
  obtain ⟨v, hv⟩ := trained_exists
    (EdgeFeature.edgeModel (Dispatch.backend idealPackages (.name "lp")) ⟨2, fun _ => 1⟩ (constantModel ⟨2, 1, true⟩))
    (edgeOutputs (constantModel ⟨2, 1, true⟩) (relaxedOutputs 2)) (constant_exact (m := ⟨2, 1, true⟩) (by decide) rfl hO hI')
    (constantSamples (graphSamples joinedData)) (by simp [constantSamples, graphSamples, joinedData]) rfl
    (constant_labelled (m := ⟨2, 1, true⟩) rfl (joinedData_fits true) joinedData_all) 1000
    (edge_range (constant_valid _) hO _ _ (by
      intro s hs
      simp only [constantSamples, graphSamples, joinedData, List.map_cons, List.map_nil, List.mem_cons, List.not_mem_nil,
        or_false] at hs
      subst hs
      decide +kernel)) C ε hC hε
  exact ⟨w, v, hw, hv, C171_same_weights _ _ ⟨2, fun _ => 1⟩ ⟨2, 1, true⟩ rfl (by decide) rfl hO hI hI' joinedData
    (joinedData_fits true) joinedData_all C ε ε hC w v hw hv⟩

end Verif.Props
