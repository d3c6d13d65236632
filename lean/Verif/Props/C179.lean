import Verif.Props.C171
import Verif.Props.C114

/-!
# C179: a `MultiLabelClf` is an `EdgeFeatureGraphCRF` on the graph of its labels
-/

namespace Verif.Props

open Finset Verif.Common Verif.Spec Verif.Learner Verif.Lemmas
open Verif.GraphCRF (Infer)
open Verif.MultiLabel (multiLabelModel multiLabelFeature)

/-- The model with two states whose nodes have one block of features per label and whose edges have one feature per edge. -/
def labelGraphModel (m : MultiLabel.Model) : EdgeFeature.Model := ⟨2, m.nLabels * m.nFeatures, m.edges.length, [], []⟩

/-- The instance of a sample: the node of a label has the features of the sample in the block of the label, and every edge its own
feature. -/
def labelGraph (m : MultiLabel.Model) (x : Vec) : EdgeFeature.X :=
  ⟨⟨m.nLabels, m.nLabels * m.nFeatures, fun l k => if k / m.nFeatures = l then x.get (k % m.nFeatures) else 0⟩, m.edges,
    ⟨m.edges.length, m.edges.length, fun e k => if k = e then 1 else 0⟩⟩

/-- The weights of the model with edge features that belong to those of a `MultiLabelClf`: the weights of absent labels are those of
present ones with the other sign. -/
def signedWeights (m : MultiLabel.Model) (w : W) : W := fun k =>
  if k < m.nLabels * m.nFeatures then -w k else w (k - m.nLabels * m.nFeatures)

/-- The weights of a `MultiLabelClf` that belong to weights of the model with edge features: half the difference for a present and an
absent label. -/
def halfDifference (m : MultiLabel.Model) (w : W) : W := fun k =>
  if k < m.nLabels * m.nFeatures then (w (m.nLabels * m.nFeatures + k) - w k) / 2 else w (m.nLabels * m.nFeatures + k)

/-- What the two models differ in: the mean score of present and absent labels. -/
def meanScore (m : MultiLabel.Model) (x : Vec) (w : W) : ℚ :=
  ∑ l ∈ range m.nLabels, ∑ f ∈ range m.nFeatures,
    x.get f * ((w (l * m.nFeatures + f) + w (m.nLabels * m.nFeatures + (l * m.nFeatures + f))) / 2)

theorem labelGraph_fits {m : MultiLabel.Model} {x : Vec} (h : MultiLabelFits m x) : EdgeFits (labelGraphModel m) (labelGraph m x) :=
  ⟨h.1, rfl, h.2.2, rfl, rfl⟩

theorem labelGraph_valid (m : MultiLabel.Model) : EdgeFeature.checkModel (labelGraphModel m) = .ok () := by
  unfold EdgeFeature.checkModel labelGraphModel
  simp

theorem labelGraph_unary (m : MultiLabel.Model) (x : Vec) (w : W) (l s : ℕ) (hl : l < m.nLabels) :
    EdgeFeature.EU (labelGraphModel m) (labelGraph m x).features w l s =
      ∑ f ∈ range m.nFeatures, x.get f * w (s * (m.nLabels * m.nFeatures) + (l * m.nFeatures + f)) := by
  unfold EdgeFeature.EU labelGraphModel labelGraph
  simp only
  rw [sum_range_mul', sum_eq_single l]
  · refine sum_congr rfl fun f hf => ?_
    rw [flat_div (mem_range.mp hf), flat_mod (mem_range.mp hf), if_pos rfl]
  · intro b _ hb
    refine sum_eq_zero fun f hf => ?_
    rw [flat_div (mem_range.mp hf), if_neg hb, zero_mul]
  · intro h
    exact absurd (mem_range.mpr hl) h

theorem labelGraph_pairwise (m : MultiLabel.Model) (x : Vec) (w : W) (e a b : ℕ) (he : e < m.edges.length) :
    EdgeFeature.EP (labelGraphModel m) (labelGraph m x).edgeFeatures w e a b =
      w (2 * (m.nLabels * m.nFeatures) + ((e * 2 + a) * 2 + b)) := by
  unfold EdgeFeature.EP labelGraphModel labelGraph
  simp only
  rw [sum_eq_single e]
  · rw [if_pos rfl, one_mul]
    unfold EdgeFeature.EW
    simp only
    congr 1
    ring
  · intro k _ hk
    rw [if_neg hk, zero_mul]
  · intro h
    exact absurd (mem_range.mpr he) h

theorem signed_unary (m : MultiLabel.Model) (x : Vec) (w : W) (l s : ℕ) (hl : l < m.nLabels) (hs : s < 2) :
    EdgeFeature.EU (labelGraphModel m) (labelGraph m x).features (signedWeights m w) l s = mlU m x w l s := by
  rw [labelGraph_unary m x _ l s hl]
  unfold signedWeights mlU
  have hlt : ∀ f ∈ range m.nFeatures, l * m.nFeatures + f < m.nLabels * m.nFeatures := fun f hf => flat_lt hl (mem_range.mp hf)
  rcases (by omega : s = 0 ∨ s = 1) with rfl | rfl
  · rw [if_pos rfl, ← sum_neg_distrib]
    refine sum_congr rfl fun f hf => ?_
    rw [zero_mul, zero_add, if_pos (hlt f hf), mul_neg]
  · rw [if_neg one_ne_zero]
    refine sum_congr rfl fun f hf => ?_
    rw [one_mul, if_neg (by omega), Nat.add_sub_cancel_left]

theorem signed_pairwise (m : MultiLabel.Model) (x : Vec) (w : W) (e a b : ℕ) (he : e < m.edges.length) :
    EdgeFeature.EP (labelGraphModel m) (labelGraph m x).edgeFeatures (signedWeights m w) e a b = mlP m w e a b := by
  rw [labelGraph_pairwise m x _ e a b he]
  unfold signedWeights mlP
  rw [if_neg (by omega)]
  congr 1
  omega

/-- **C179, potentials.** The potentials of inference are the same, for every label and every edge. -/
theorem C179_potentials (m : MultiLabel.Model) (x : Vec) (hx : MultiLabelFits m x) (hE : m.edges ≠ []) (w : W) :
    ∃ U V P T, MultiLabel.unaryPotentials m x ⟨MultiLabel.sizeJointFeature m, w⟩ = .ok U ∧
      MultiLabel.pairwisePotentials m ⟨MultiLabel.sizeJointFeature m, w⟩ = .ok P ∧
      EdgeFeature.unaryPotentials EdgeFeature.checkSizeX (labelGraphModel m) (labelGraph m x)
        ⟨EdgeFeature.sizeJointFeature (labelGraphModel m), signedWeights m w⟩ = .ok V ∧
      EdgeFeature.pairwisePotentials EdgeFeature.checkSizeX (labelGraphModel m) (labelGraph m x)
        ⟨EdgeFeature.sizeJointFeature (labelGraphModel m), signedWeights m w⟩ = .ok T ∧
      (V.rows = U.rows ∧ V.cols = U.cols ∧ ∀ i < U.rows, ∀ s < U.cols, V.get i s = U.get i s) ∧
      (T.d0 = P.d0 ∧ T.d1 = P.d1 ∧ T.d2 = P.d2 ∧ ∀ e < P.d0, ∀ a < P.d1, ∀ b < P.d2, T.get e a b = P.get e a b) := by
  obtain ⟨T, h1, h2⟩ := pairwise_some (labelGraph_fits hx) (show 0 < m.edges.length from List.length_pos_of_ne_nil hE) (signedWeights m w)
  refine ⟨_, _, _, _, ml_unary_ok (w := ⟨MultiLabel.sizeJointFeature m, w⟩) hx.2.1 rfl,
    ml_pairwise_ok (w := ⟨MultiLabel.sizeJointFeature m, w⟩) rfl,
    EdgeFeature.unary_ok (EdgeFeature.checkSizeX_ok rfl rfl rfl) rfl rfl, h1,
    ⟨rfl, rfl, fun i hi s hs => signed_unary m x w i s hi hs⟩, rfl, rfl, rfl, fun e he a ha b hb => ?_⟩
  exact (h2 e he a ha b hb).trans (signed_pairwise m x w e a b he)

/-- the score of an output under the two kinds of potentials. -/
theorem signed_score (m : MultiLabel.Model) (x : Vec) (w : W) (v : YVal) :
    edgeScore m.nLabels 2 m.edges (EdgeFeature.EU (labelGraphModel m) (labelGraph m x).features (signedWeights m w))
      (EdgeFeature.EP (labelGraphModel m) (labelGraph m x).edgeFeatures (signedWeights m w)) v =
    edgeScore m.nLabels 2 m.edges (mlU m x w) (mlP m w) v :=
  edgeScore_congr (fun i hi s hs => signed_unary m x w i s hi hs) (fun e he a _ b _ => signed_pairwise m x w e a b he) v

theorem labelGraph_value {m : MultiLabel.Model} {x : Vec} (hx : MultiLabelFits m x) (w : W) {v : YVal}
    (hv : IsRelaxed m.nLabels 2 m.edges v) :
    dot (EdgeFeature.sizeJointFeature (labelGraphModel m)) w (EdgeFeature.edgeFeature (labelGraphModel m) (labelGraph m x) v) =
      edgeScore m.nLabels 2 m.edges (EdgeFeature.EU (labelGraphModel m) (labelGraph m x).features w)
        (EdgeFeature.EP (labelGraphModel m) (labelGraph m x).edgeFeatures w) v := by
  rw [edge_value (labelGraph_valid m) (labelGraph_fits hx) (v := v) hv]
  exact edgeScore_congr (fun _ _ _ _ => rfl) (fun e _ a ha b hb =>
    symEP_eq (m := labelGraphModel m) (noSymmetry _ _ _) _ e a b ha hb) v

/-- **C179, scores.** Weights times joint feature are the same for every set of labels, relaxed or not. -/
theorem C179_scores (m : MultiLabel.Model) (x : Vec) (hx : MultiLabelFits m x) (w : W) (v : YVal)
    (hv : IsRelaxed m.nLabels 2 m.edges v) :
    dot (EdgeFeature.sizeJointFeature (labelGraphModel m)) (signedWeights m w)
        (EdgeFeature.edgeFeature (labelGraphModel m) (labelGraph m x) v) =
      dot (MultiLabel.sizeJointFeature m) w (multiLabelFeature m x v) := by
  rw [labelGraph_value hx _ hv, signed_score, ml_value hx hv]

/-- **C179, nothing gained.** The model with edge features has twice as many weights for the features, but they express nothing new:
whatever its weights, those of the `MultiLabelClf` with half the differences give the same scores up to a number that depends on the
sample only, so that the same sets of labels are best. -/
theorem C179_converse (m : MultiLabel.Model) (x : Vec) (hx : MultiLabelFits m x) (w : W) (v : YVal)
    (hv : IsRelaxed m.nLabels 2 m.edges v) :
    dot (EdgeFeature.sizeJointFeature (labelGraphModel m)) w (EdgeFeature.edgeFeature (labelGraphModel m) (labelGraph m x) v) =
      dot (MultiLabel.sizeJointFeature m) (halfDifference m w) (multiLabelFeature m x v) + meanScore m x w := by
  have hp := isRelaxed_polytope hx.2.2 hv
  rw [labelGraph_value hx _ hv, ml_value hx hv]
  have hU : ∀ l < m.nLabels, ∀ s < 2, EdgeFeature.EU (labelGraphModel m) (labelGraph m x).features w l s =
      mlU m x (halfDifference m w) l s + ∑ f ∈ range m.nFeatures,
        x.get f * ((w (l * m.nFeatures + f) + w (m.nLabels * m.nFeatures + (l * m.nFeatures + f))) / 2) := by
    intro l hl s hs
    rw [labelGraph_unary m x _ l s hl]
    unfold mlU
    simp only [halfDifference]
    have hlt : ∀ f ∈ range m.nFeatures, l * m.nFeatures + f < m.nLabels * m.nFeatures := fun f hf => flat_lt hl (mem_range.mp hf)
    rcases (by omega : s = 0 ∨ s = 1) with rfl | rfl
    · rw [if_pos rfl, ← sum_neg_distrib, ← sum_add_distrib]
      refine sum_congr rfl fun f hf => ?_
      rw [if_pos (hlt f hf), zero_mul, zero_add]
      ring
    · rw [if_neg one_ne_zero, ← sum_add_distrib]
      refine sum_congr rfl fun f hf => ?_
      rw [if_pos (hlt f hf), one_mul]
      ring
  have hP : ∀ e < m.edges.length, ∀ a < 2, ∀ b < 2, EdgeFeature.EP (labelGraphModel m) (labelGraph m x).edgeFeatures w e a b =
      mlP m (halfDifference m w) e a b := by
    intro e he a _ b _
    rw [labelGraph_pairwise m x _ e a b he]
    unfold mlP
    simp only [halfDifference]
    rw [if_neg (by omega)]
    congr 1
    ring
  rw [edgeScore_congr hU hP]
  unfold edgeScore marginalScore meanScore
  rw [add_right_comm]
  congr 1
  rw [← sum_add_distrib]
  refine sum_congr rfl fun l hl => ?_
  rw [← mul_one (∑ f ∈ range m.nFeatures, _), ← hp.normalised l (mem_range.mp hl), mul_sum, ← sum_add_distrib]
  exact sum_congr rfl fun s _ => by ring

/-- **C179, inference.** With inference methods that find the best output of one kind, both models return an output that is best
for either. -/
theorem C179_inference (m : MultiLabel.Model) {O : ℕ → Edges → Set YVal} (hO : ∀ n edges, ∀ v ∈ O n edges, IsRelaxed n 2 edges v)
    {inf inf' : Infer} (hI : SolvesEdges 2 O inf) (hI' : SolvesEdges 2 O inf') (x : Vec) (hx : MultiLabelFits m x) (hE : m.edges ≠ [])
    (hne : (O m.nLabels m.edges).Nonempty) (w : W) :
    ∃ v v', MultiLabel.inference inf m x ⟨MultiLabel.sizeJointFeature m, w⟩ = .ok v ∧
      EdgeFeature.inference EdgeFeature.checkSizeX inf' (labelGraphModel m) (labelGraph m x)
        ⟨EdgeFeature.sizeJointFeature (labelGraphModel m), signedWeights m w⟩ = .ok v' ∧
      v ∈ O m.nLabels m.edges ∧ v' ∈ O m.nLabels m.edges ∧
      dot (MultiLabel.sizeJointFeature m) w (multiLabelFeature m x v) = dot (MultiLabel.sizeJointFeature m) w (multiLabelFeature m x v') ∧
      ∀ z ∈ O m.nLabels m.edges,
        dot (MultiLabel.sizeJointFeature m) w (multiLabelFeature m x z) ≤ dot (MultiLabel.sizeJointFeature m) w (multiLabelFeature m x v) := by
  obtain ⟨v, hv, e1, e2⟩ := hI _ _ hx.1 hx.2.2 hne (mlU m x w) (mlP m w)
  obtain ⟨T, h1, h2⟩ := pairwise_some (labelGraph_fits hx) (show 0 < m.edges.length from List.length_pos_of_ne_nil hE) (signedWeights m w)
  obtain ⟨v', hv', e3, e4⟩ := hI' _ _ hx.1 hx.2.2 hne (EdgeFeature.EU (labelGraphModel m) (labelGraph m x).features (signedWeights m w)) T
  have hsc : ∀ z, edgeScore m.nLabels 2 m.edges
      (EdgeFeature.EU (labelGraphModel m) (labelGraph m x).features (signedWeights m w)) T z =
      edgeScore m.nLabels 2 m.edges (mlU m x w) (mlP m w) z := by
    intro z
    rw [← signed_score]
    exact edgeScore_congr (fun _ _ _ _ => rfl) (fun e he a ha b hb => h2 e he a ha b hb) z
  simp only [hsc] at e4
  have hval : ∀ z ∈ O m.nLabels m.edges, dot (MultiLabel.sizeJointFeature m) w (multiLabelFeature m x z) =
      edgeScore m.nLabels 2 m.edges (mlU m x w) (mlP m w) z := fun z hz => ml_value hx (hO _ _ z hz) w
  refine ⟨v, v', ?_, ?_, hv, hv', ?_, fun z hz => ?_⟩
  · unfold MultiLabel.inference
    rw [GraphCRF.checkSizeW_ok (w := ⟨MultiLabel.sizeJointFeature m, w⟩) rfl,
      ml_unary_ok (w := ⟨MultiLabel.sizeJointFeature m, w⟩) hx.2.1 rfl,
      ml_pairwise_ok (w := ⟨MultiLabel.sizeJointFeature m, w⟩) rfl]
    exact e1
  · unfold EdgeFeature.inference
    rw [GraphCRF.checkSizeW_ok (w := ⟨EdgeFeature.sizeJointFeature (labelGraphModel m), signedWeights m w⟩) rfl,
      EdgeFeature.unary_ok (EdgeFeature.checkSizeX_ok rfl rfl rfl) rfl rfl, h1]
    exact e3
  · rw [hval v hv, hval v' hv']
    exact le_antisymm (e4 v hv) (e2 v' hv')
  · rw [hval v hv, hval z hz]
    exact e2 z hz

theorem labelGraph_outputs (m : MultiLabel.Model) (O : ℕ → Edges → Set YVal) (x : Vec) (hx : x.size = m.nFeatures) :
    edgeOutputs (labelGraphModel m) O (labelGraph m x) = multiLabelOutputs m O x := by
  ext v
  exact ⟨fun h => ⟨⟨h.1.1, hx, h.1.2.2.1⟩, h.2⟩, fun h => ⟨labelGraph_fits h.1, h.2⟩⟩

/-- hinge losses agree if scores agree up to a number. -/
theorem hinge_constant {X X' : Type} {p : Problem X YVal} {p' : Problem X' YVal} {w w' : W} {x : X} {x' : X'} {y : YVal} {c : ℚ}
    (ho : p'.outputs x' = p.outputs x) (hl : ∀ v, p'.loss y v = p.loss y v)
    (hval : ∀ v ∈ p.outputs x, p'.value w' x' y v = p.value w x y v + c) (hy : y ∈ p.outputs x) (h : ℚ) :
    p'.IsHinge w' x' y h ↔ p.IsHinge w x y h := by
  have hv : ∀ v ∈ p.outputs x, p'.violation w' x' y v = p.violation w x y v := by
    intro v hv
    unfold Problem.violation
    rw [hval v hv, hval y hy, hl]
    ring
  unfold Problem.IsHinge
  have hset : {v | ∃ ŷ ∈ p'.outputs x', v = p'.violation w' x' y ŷ} = {v | ∃ ŷ ∈ p.outputs x, v = p.violation w x y ŷ} := by
    rw [ho]
    ext v
    exact ⟨fun ⟨z, hz, e⟩ => ⟨z, hz, e.trans (hv z hz)⟩, fun ⟨z, hz, e⟩ => ⟨z, hz, e.trans (hv z hz).symm⟩⟩
  exact Iff.of_eq (congrArg (fun t => IsGreatest t h) hset)

/-- **C179, risk.** The hinge losses of a labelled sample agree in both directions: the two models can fit the same data equally well. -/
theorem C179_hinge (backend backend' : Bool → Infer) (cw : Vec) (m : MultiLabel.Model) {O : ℕ → Edges → Set YVal}
    (hO : ∀ n edges, ∀ v ∈ O n edges, IsRelaxed n 2 edges v) (x : Vec) (y : YVal) (hy : y ∈ multiLabelOutputs m O x) (w : W) (h : ℚ) :
    ((problemOf (EdgeFeature.edgeModel backend' cw (labelGraphModel m)) (edgeOutputs (labelGraphModel m) O)).IsHinge (signedWeights m w)
        (labelGraph m x) y h ↔
      (problemOf (multiLabelModel backend cw m) (multiLabelOutputs m O)).IsHinge w x y h) ∧
    ((problemOf (EdgeFeature.edgeModel backend' cw (labelGraphModel m)) (edgeOutputs (labelGraphModel m) O)).IsHinge w (labelGraph m x) y h ↔
      (problemOf (multiLabelModel backend cw m) (multiLabelOutputs m O)).IsHinge (halfDifference m w) x y h) := by
  have ho := labelGraph_outputs m O x hy.1.2.1
  constructor
  · refine hinge_constant (p := problemOf (multiLabelModel backend cw m) (multiLabelOutputs m O))
      (p' := problemOf (EdgeFeature.edgeModel backend' cw (labelGraphModel m)) (edgeOutputs (labelGraphModel m) O)) (c := 0) ho
      (fun _ => rfl) (fun v hv => ?_) hy h
    rw [add_zero]
    exact C179_scores m x hv.1 w v (hO _ _ v hv.2)
  · exact hinge_constant (p := problemOf (multiLabelModel backend cw m) (multiLabelOutputs m O))
      (p' := problemOf (EdgeFeature.edgeModel backend' cw (labelGraphModel m)) (edgeOutputs (labelGraphModel m) O))
      (c := meanScore m x w) ho (fun _ => rfl) (fun v hv => C179_converse m x hv.1 w v (hO _ _ v hv.2)) hy h

/-- **C179, regularisation.** The weights that belong to those of the `MultiLabelClf` count the weights of features twice; and
of all weights with the same half differences and pairwise weights they are the shortest. -/
theorem C179_norm (m : MultiLabel.Model) (w v : W) (h : ∀ k < MultiLabel.sizeJointFeature m, halfDifference m v k = w k) :
    ∑ k ∈ range (EdgeFeature.sizeJointFeature (labelGraphModel m)), signedWeights m w k ^ 2 =
      ∑ k ∈ range (m.nLabels * m.nFeatures), w k ^ 2 + ∑ k ∈ range (MultiLabel.sizeJointFeature m), w k ^ 2 ∧
    ∑ k ∈ range (EdgeFeature.sizeJointFeature (labelGraphModel m)), signedWeights m w k ^ 2 ≤
      ∑ k ∈ range (EdgeFeature.sizeJointFeature (labelGraphModel m)), v k ^ 2 := by
  have hsz : EdgeFeature.sizeJointFeature (labelGraphModel m) = m.nLabels * m.nFeatures + MultiLabel.sizeJointFeature m := by
    unfold EdgeFeature.sizeJointFeature MultiLabel.sizeJointFeature labelGraphModel
    simp only
    ring
  have hsz' : MultiLabel.sizeJointFeature m = m.nLabels * m.nFeatures + 4 * m.edges.length := by
    unfold MultiLabel.sizeJointFeature
    ring
  have e : ∑ k ∈ range (EdgeFeature.sizeJointFeature (labelGraphModel m)), signedWeights m w k ^ 2 =
      ∑ k ∈ range (m.nLabels * m.nFeatures), w k ^ 2 + ∑ k ∈ range (MultiLabel.sizeJointFeature m), w k ^ 2 := by
    rw [hsz, sum_range_add]
    congr 1
    · refine sum_congr rfl fun k hk => ?_
      unfold signedWeights
      rw [if_pos (mem_range.mp hk), neg_sq]
    · refine sum_congr rfl fun k _ => ?_
      unfold signedWeights
      rw [if_neg (by omega), Nat.add_sub_cancel_left]
  refine ⟨e, ?_⟩
  rw [e, hsz, sum_range_add, hsz', sum_range_add, sum_range_add, ← add_assoc, ← add_assoc]
  refine add_le_add ?_ (le_of_eq ?_)
  · rw [← sum_add_distrib, ← sum_add_distrib]
    refine sum_le_sum fun k hk => ?_
    have hk' := h k (by have := mem_range.mp hk; omega)
    unfold halfDifference at hk'
    rw [if_pos (mem_range.mp hk)] at hk'
    rw [← hk']
    nlinarith [sq_nonneg (v (m.nLabels * m.nFeatures + k) + v k)]
  · refine sum_congr rfl fun k hk => ?_
    have hk' := h (m.nLabels * m.nFeatures + k) (by have := mem_range.mp hk; omega)
    unfold halfDifference at hk'
    rw [if_neg (by omega)] at hk'
    rw [← hk']

/-! ### cases that meet the hypotheses -/

example : MultiLabelFits mlModel ⟨2, fun f => f + 1⟩ ∧ mlModel.edges ≠ [] :=
  ⟨⟨by decide, rfl, by unfold EdgesIn; decide⟩, by decide⟩

example : IsRelaxed mlModel.nLabels 2 mlModel.edges (.discrete ⟨3, fun l => l % 2⟩) :=
  .inl ⟨_, rfl, rfl, by unfold Valid; decide⟩

/-- two labels, one feature, one edge: weights of absent labels, present labels, and the edge. -/
example : (List.range 8).map (signedWeights ⟨2, 1, [(0, 1)]⟩ fun k => k + 1) = [-1, -2, 1, 2, 3, 4, 5, 6] := by decide +kernel

example (w : W) : ∀ k < MultiLabel.sizeJointFeature mlModel, halfDifference mlModel (signedWeights mlModel w) k = w k := by
  intro k hk
  simp only [halfDifference, signedWeights]
  split
  · rw [if_neg (by omega), Nat.add_sub_cancel_left]
    ring
  · rw [if_neg (by omega), Nat.add_sub_cancel_left]

example (w : W) : ∃ v v',
    MultiLabel.inference (Dispatch.backend idealPackages (.name "lp") true) mlModel ⟨2, fun f => f + 1⟩
      ⟨MultiLabel.sizeJointFeature mlModel, w⟩ = .ok v ∧
    EdgeFeature.inference EdgeFeature.checkSizeX (Dispatch.backend idealPackages (.name "lp") true) (labelGraphModel mlModel)
      (labelGraph mlModel ⟨2, fun f => f + 1⟩) ⟨EdgeFeature.sizeJointFeature (labelGraphModel mlModel), signedWeights mlModel w⟩ = .ok v' := by
  have hr := idealPackages_relaxes 2 (by decide)
  obtain ⟨v, v', e1, e2, -⟩ := C179_inference mlModel (O := relaxedOutputs 2) (fun _ _ _ h => h)
    (relaxes_solves_edges one_le_two hr) (relaxes_solves_edges one_le_two hr) ⟨2, fun f => f + 1⟩
    ⟨by decide, rfl, by unfold EdgesIn; decide⟩ (by decide)
    ⟨.discrete ⟨3, fun _ => 0⟩, .inl ⟨_, rfl, rfl, fun _ _ => Nat.two_pos⟩⟩ w
  exact ⟨v, v', e1, e2⟩

end Verif.Props
