import Verif.Props.C171
import Verif.Props.C115

/-!
# C177: a `GridCRF` is a `DirectionalGridCRF` with the same weights for both directions
-/

namespace Verif.Props

open Finset Verif.Common Verif.Spec Verif.Learner Verif.Lemmas
open Verif.GraphCRF (Infer)
open Verif.EdgeFeature (directionalModel directionalX directionalFeature directionalInference gridX gridFeature gridInference gridModel
  directionalGridModel)

/-- The weights of the directional model that belong to those of a `GridCRF`: the pairwise weights written as a full matrix, once for
every direction. -/
def tiedWeights (m : GraphCRF.Model) (w : W) : W := fun k =>
  if k < m.nStates * m.nFeatures then w k
  else
    let r := (k - m.nStates * m.nFeatures) % m.nStates ^ 2
    let a := r / m.nStates
    let b := r % m.nStates
    if m.directed then w (m.nStates * m.nFeatures + (a * m.nStates + b))
    else w (m.nStates * m.nFeatures + (max a b * (max a b + 1) / 2 + min a b))

theorem tied_unary (m : GraphCRF.Model) (x : Mat) (w : W) (i s : ℕ) (hs : s < m.nStates) :
    EdgeFeature.EU (directionalModel m.nStates m.nFeatures 4) x (tiedWeights m w) i s = GraphCRF.UN m x w i s := by
  unfold EdgeFeature.EU GraphCRF.UN tiedWeights directionalModel
  refine sum_congr rfl fun f hf => ?_
  rw [if_pos (flat_lt hs (mem_range.mp hf))]

theorem tied_weight (m : GraphCRF.Model) (w : W) (k a b : ℕ) (ha : a < m.nStates) (hb : b < m.nStates) :
    EdgeFeature.EW (directionalModel m.nStates m.nFeatures 4) (tiedWeights m w) k a b = GraphCRF.PW m w a b := by
  rw [PW_eq]
  unfold EdgeFeature.EW tiedWeights directionalModel
  simp only
  have hr : a * m.nStates + b < m.nStates ^ 2 := by rw [pow_two]; exact flat_lt ha hb
  rw [if_neg (by omega), Nat.add_sub_cancel_left, Nat.mul_comm k, Nat.mul_add_mod, Nat.mod_eq_of_lt hr, flat_div hb, flat_mod hb]

theorem tied_pairwise (m : GraphCRF.Model) (w : W) (A B : Edges) (e a b : ℕ) (ha : a < m.nStates) (hb : b < m.nStates) :
    EdgeFeature.EP (directionalModel m.nStates m.nFeatures 4) (Grid.edgeListToFeatures [A, B]) (tiedWeights m w) e a b =
      GraphCRF.PW m w a b := by
  unfold EdgeFeature.EP Grid.edgeListToFeatures
  change ∑ k ∈ range 2, _ = _
  rw [sum_range_succ, sum_range_one, tied_weight m w 0 a b ha hb, tied_weight m w 1 a b ha hb]
  by_cases h : e < A.length <;> simp [h]

theorem tied_views {F : ℕ} {t : Ten} (h : GridFits F t) :
    gridX 4 F t = .ok ⟨(directionalView 4 F t).features, (directionalView 4 F t).edges⟩ := by
  obtain ⟨E, hE, -, hx⟩ := gridX_ok (nb := 4) (Or.inl rfl) h
  rw [gridEdges_four] at hE
  injection hE with hE
  rw [hx, directionalView_eq h, ← hE]

theorem tied_edge (m : GraphCRF.Model) {t : Ten} (ht : GridFits m.nFeatures t) (w : W) (e a b : ℕ) (ha : a < m.nStates)
    (hb : b < m.nStates) :
    EdgeFeature.EP (directionalModel m.nStates m.nFeatures 4) (directionalView 4 m.nFeatures t).edgeFeatures (tiedWeights m w) e a b =
      GraphCRF.PW m w a b := by
  rw [directionalView_eq ht]
  exact tied_pairwise m w _ _ e a b ha hb

/-- **C177, potentials.** The potentials of inference are the same: those of the pixels, and for every pair of neighbours those of the one
matrix. -/
theorem C177_potentials (m : GraphCRF.Model) (t : Ten) (ht : GridFits m.nFeatures t) (w : W) :
    ∃ x x' U V P T, gridX 4 m.nFeatures t = .ok x ∧ directionalX 4 m.nFeatures t = .ok x' ∧ x'.edges = x.edges ∧
      GraphCRF.unaryPotentials m x ⟨GraphCRF.sizeJointFeature m, w⟩ = .ok U ∧
      GraphCRF.pairwisePotentials m x ⟨GraphCRF.sizeJointFeature m, w⟩ = .ok P ∧
      EdgeFeature.unaryPotentials EdgeFeature.checkFeatures (directionalModel m.nStates m.nFeatures 4) x'
        ⟨EdgeFeature.sizeJointFeature (directionalModel m.nStates m.nFeatures 4), tiedWeights m w⟩ = .ok V ∧
      EdgeFeature.pairwisePotentials EdgeFeature.checkFeatures (directionalModel m.nStates m.nFeatures 4) x'
        ⟨EdgeFeature.sizeJointFeature (directionalModel m.nStates m.nFeatures 4), tiedWeights m w⟩ = .ok T ∧
      (V.rows = U.rows ∧ V.cols = U.cols ∧ ∀ i < U.rows, ∀ s < U.cols, V.get i s = U.get i s) ∧
      (T.d0 = x.edges.length ∧ T.d1 = P.rows ∧ T.d2 = P.cols ∧
        ∀ e < x.edges.length, ∀ a < P.rows, ∀ b < P.cols, T.get e a b = P.get a b) := by
  have hfit := directionalView_fits (S := m.nStates) ht
  obtain ⟨T, h1, h2⟩ := pairwise_some hfit (show 0 < (directionalModel m.nStates m.nFeatures 4).nEdgeFeatures from Nat.two_pos)
    (tiedWeights m w)
  obtain ⟨-, g2, -, g3, g4⟩ := id hfit
  unfold EdgeFeature.pairwisePotentials at h1
  rw [EdgeFeature.checkSizeX_ok g2 g3 g4, ← EdgeFeature.checkFeatures_ok g2] at h1
  refine ⟨_, _, _, _, _, _, tied_views ht, directionalX_view ht, rfl,
    GraphCRF.unary_ok (w := ⟨GraphCRF.sizeJointFeature m, w⟩) g2 rfl,
    GraphCRF.pairwise_ok (w := ⟨GraphCRF.sizeJointFeature m, w⟩) g2 rfl,
    EdgeFeature.unary_ok (EdgeFeature.checkFeatures_ok g2) g2 rfl, h1,
    ⟨rfl, rfl, fun i _ s hs => tied_unary m _ w i s hs⟩, rfl, rfl, rfl, fun e he a ha b hb => ?_⟩
  exact (h2 e he a ha b hb).trans (tied_edge m ht w e a b ha hb)

/-- the score of an output under the two kinds of potentials. -/
theorem tied_score (m : GraphCRF.Model) {t : Ten} (ht : GridFits m.nFeatures t) (w : W) (n : ℕ) (E : Edges) (x : Mat) (v : YVal) :
    edgeScore n m.nStates E (EdgeFeature.EU (directionalModel m.nStates m.nFeatures 4) x (tiedWeights m w))
      (EdgeFeature.EP (directionalModel m.nStates m.nFeatures 4) (directionalView 4 m.nFeatures t).edgeFeatures (tiedWeights m w)) v =
    outputScore n m.nStates E (GraphCRF.UN m x w) (GraphCRF.PW m w) v :=
  edgeScore_congr (fun i _ s hs => tied_unary m _ w i s hs) (fun e _ a ha b hb => tied_edge m ht w e a b ha hb) v

theorem directional_valid (S F : ℕ) : EdgeFeature.checkModel (directionalModel S F 4) = .ok () := by
  unfold EdgeFeature.checkModel directionalModel
  simp

/-- **C177, scores.** Weights times joint feature are the same for every image and every labelling, relaxed or not. -/
theorem C177_scores (m : GraphCRF.Model) (hS : 1 ≤ m.nStates) (t : Ten) (ht : GridFits m.nFeatures t) (w : W) (v : YVal)
    (hv : ∀ E, Grid.gridEdges t.d0 t.d1 4 = .ok E → IsRelaxed (t.d0 * t.d1) m.nStates E v) :
    dot (EdgeFeature.sizeJointFeature (directionalModel m.nStates m.nFeatures 4)) (tiedWeights m w)
        (directionalFeature 4 (directionalModel m.nStates m.nFeatures 4) t v) =
      dot (GraphCRF.sizeJointFeature m) w (gridFeature 4 m t v) := by
  have hfit := directionalView_fits (S := m.nStates) ht
  have hx := directionalX_view ht
  have hx' := tied_views ht
  have hsc := tied_score m ht w
  have hv' : IsRelaxed (directionalView 4 m.nFeatures t).features.rows m.nStates (directionalView 4 m.nFeatures t).edges v := by
    rw [directionalView_eq ht]
    exact hv _ (gridEdges_four _ _)
  generalize directionalView 4 m.nFeatures t = x at *
  obtain ⟨h1, h2, h5, h3, h4⟩ := id hfit
  have e1 : directionalFeature 4 (directionalModel m.nStates m.nFeatures 4) t v =
      EdgeFeature.edgeFeature (directionalModel m.nStates m.nFeatures 4) x v := by
    rw [directionalFeature_ok hx]
    unfold EdgeFeature.edgeFeature EdgeFeature.jointFeature
    rw [EdgeFeature.checkSizeX_ok h2 h3 h4, EdgeFeature.checkFeatures_ok h2]
  have e2 : gridFeature 4 m t v = graphFeature m ⟨x.features, x.edges⟩ v := by
    unfold gridFeature graphFeature
    rw [hx']
    rfl
  rw [e1, e2, value_output (m := m) (x := ⟨x.features, x.edges⟩) h2 h5 hS hv', edge_value (directional_valid _ _) hfit (v := v) hv', ← hsc]
  exact edgeScore_congr (fun _ _ _ _ => rfl) (fun e _ a ha b hb =>
    symEP_eq (m := directionalModel m.nStates m.nFeatures 4) (noSymmetry _ _ _) _ e a b ha hb) v

/-- **C177, inference.** With inference methods that find the best output of one kind, both models return an output that is best
for either. -/
theorem C177_inference (m : GraphCRF.Model) (hS : 1 ≤ m.nStates) {O : ℕ → Edges → Set YVal}
    (hO : ∀ n edges, ∀ v ∈ O n edges, IsRelaxed n m.nStates edges v) {inf inf' : Infer} (hI : SolvesOver m.nStates O inf)
    (hI' : SolvesEdges m.nStates O inf') (t : Ten) (ht : GridFits m.nFeatures t) (hne : ∀ E, (O (t.d0 * t.d1) E).Nonempty) (w : W) :
    ∃ v v', gridInference inf 4 m t w = .ok v ∧
      directionalInference inf' 4 (directionalModel m.nStates m.nFeatures 4) t (tiedWeights m w) = .ok v' ∧
      v ∈ imageOutputs 4 m.nFeatures O t ∧ v' ∈ imageOutputs 4 m.nFeatures O t ∧
      dot (GraphCRF.sizeJointFeature m) w (gridFeature 4 m t v) = dot (GraphCRF.sizeJointFeature m) w (gridFeature 4 m t v') ∧
      ∀ z ∈ imageOutputs 4 m.nFeatures O t,
        dot (GraphCRF.sizeJointFeature m) w (gridFeature 4 m t z) ≤ dot (GraphCRF.sizeJointFeature m) w (gridFeature 4 m t v) := by
  have hfit := directionalView_fits (S := m.nStates) ht
  have hx := directionalX_view ht
  have hx' := tied_views ht
  have hsc := tied_score m ht w
  have hout : ∀ v, v ∈ imageOutputs 4 m.nFeatures O t ↔
      v ∈ O (directionalView 4 m.nFeatures t).features.rows (directionalView 4 m.nFeatures t).edges := by
    intro v
    rw [← directionalView_outputs]
    exact ⟨fun h => h.2, fun h => ⟨ht, h⟩⟩
  have hne' : (O (directionalView 4 m.nFeatures t).features.rows (directionalView 4 m.nFeatures t).edges).Nonempty := by
    rw [directionalView_eq ht]
    exact hne _
  simp only [hout]
  generalize directionalView 4 m.nFeatures t = x at *
  obtain ⟨h1, h2, h5, h3, h4⟩ := id hfit
  have hval : ∀ z ∈ O x.features.rows x.edges, dot (GraphCRF.sizeJointFeature m) w (gridFeature 4 m t z) =
      outputScore x.features.rows m.nStates x.edges (GraphCRF.UN m x.features w) (GraphCRF.PW m w) z := by
    intro z hz
    have e2 : gridFeature 4 m t z = graphFeature m ⟨x.features, x.edges⟩ z := by
      unfold gridFeature graphFeature
      rw [hx']
      rfl
    rw [e2]
    exact value_output (m := m) (x := ⟨x.features, x.edges⟩) h2 h5 hS (hO _ _ z hz) w
  obtain ⟨v, hv, e1, e2⟩ := hI _ _ h1 h5 hne' (GraphCRF.UN m x.features w) (GraphCRF.PW m w)
  obtain ⟨T, g1, g2⟩ := pairwise_some hfit (show 0 < (directionalModel m.nStates m.nFeatures 4).nEdgeFeatures from Nat.two_pos)
    (tiedWeights m w)
  obtain ⟨v', hv', e3, e4⟩ := hI' _ _ h1 h5 hne'
    (EdgeFeature.EU (directionalModel m.nStates m.nFeatures 4) x.features (tiedWeights m w)) T
  have hT : ∀ z, edgeScore x.features.rows m.nStates x.edges
      (EdgeFeature.EU (directionalModel m.nStates m.nFeatures 4) x.features (tiedWeights m w)) T z =
      outputScore x.features.rows m.nStates x.edges (GraphCRF.UN m x.features w) (GraphCRF.PW m w) z := by
    intro z
    rw [← hsc]
    exact edgeScore_congr (fun _ _ _ _ => rfl) (fun e he a ha b hb => g2 e he a ha b hb) z
  simp only [hT] at e4
  unfold EdgeFeature.pairwisePotentials at g1
  rw [EdgeFeature.checkSizeX_ok h2 h3 h4, ← EdgeFeature.checkFeatures_ok h2] at g1
  refine ⟨v, v', ?_, ?_, hv, hv', ?_, fun z hz => ?_⟩
  · unfold gridInference
    rw [hx']
    simp only [bind, Except.bind]
    unfold GraphCRF.inference
    rw [GraphCRF.checkSizeW_ok (w := ⟨GraphCRF.sizeJointFeature m, w⟩) rfl,
      GraphCRF.unary_ok (w := ⟨GraphCRF.sizeJointFeature m, w⟩) h2 rfl,
      GraphCRF.pairwise_ok (w := ⟨GraphCRF.sizeJointFeature m, w⟩) h2 rfl]
    exact e1
  · unfold directionalInference
    change (do let x ← directionalX 4 m.nFeatures t; _) = _
    rw [hx]
    simp only [bind, Except.bind]
    unfold EdgeFeature.inference EdgeFeature.pairwisePotentials
    rw [EdgeFeature.unary_ok (EdgeFeature.checkFeatures_ok h2) h2 rfl, g1,
      GraphCRF.checkSizeW_ok (w := ⟨EdgeFeature.sizeJointFeature (directionalModel m.nStates m.nFeatures 4), tiedWeights m w⟩) rfl]
    exact e3
  · rw [hval v hv, hval v' hv']
    exact le_antisymm (e4 v hv) (e2 v' hv')
  · rw [hval v hv, hval z hz]
    exact e2 z hz

/-- **C177, risk.** The hinge loss of a labelled image is the same: whatever a `GridCRF` can learn, a `DirectionalGridCRF` can express. -/
theorem C177_hinge (backend backend' : Bool → Infer) (cw : Vec) (m : GraphCRF.Model) (hS : 1 ≤ m.nStates) {O : ℕ → Edges → Set YVal}
    (hO : ∀ n edges, ∀ v ∈ O n edges, IsRelaxed n m.nStates edges v) (t : Ten) (y : YVal)
    (hy : y ∈ imageOutputs 4 m.nFeatures O t) (w : W) (h : ℚ) :
    (problemOf (directionalGridModel backend' cw 4 m.nStates m.nFeatures) (imageOutputs 4 m.nFeatures O)).IsHinge (tiedWeights m w) t y h ↔
      (problemOf (gridModel backend cw 4 m) (imageOutputs 4 m.nFeatures O)).IsHinge w t y h := by
  have hval : ∀ v ∈ imageOutputs 4 m.nFeatures O t,
      (problemOf (directionalGridModel backend' cw 4 m.nStates m.nFeatures) (imageOutputs 4 m.nFeatures O)).value (tiedWeights m w) t y v =
      (problemOf (gridModel backend cw 4 m) (imageOutputs 4 m.nFeatures O)).value w t y v := by
    intro v hv
    obtain ⟨ht, E, hE, hv⟩ := hv
    refine C177_scores m hS t ht w v fun E' hE' => ?_
    rw [hE] at hE'
    injection hE' with hE'
    rw [← hE']
    exact hO _ _ v hv
  have hvi : ∀ v ∈ imageOutputs 4 m.nFeatures O t,
      (problemOf (directionalGridModel backend' cw 4 m.nStates m.nFeatures) (imageOutputs 4 m.nFeatures O)).violation (tiedWeights m w) t y v =
      (problemOf (gridModel backend cw 4 m) (imageOutputs 4 m.nFeatures O)).violation w t y v := by
    intro v hv
    unfold Problem.violation
    rw [hval v hv, hval y hy]
    rfl
  have hset : {v | ∃ ŷ ∈ imageOutputs 4 m.nFeatures O t, v = (problemOf (directionalGridModel backend' cw 4 m.nStates m.nFeatures)
      (imageOutputs 4 m.nFeatures O)).violation (tiedWeights m w) t y ŷ} =
      {v | ∃ ŷ ∈ imageOutputs 4 m.nFeatures O t, v = (problemOf (gridModel backend cw 4 m) (imageOutputs 4 m.nFeatures O)).violation w t y ŷ} := by
    ext v
    exact ⟨fun ⟨z, hz, e⟩ => ⟨z, hz, e.trans (hvi z hz)⟩, fun ⟨z, hz, e⟩ => ⟨z, hz, e.trans (hvi z hz).symm⟩⟩
  unfold Problem.IsHinge
  exact Iff.of_eq (congrArg (fun t => IsGreatest t h) hset)

/-! ### cases that meet the hypotheses -/

/-- two states and one feature: the weights of the two directions. -/
example : (List.range 10).map (tiedWeights ⟨2, 1, false⟩ fun k => k) = [0, 1, 2, 3, 3, 4, 2, 3, 3, 4] := by decide +kernel

example : GridFits 1 gridImage := by unfold GridFits; decide

example (w : W) : ∃ v v',
    gridInference (Dispatch.backend idealPackages (.name "lp") true) 4 gridCrf gridImage w = .ok v ∧
    directionalInference (Dispatch.backend idealPackages (.name "lp") true) 4 (directionalModel 2 1 4) gridImage (tiedWeights gridCrf w) =
      .ok v' := by
  have hr := idealPackages_relaxes 2 (by decide)
  obtain ⟨v, v', e1, e2, -⟩ := C177_inference gridCrf (by decide) (O := relaxedOutputs 2) (fun _ _ _ h => h)
    (relaxes_solves one_le_two hr) (relaxes_solves_edges one_le_two hr) gridImage (by unfold GridFits; decide)
    (fun E => ⟨.discrete ⟨6, fun _ => 0⟩, .inl ⟨_, rfl, rfl, fun _ _ => Nat.two_pos⟩⟩) w
  exact ⟨v, v', e1, e2⟩

end Verif.Props
