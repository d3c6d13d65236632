import Verif.Props.C149
import Verif.Props.C133

/-!
# C149 for `DirectionalGridCRF`; loss-augmented inference on images; what is clustered in C133
-/

namespace Verif.Props

open Finset Verif.Common Verif.GraphCRF Verif.EdgeFeature Verif.LatentGrid

/-- **C149**, `DirectionalGridCRF.inference`: with an inference method that returns one label, or `n_states` marginals, per row, an image
whose pixels have the wrong number of features is refused. -/
theorem C149_directional_inference_partial (nb : ℕ) (hnb : nb = 4 ∨ nb = 8) (m : EdgeFeature.Model) (hS : 1 ≤ m.nStates) (t : Ten)
    (hpos : 0 < t.d0 * t.d1) (hf : t.d2 ≠ m.nFeatures) (inf : Infer) (hone : OnePerRow inf) (w : Vec) :
    ∃ err, GridCalls.directionalInference inf nb m t w = .error err := by
  unfold GridCalls.directionalInference
  rcases directionalX_cases hnb m.nFeatures t with h | ⟨x, h, hc, hr⟩
  · rw [h]; exact ⟨_, rfl⟩
  rw [h]
  simp only [bind, Except.bind]
  unfold EdgeFeature.inference
  by_cases hw : w.size = EdgeFeature.sizeJointFeature m
  · simp only [bind, Except.bind, GraphCRF.checkSizeW_ok hw, EdgeFeature.unary_ok (EdgeFeature.checkFeatures_ok hc) hc hw]
    cases EdgeFeature.pairwisePotentials checkFeatures m x w with
    | error e => exact ⟨e, rfl⟩
    | ok P =>
      simp only
      cases hy : inf ⟨x.features.rows, m.nStates, EdgeFeature.EU m x.features w.get⟩ (.ten P) x.edges with
      | error e => exact ⟨e, rfl⟩
      | ok y => exact ⟨_, reshapeY_wrong hone hS (rows_ne hpos hf hr)
          (U := ⟨x.features.rows, m.nStates, EdgeFeature.EU m x.features w.get⟩) rfl rfl hy⟩
  · unfold GraphCRF.checkSizeW
    rw [if_pos hw]
    exact ⟨_, rfl⟩

theorem lossAugment_shape {U A : Mat} {y : Labels} {cw : Vec} (h : Loss.lossAugmentUnaries U y cw = .ok A) :
    A.rows = U.rows ∧ A.cols = U.cols := by
  unfold Loss.lossAugmentUnaries at h
  split_ifs at h
  obtain rfl := Except.ok.inj h
  exact ⟨rfl, rfl⟩

/-- **C149**, `DirectionalGridCRF.loss_augmented_inference` on an image whose pixels have the wrong number of features: refused, or
memory beyond the label array is read. -/
theorem C149_directional_loss_augmented_partial (nb : ℕ) (hnb : nb = 4 ∨ nb = 8) (m : EdgeFeature.Model) (hS : 1 ≤ m.nStates) (t : Ten)
    (hpos : 0 < t.d0 * t.d1) (hf : t.d2 ≠ m.nFeatures) (inf : Infer) (hone : OnePerRow inf) (cw w : Vec) (y : Grid.NMat) :
    ∃ err, GridCalls.directionalLossAugmentedInference inf cw nb m t y w = .error err := by
  unfold GridCalls.directionalLossAugmentedInference
  rcases directionalX_cases hnb m.nFeatures t with h | ⟨x, h, hc, hr⟩
  · rw [h]; exact ⟨_, rfl⟩
  rw [h]
  simp only [bind, Except.bind]
  unfold EdgeFeature.lossAugmentedInference
  by_cases hw : w.size = EdgeFeature.sizeJointFeature m
  · simp only [bind, Except.bind, GraphCRF.checkSizeW_ok hw, EdgeFeature.unary_ok (EdgeFeature.checkFeatures_ok hc) hc hw]
    cases EdgeFeature.pairwisePotentials checkFeatures m x w with
    | error e => exact ⟨e, rfl⟩
    | ok P =>
      simp only
      cases hA : Loss.lossAugmentUnaries ⟨x.features.rows, m.nStates, EdgeFeature.EU m x.features w.get⟩ (flat y) cw with
      | error e => exact ⟨e, rfl⟩
      | ok A =>
        simp only
        cases hy : inf A (.ten P) x.edges with
        | error e => exact ⟨e, rfl⟩
        | ok z => exact ⟨_, reshapeY_wrong hone hS (rows_ne hpos hf hr) (lossAugment_shape hA).1 (lossAugment_shape hA).2 hy⟩
  · unfold GraphCRF.checkSizeW
    rw [if_pos hw]
    exact ⟨_, rfl⟩

/-- **C149**, violated by `DirectionalGridCRF.loss_augmented_inference`: if the pixels have too many features and the entries of the
image can be divided into rows of `n_features`, compiled code reads beyond the end of the label array. -/
theorem C149_violated_directional_loss_augmented (nb : ℕ) (hnb : nb = 4 ∨ nb = 8) (m : EdgeFeature.Model) (hK : m.nEdgeFeatures = 2)
    (t : Ten) (hpos : 0 < t.d0 * t.d1) (hF : 1 ≤ m.nFeatures) (hf : m.nFeatures < t.d2)
    (hdvd : m.nFeatures ∣ t.d0 * t.d1 * t.d2) (inf : Infer) (cw w : Vec)
    (hw : w.size = EdgeFeature.sizeJointFeature m) (y : Grid.NMat) (hy : y.rows * y.cols = t.d0 * t.d1) :
    GridCalls.directionalLossAugmentedInference inf cw nb m t y w = .error .undefinedRead := by
  unfold GridCalls.directionalLossAugmentedInference
  obtain ⟨E, hE, -⟩ := C31_grid_edges t.d0 t.d1 nb hnb
  obtain ⟨l, hl⟩ : ∃ l, Grid.gridEdgeLists t.d0 t.d1 nb = .ok l := by
    unfold Grid.gridEdges at hE
    cases h : Grid.gridEdgeLists t.d0 t.d1 nb with
    | error e => rw [h] at hE; cases hE
    | ok l => exact ⟨l, rfl⟩
  obtain ⟨A, hA, hAc, hAr⟩ : ∃ A, gridFeatures m.nFeatures t = .ok A ∧ A.cols = m.nFeatures ∧
      A.rows * m.nFeatures = t.d0 * t.d1 * t.d2 := by
    rcases gridFeatures_cases m.nFeatures t with h | h
    · exfalso
      unfold gridFeatures Vec.reshape2 at h
      rw [if_neg (by omega), if_neg (not_not.mpr (Nat.mod_eq_zero_of_dvd hdvd)),
        if_pos (by unfold Ten.ravel; exact (Nat.div_mul_cancel hdvd).symm)] at h
      cases h
    · exact h
  have hx : directionalX nb m.nFeatures t = .ok ⟨A, E, Grid.edgeListToFeatures l⟩ := by
    unfold directionalX
    rw [hA, hE, hl]
    rfl
  have hgt := rows_gt hpos hf hAr
  obtain ⟨P, hP, -⟩ := EdgeFeature.pairwise_ok (x := ⟨A, E, Grid.edgeListToFeatures l⟩) (EdgeFeature.checkFeatures_ok hAc)
    (show 2 = _ from hK.symm) (by omega) hw
  have hla : Loss.lossAugmentUnaries ⟨A.rows, m.nStates, EdgeFeature.EU m A w.get⟩ (flat y) cw =
      .error .undefinedRead := if_pos (by
    show y.rows * y.cols < A.rows
    omega)
  rw [hx]
  simp only [bind, Except.bind]
  unfold EdgeFeature.lossAugmentedInference
  simp only [bind, Except.bind, GraphCRF.checkSizeW_ok hw,
    EdgeFeature.unary_ok (x := ⟨A, E, Grid.edgeListToFeatures l⟩) (EdgeFeature.checkFeatures_ok hAc) hAc hw, hP, hla]

/-- **C149**, `DirectionalGridCRF.inference` on images with the right number of features: the labels, or marginals, that the inference
method returns for the grid graph, in the shape of the image. -/
theorem C149_directional_right (nb : ℕ) (hnb : nb = 4 ∨ nb = 8) (m : EdgeFeature.Model) (hK : m.nEdgeFeatures = 2) (t : Ten)
    (hF : 1 ≤ m.nFeatures) (hf : t.d2 = m.nFeatures) (inf : Infer) (w : Vec) (hw : w.size = EdgeFeature.sizeJointFeature m)
    (v : YVal) (hinf : ∀ U P E, U.rows = t.d0 * t.d1 → (∀ e ∈ E, e.1 < t.d0 * t.d1 ∧ e.2 < t.d0 * t.d1) → inf U P E = .ok v) :
    (∀ l, v = .discrete l → l.size = t.d0 * t.d1 →
      GridCalls.directionalInference inf nb m t w = .ok (.discrete ⟨t.d0, t.d1, fun r c => l.get (r * t.d1 + c)⟩)) ∧
    ∀ u p, v = .relaxed u p → u.size = t.d0 * t.d1 * m.nStates →
      GridCalls.directionalInference inf nb m t w =
        .ok (.relaxed ⟨t.d0, t.d1, m.nStates, fun r c s => u.get ((r * t.d1 + c) * m.nStates + s)⟩ p) := by
  obtain ⟨E, hE, hin, -⟩ := C31_grid_edges t.d0 t.d1 nb hnb
  obtain ⟨l, hl⟩ : ∃ l, Grid.gridEdgeLists t.d0 t.d1 nb = .ok l := by
    unfold Grid.gridEdges at hE
    cases h : Grid.gridEdgeLists t.d0 t.d1 nb with
    | error e => rw [h] at hE; cases hE
    | ok l => exact ⟨l, rfl⟩
  obtain ⟨A, hA, hAr, hAc⟩ : ∃ A, gridFeatures m.nFeatures t = .ok A ∧ A.rows = t.d0 * t.d1 ∧ A.cols = m.nFeatures := by
    unfold gridFeatures Vec.reshape2
    rw [hf, if_neg (by omega), if_neg (by simp), if_pos (by unfold Ten.ravel; rw [hf, Nat.mul_div_cancel _ (by omega)]),
      Nat.mul_div_cancel _ (by omega)]
    exact ⟨_, rfl, rfl, rfl⟩
  have hx : directionalX nb m.nFeatures t = .ok ⟨A, E, Grid.edgeListToFeatures l⟩ := by
    unfold directionalX
    rw [hA, hE, hl]
    rfl
  obtain ⟨P, hP, -⟩ := EdgeFeature.pairwise_ok (x := ⟨A, E, Grid.edgeListToFeatures l⟩) (EdgeFeature.checkFeatures_ok hAc)
    (show 2 = _ from hK.symm) (by omega) hw
  have key : GridCalls.directionalInference inf nb m t w = reshapeY m.nStates t.d0 t.d1 v := by
    unfold GridCalls.directionalInference
    rw [hx]
    simp only [bind, Except.bind]
    unfold EdgeFeature.inference
    simp only [bind, Except.bind, GraphCRF.checkSizeW_ok hw,
      EdgeFeature.unary_ok (x := ⟨A, E, Grid.edgeListToFeatures l⟩) (EdgeFeature.checkFeatures_ok hAc) hAc hw, hP]
    rw [hinf ⟨A.rows, m.nStates, EdgeFeature.EU m A w.get⟩ _ _ hAr hin]
  rw [key]
  constructor
  · rintro l rfl hl
    unfold reshapeY toImage
    simp only
    rw [if_neg (not_not.mpr hl)]
  · rintro u p rfl hu
    unfold reshapeY
    simp only
    rw [if_neg (not_not.mpr hu)]

/-- The inference method that first adds, to the unary potential of every state but the true one, the class weight of the true
label. -/
def withLosses (inf : Infer) (cw : Vec) (y : Labels) : Infer := fun U P E =>
  inf ⟨U.rows, U.cols, fun i s => U.get i s + if s = y.get i then 0 else cw.get (y.get i)⟩ P E

theorem lossAugment_withLosses {U : Mat} {y : Labels} {cw : Vec} (h1 : U.rows ≤ y.size) (h2 : ∀ i < y.size, y.get i < cw.size) :
    Loss.lossAugmentUnaries U y cw = .ok ⟨U.rows, U.cols, fun i s => U.get i s + if s = y.get i then 0 else cw.get (y.get i)⟩ := by
  unfold Loss.lossAugmentUnaries
  rw [if_neg (by omega), if_neg (not_not.mpr fun i hi => h2 i (by omega))]
  congr 2
  funext i s
  split_ifs <;> simp

/-- **C149**, loss-augmented inference on images with the right number of features, for `GridCRF` and `DirectionalGridCRF`: it is
inference with the class weights of the true labels added to the potentials of all other states. -/
theorem C149_loss_augmented_right (nb : ℕ) (hnb : nb = 4 ∨ nb = 8) (S F : ℕ) (hF : 1 ≤ F) (t : Ten) (hf : t.d2 = F) (inf : Infer)
    (cw w : Vec) (y : Grid.NMat) (hy : y.rows = t.d0 ∧ y.cols = t.d1) (hv : ∀ r < t.d0, ∀ c < t.d1, y.get r c < cw.size) :
    (∀ m : GraphCRF.Model, m.nStates = S → m.nFeatures = F → GridCalls.lossAugmentedInference inf cw nb m t y w =
      GridCalls.inference (withLosses inf cw ⟨t.d0 * t.d1, fun i => y.get (i / t.d1) (i % t.d1)⟩) nb m t w) ∧
    ∀ m : EdgeFeature.Model, m.nStates = S → m.nFeatures = F → GridCalls.directionalLossAugmentedInference inf cw nb m t y w =
      GridCalls.directionalInference (withLosses inf cw ⟨t.d0 * t.d1, fun i => y.get (i / t.d1) (i % t.d1)⟩) nb m t w := by
  obtain ⟨E, hE, -⟩ := C31_grid_edges t.d0 t.d1 nb hnb
  obtain ⟨l, hl⟩ : ∃ l, Grid.gridEdgeLists t.d0 t.d1 nb = .ok l := by
    unfold Grid.gridEdges at hE
    cases h : Grid.gridEdgeLists t.d0 t.d1 nb with
    | error e => rw [h] at hE; cases hE
    | ok l => exact ⟨l, rfl⟩
  obtain ⟨A, hA, hAr, hAc⟩ : ∃ A, gridFeatures F t = .ok A ∧ A.rows = t.d0 * t.d1 ∧ A.cols = F := by
    unfold gridFeatures Vec.reshape2
    rw [hf, if_neg (by omega), if_neg (by simp), if_pos (by unfold Ten.ravel; rw [hf, Nat.mul_div_cancel _ (by omega)]),
      Nat.mul_div_cancel _ (by omega)]
    exact ⟨_, rfl, rfl, rfl⟩
  have hflat : flat y = ⟨t.d0 * t.d1, fun i => y.get (i / t.d1) (i % t.d1)⟩ := by
    unfold flat
    rw [hy.1, hy.2]
  have hval : ∀ i < t.d0 * t.d1, y.get (i / t.d1) (i % t.d1) < cw.size := by
    intro i hi
    have h1 : 0 < t.d1 := Nat.pos_of_ne_zero fun h => by rw [h, mul_zero] at hi; omega
    exact hv _ (Nat.div_lt_of_lt_mul (by rw [mul_comm]; exact hi)) _ (Nat.mod_lt _ h1)
  constructor
  · rintro m rfl rfl
    have hx : gridX nb m.nFeatures t = .ok ⟨A, E⟩ := by
      unfold gridX
      rw [hA, hE]
      rfl
    unfold GridCalls.lossAugmentedInference GridCalls.inference
    rw [hx, hflat]
    simp only [bind, Except.bind]
    unfold GraphCRF.lossAugmentedInference GraphCRF.inference
    by_cases hw : w.size = GraphCRF.sizeJointFeature m
    · simp only [bind, Except.bind, GraphCRF.checkSizeW_ok hw, GraphCRF.unary_ok (x := ⟨A, E⟩) hAc hw,
        GraphCRF.pairwise_ok (x := ⟨A, E⟩) hAc hw]
      rw [lossAugment_withLosses (U := ⟨A.rows, m.nStates, GraphCRF.UN m A w.get⟩)
        (y := ⟨t.d0 * t.d1, fun i => y.get (i / t.d1) (i % t.d1)⟩) (le_of_eq hAr) hval]
      rfl
    · unfold GraphCRF.checkSizeW
      rw [if_pos hw]
      rfl
  · rintro m rfl rfl
    have hx : directionalX nb m.nFeatures t = .ok ⟨A, E, Grid.edgeListToFeatures l⟩ := by
      unfold directionalX
      rw [hA, hE, hl]
      rfl
    unfold GridCalls.directionalLossAugmentedInference GridCalls.directionalInference
    rw [hx, hflat]
    simp only [bind, Except.bind]
    unfold EdgeFeature.lossAugmentedInference EdgeFeature.inference
    by_cases hw : w.size = EdgeFeature.sizeJointFeature m
    · simp only [bind, Except.bind, GraphCRF.checkSizeW_ok hw,
        EdgeFeature.unary_ok (x := ⟨A, E, Grid.edgeListToFeatures l⟩) (EdgeFeature.checkFeatures_ok hAc) hAc hw]
      cases EdgeFeature.pairwisePotentials checkFeatures m ⟨A, E, Grid.edgeListToFeatures l⟩ w with
      | error e => rfl
      | ok P =>
        simp only
        rw [lossAugment_withLosses (U := ⟨A.rows, m.nStates, EdgeFeature.EU m A w.get⟩)
          (y := ⟨t.d0 * t.d1, fun i => y.get (i / t.d1) (i % t.d1)⟩) (le_of_eq hAr) hval]
        rfl
    · unfold GraphCRF.checkSizeW
      rw [if_pos hw]
      rfl

/-- **C133**, what is clustered: the features of all hidden nodes, those of the first sample first. -/
theorem C133_stacked (L : ℕ) (A B : List Mat) (F : Mat) :
    (LatentNode.stack L (A ++ F :: B)).rows = ((A ++ F :: B).map Mat.rows).sum ∧ (LatentNode.stack L (A ++ F :: B)).cols = L ∧
    ∀ i < F.rows, ∀ l, (LatentNode.stack L (A ++ F :: B)).get ((A.map Mat.rows).sum + i) l = F.get i l := by
  have hlen : ∀ M : List Mat, (M.flatMap fun F => (List.range F.rows).map F.get).length = (M.map Mat.rows).sum := by
    intro M
    induction M with
    | nil => rfl
    | cons F M ih => simp only [List.flatMap_cons, List.length_append, List.length_map, List.length_range, List.map_cons,
        List.sum_cons, ih]
  refine ⟨hlen _, rfl, fun i hi l => ?_⟩
  unfold LatentNode.stack
  simp only
  rw [List.flatMap_append, List.flatMap_cons, List.getD_append_right _ _ _ _ (by rw [hlen]; omega), hlen, Nat.add_sub_cancel_left,
    List.getD_append _ _ _ _ (by simpa using hi), List.getD_eq_getElem _ _ (by simpa using hi)]
  simp

/-! ### non-vacuity -/

example : ∃ err, GridCalls.directionalInference zeroLabels 4 ⟨2, 1, 2, [], []⟩ ⟨1, 2, 2, fun _ _ _ => 1⟩ ⟨10, fun _ => 1⟩ = .error err :=
  C149_directional_inference_partial 4 (Or.inl rfl) ⟨2, 1, 2, [], []⟩ (by decide) _ (by decide) (by decide) _
    (by intro U P E y h; obtain rfl := Except.ok.inj h; rfl) _

example : GridCalls.directionalLossAugmentedInference zeroLabels ⟨2, fun _ => 1⟩ 4 ⟨2, 1, 2, [], []⟩ ⟨1, 2, 2, fun _ _ _ => 1⟩
    ⟨1, 2, fun _ c => c⟩ ⟨10, fun _ => 1⟩ = .error .undefinedRead :=
  C149_violated_directional_loss_augmented 4 (Or.inl rfl) ⟨2, 1, 2, [], []⟩ rfl _ (by decide) (by decide) (by decide) (by decide) _ _ _
    rfl _ rfl

/-- a 2×3 image; the method labels node `i` with `i`. -/
example : GridCalls.directionalInference (fun U _ _ => .ok (.discrete ⟨U.rows, fun i => i⟩)) 4 ⟨6, 1, 2, [], []⟩ ⟨2, 3, 1, fun _ _ _ => 1⟩
    ⟨78, fun _ => 1⟩ = .ok (.discrete ⟨2, 3, fun r c => r * 3 + c⟩) :=
  (C149_directional_right 4 (Or.inl rfl) ⟨6, 1, 2, [], []⟩ rfl ⟨2, 3, 1, fun _ _ _ => 1⟩ (by decide) rfl _ ⟨78, fun _ => 1⟩ rfl
    (.discrete ⟨6, fun i => i⟩) (by intro U P E hU _; rw [hU]; rfl)).1 _ rfl rfl

/-- class weights 1 and 5: the potentials the method gets differ from those of inference. -/
example := (C149_loss_augmented_right 4 (Or.inl rfl) 2 1 le_rfl ⟨1, 2, 1, fun _ _ _ => 1⟩ rfl zeroLabels
  ⟨2, fun c => if c = 0 then 1 else 5⟩ ⟨10, fun _ => 1⟩ ⟨1, 2, fun _ c => c⟩ ⟨rfl, rfl⟩ (by decide)).2 ⟨2, 1, 2, [], []⟩ rfl rfl

example : (LatentNode.stack 1 [⟨1, 1, fun _ _ => 7⟩, ⟨2, 1, fun i _ => i⟩]).get 2 0 = 1 :=
  ((C133_stacked 1 [⟨1, 1, fun _ _ => 7⟩] [] ⟨2, 1, fun i _ => i⟩).2.2 1 (by decide) 0).trans (by norm_num)

end Verif.Props
