import Verif.Model.GridCalls
import Verif.Lemmas.EdgeFeature
import Verif.Props.C31

/-!
# C149: images with the wrong number of features per pixel
-/

namespace Verif.Props

open Finset Verif.Common Verif.GraphCRF Verif.EdgeFeature Verif.LatentGrid

/-- An inference method that, when it returns, returns one label, or one marginal per state, for every row of the unary
potentials. -/
def OnePerRow (inf : Infer) : Prop :=
  ∀ U P E y, inf U P E = .ok y → match y with
    | .discrete l => l.size = U.rows
    | .relaxed u _ => u.size = U.rows * U.cols

/-- What `_get_features` makes of an image: nothing, or an array with `n_features` columns that holds all entries. -/
theorem gridFeatures_cases (F : ℕ) (t : Ten) :
    gridFeatures F t = .error .valueError ∨
      ∃ A, gridFeatures F t = .ok A ∧ A.cols = F ∧ A.rows * F = t.d0 * t.d1 * t.d2 := by
  unfold gridFeatures
  by_cases h0 : F = 0
  · left; rw [if_pos h0]
  by_cases h1 : (t.d0 * t.d1 * t.d2) % F ≠ 0
  · left; rw [if_neg h0, if_pos h1]
  right
  have h2 : t.d0 * t.d1 * t.d2 / F * F = t.d0 * t.d1 * t.d2 := Nat.div_mul_cancel (Nat.dvd_of_mod_eq_zero (not_not.mp h1))
  rw [if_neg h0, if_neg h1]
  unfold Vec.reshape2
  rw [if_pos (by unfold Ten.ravel; exact h2.symm)]
  exact ⟨_, rfl, rfl, h2⟩

theorem gridX_cases {nb : ℕ} (hnb : nb = 4 ∨ nb = 8) (F : ℕ) (t : Ten) :
    gridX nb F t = .error .valueError ∨
      ∃ x, gridX nb F t = .ok x ∧ x.features.cols = F ∧ x.features.rows * F = t.d0 * t.d1 * t.d2 := by
  obtain ⟨E, hE, -⟩ := C31_grid_edges t.d0 t.d1 nb hnb
  unfold gridX
  rcases gridFeatures_cases F t with h | ⟨A, h, hc, hr⟩
  · left; rw [h]; rfl
  · right; rw [h, hE]; exact ⟨_, rfl, hc, hr⟩

theorem directionalX_cases {nb : ℕ} (hnb : nb = 4 ∨ nb = 8) (F : ℕ) (t : Ten) :
    directionalX nb F t = .error .valueError ∨
      ∃ x, directionalX nb F t = .ok x ∧ x.features.cols = F ∧ x.features.rows * F = t.d0 * t.d1 * t.d2 := by
  obtain ⟨E, hE, -⟩ := C31_grid_edges t.d0 t.d1 nb hnb
  have hL : ∃ l, Grid.gridEdgeLists t.d0 t.d1 nb = .ok l := by
    unfold Grid.gridEdges at hE
    cases h : Grid.gridEdgeLists t.d0 t.d1 nb with
    | error e => rw [h] at hE; cases hE
    | ok l => exact ⟨l, rfl⟩
  obtain ⟨l, hl⟩ := hL
  unfold directionalX
  rcases gridFeatures_cases F t with h | ⟨A, h, hc, hr⟩
  · left; rw [h]; rfl
  · right; rw [h, hE, hl]; exact ⟨_, rfl, hc, hr⟩

/-- the number of rows tells the number of features. -/
theorem rows_ne {F hw f r : ℕ} (hpos : 0 < hw) (hf : f ≠ F) (h : r * F = hw * f) : r ≠ hw := by
  rintro rfl
  exact hf (Nat.eq_of_mul_eq_mul_left hpos h.symm)

theorem rows_gt {F hw f r : ℕ} (hpos : 0 < hw) (hf : F < f) (h : r * F = hw * f) : hw < r := by
  by_contra hn
  have h1 : r * F ≤ hw * F := Nat.mul_le_mul_right F (not_lt.mp hn)
  have h2 : hw * F < hw * f := Nat.mul_lt_mul_of_pos_left hf hpos
  omega

theorem oneHot_short {n S : ℕ} {y : Labels} (h : y.size ≠ n) : oneHot n S y = .error .valueError := if_pos h

/-- **C149**, `GridCRF.joint_feature`: an image whose pixels have the wrong number of features is refused, although the reshaping
that precedes the check may give an array with the right number of columns. -/
theorem C149_joint_feature (nb : ℕ) (hnb : nb = 4 ∨ nb = 8) (m : GraphCRF.Model) (t : Ten) (hpos : 0 < t.d0 * t.d1)
    (hf : t.d2 ≠ m.nFeatures) (y : Grid.NMat) (hy : y.rows * y.cols = t.d0 * t.d1) :
    GridCalls.jointFeature nb m t y = .error .valueError := by
  unfold GridCalls.jointFeature
  rcases gridX_cases hnb m.nFeatures t with h | ⟨x, h, hc, hr⟩
  · rw [h]; rfl
  have h1 : oneHot x.features.rows m.nStates (flat y) = .error .valueError :=
    oneHot_short (by
      show y.rows * y.cols ≠ _
      rw [hy]; exact (rows_ne hpos hf hr).symm)
  rw [h]
  simp only [bind, Except.bind]
  unfold GraphCRF.jointFeature GraphCRF.marginals
  simp only [GraphCRF.checkSizeX_ok hc, h1, bind, Except.bind]

/-- **C149**, `DirectionalGridCRF.joint_feature`. -/
theorem C149_directional_joint_feature (nb : ℕ) (hnb : nb = 4 ∨ nb = 8) (m : EdgeFeature.Model) (t : Ten)
    (hpos : 0 < t.d0 * t.d1) (hf : t.d2 ≠ m.nFeatures) (y : Grid.NMat) (hy : y.rows * y.cols = t.d0 * t.d1) :
    GridCalls.directionalJointFeature nb m t y = .error .valueError := by
  unfold GridCalls.directionalJointFeature
  rcases directionalX_cases hnb m.nFeatures t with h | ⟨x, h, hc, hr⟩
  · rw [h]; rfl
  have h1 : oneHot x.features.rows m.nStates (flat y) = .error .valueError :=
    oneHot_short (by
      show y.rows * y.cols ≠ _
      rw [hy]; exact (rows_ne hpos hf hr).symm)
  rw [h]
  simp only [bind, Except.bind]
  unfold EdgeFeature.jointFeature EdgeFeature.marginals
  simp only [EdgeFeature.checkFeatures_ok hc, h1, bind, Except.bind]

/-- the result of an inference method on the wrong number of rows does not fit the image. -/
theorem reshapeY_wrong {inf : Infer} (hone : OnePerRow inf) {S r h w : ℕ} (hS : 1 ≤ S) (hr : r ≠ h * w) {U : Mat}
    (hU : U.rows = r) (hUc : U.cols = S) {P : Pairwise} {E : Edges} {y : YVal} (hy : inf U P E = .ok y) :
    reshapeY S h w y = .error .valueError := by
  have := hone U P E y hy
  cases y with
  | discrete l =>
    simp only at this
    unfold reshapeY toImage
    simp only [this, hU]
    rw [if_pos hr]
  | relaxed u p =>
    simp only at this
    unfold reshapeY
    simp only [this, hU, hUc]
    rw [if_pos]
    intro he
    exact hr (Nat.eq_of_mul_eq_mul_right hS he)

/-- **C149**, `GridCRF.inference`: with an inference method that returns one label, or `n_states` marginals, per row, an image whose
pixels have the wrong number of features is refused, at the latest when the result is brought into the shape of the image. -/
theorem C149_inference_partial (nb : ℕ) (hnb : nb = 4 ∨ nb = 8) (m : GraphCRF.Model) (hS : 1 ≤ m.nStates) (t : Ten)
    (hpos : 0 < t.d0 * t.d1) (hf : t.d2 ≠ m.nFeatures) (inf : Infer) (hone : OnePerRow inf) (w : Vec) :
    ∃ err, GridCalls.inference inf nb m t w = .error err := by
  unfold GridCalls.inference
  rcases gridX_cases hnb m.nFeatures t with h | ⟨x, h, hc, hr⟩
  · rw [h]; exact ⟨_, rfl⟩
  rw [h]
  simp only [bind, Except.bind]
  by_cases hw : w.size = GraphCRF.sizeJointFeature m
  · unfold GraphCRF.inference
    simp only [bind, Except.bind, GraphCRF.checkSizeW_ok hw, GraphCRF.unary_ok hc hw, GraphCRF.pairwise_ok hc hw]
    cases hy : inf ⟨x.features.rows, m.nStates, GraphCRF.UN m x.features w.get⟩
        (.mat ⟨m.nStates, m.nStates, GraphCRF.PW m w.get⟩) x.edges with
    | error e => exact ⟨e, rfl⟩
    | ok y => exact ⟨_, reshapeY_wrong hone hS (rows_ne hpos hf hr)
        (U := ⟨x.features.rows, m.nStates, GraphCRF.UN m x.features w.get⟩) rfl rfl hy⟩
  · unfold GraphCRF.inference GraphCRF.checkSizeW
    rw [if_pos hw]
    exact ⟨_, rfl⟩

/-- **C149**, violated by `GridCRF.loss_augmented_inference`: if the pixels have too many features and the entries of the image can be
divided into rows of `n_features`, compiled code reads beyond the end of the label array, whatever the inference method. -/
theorem C149_violated_loss_augmented (nb : ℕ) (hnb : nb = 4 ∨ nb = 8) (m : GraphCRF.Model) (t : Ten)
    (hpos : 0 < t.d0 * t.d1) (hF : 1 ≤ m.nFeatures) (hf : m.nFeatures < t.d2)
    (hdvd : m.nFeatures ∣ t.d0 * t.d1 * t.d2) (inf : Infer) (cw w : Vec)
    (hw : w.size = GraphCRF.sizeJointFeature m) (y : Grid.NMat) (hy : y.rows * y.cols = t.d0 * t.d1) :
    GridCalls.lossAugmentedInference inf cw nb m t y w = .error .undefinedRead := by
  unfold GridCalls.lossAugmentedInference
  obtain ⟨x, h, hc, hr⟩ : ∃ x, gridX nb m.nFeatures t = .ok x ∧ x.features.cols = m.nFeatures ∧
      x.features.rows * m.nFeatures = t.d0 * t.d1 * t.d2 := by
    rcases gridX_cases hnb m.nFeatures t with h | h
    · exfalso
      obtain ⟨E, hE, -⟩ := C31_grid_edges t.d0 t.d1 nb hnb
      have hA : ∃ A, gridFeatures m.nFeatures t = .ok A := by
        unfold gridFeatures Vec.reshape2
        rw [if_neg (by omega), if_neg (not_not.mpr (Nat.mod_eq_zero_of_dvd hdvd)),
          if_pos (by unfold Ten.ravel; exact (Nat.div_mul_cancel hdvd).symm)]
        exact ⟨_, rfl⟩
      obtain ⟨A, hA⟩ := hA
      unfold gridX at h
      rw [hA, hE] at h
      cases h
    · exact h
  have hgt := rows_gt hpos hf hr
  rw [h]
  simp only [bind, Except.bind]
  have hla : Loss.lossAugmentUnaries ⟨x.features.rows, m.nStates, GraphCRF.UN m x.features w.get⟩ (flat y) cw =
      .error .undefinedRead := if_pos (by
    show y.rows * y.cols < x.features.rows
    omega)
  unfold GraphCRF.lossAugmentedInference
  simp only [bind, Except.bind, GraphCRF.checkSizeW_ok hw, GraphCRF.unary_ok hc hw, GraphCRF.pairwise_ok hc hw, hla]

/-- **C149**, `GridCRF.loss_augmented_inference` with too few features per pixel: refused, at the latest when the result is brought
into the shape of the image. -/
theorem C149_loss_augmented_partial (nb : ℕ) (hnb : nb = 4 ∨ nb = 8) (m : GraphCRF.Model) (hS : 1 ≤ m.nStates) (t : Ten)
    (hpos : 0 < t.d0 * t.d1) (hf : t.d2 ≠ m.nFeatures) (inf : Infer) (hone : OnePerRow inf) (cw w : Vec) (y : Grid.NMat) :
    ∃ err, GridCalls.lossAugmentedInference inf cw nb m t y w = .error err := by
  unfold GridCalls.lossAugmentedInference
  rcases gridX_cases hnb m.nFeatures t with h | ⟨x, h, hc, hr⟩
  · rw [h]; exact ⟨_, rfl⟩
  rw [h]
  simp only [bind, Except.bind]
  by_cases hw : w.size = GraphCRF.sizeJointFeature m
  · unfold GraphCRF.lossAugmentedInference
    simp only [bind, Except.bind, GraphCRF.checkSizeW_ok hw, GraphCRF.unary_ok hc hw, GraphCRF.pairwise_ok hc hw]
    cases hA : Loss.lossAugmentUnaries ⟨x.features.rows, m.nStates, GraphCRF.UN m x.features w.get⟩ (flat y) cw with
    | error e => exact ⟨e, rfl⟩
    | ok A =>
      have hAr : A.rows = x.features.rows ∧ A.cols = m.nStates := by
        unfold Loss.lossAugmentUnaries at hA
        by_cases h1 : (flat y).size < x.features.rows
        · rw [if_pos h1] at hA; cases hA
        rw [if_neg h1] at hA
        by_cases h2 : ¬ ∀ i < x.features.rows, (flat y).get i < cw.size
        · rw [if_pos h2] at hA; cases hA
        rw [if_neg h2] at hA
        obtain rfl := Except.ok.inj hA
        exact ⟨rfl, rfl⟩
      simp only
      cases hy : inf A (.mat ⟨m.nStates, m.nStates, GraphCRF.PW m w.get⟩) x.edges with
      | error e => exact ⟨e, rfl⟩
      | ok z => exact ⟨_, reshapeY_wrong hone hS (rows_ne hpos hf hr) hAr.1 hAr.2 hy⟩
  · unfold GraphCRF.lossAugmentedInference GraphCRF.checkSizeW
    rw [if_pos hw]
    exact ⟨_, rfl⟩

/-- **C149**, violated: with too few features per pixel the inference method is called on fewer nodes than the edges have end points.
(A 1×2 image with one feature per pixel and a model with two features: one node, but an edge from node 0 to node 1.) -/
theorem C149_violated_edges :
    ∃ x, gridX 4 2 ⟨1, 2, 1, fun _ _ _ => 1⟩ = .ok x ∧ x.features.rows = 1 ∧ x.edges = [(0, 1)] ∧
      GraphCRF.checkSizeX ⟨2, 2, false⟩ x = .ok () :=
  ⟨_, rfl, rfl, rfl, rfl⟩

/-- **C149**, `GridCRF.inference` on images with the right number of features: the result of the inference method on the grid graph, in
the shape of the image. -/
theorem C149_right (nb : ℕ) (hnb : nb = 4 ∨ nb = 8) (m : GraphCRF.Model) (t : Ten) (hF : 1 ≤ m.nFeatures)
    (hf : t.d2 = m.nFeatures) (inf : Infer) (w : Vec) (hw : w.size = GraphCRF.sizeJointFeature m) (l : Labels)
    (hl : l.size = t.d0 * t.d1)
    (hinf : ∀ U P E, U.rows = t.d0 * t.d1 → (∀ e ∈ E, e.1 < t.d0 * t.d1 ∧ e.2 < t.d0 * t.d1) → inf U P E = .ok (.discrete l)) :
    GridCalls.inference inf nb m t w = .ok (.discrete ⟨t.d0, t.d1, fun r c => l.get (r * t.d1 + c)⟩) := by
  obtain ⟨E, hE, hin, -⟩ := C31_grid_edges t.d0 t.d1 nb hnb
  have hA : ∃ A, gridFeatures m.nFeatures t = .ok A ∧ A.rows = t.d0 * t.d1 ∧ A.cols = m.nFeatures := by
    unfold gridFeatures Vec.reshape2
    rw [hf, if_neg (by omega), if_neg (by simp), if_pos (by unfold Ten.ravel; rw [hf, Nat.mul_div_cancel _ (by omega)]),
      Nat.mul_div_cancel _ (by omega)]
    exact ⟨_, rfl, rfl, rfl⟩
  obtain ⟨A, hA, hAr, hAc⟩ := hA
  have hx : gridX nb m.nFeatures t = .ok ⟨A, E⟩ := by
    unfold gridX
    rw [hA, hE]
    rfl
  unfold GridCalls.inference
  rw [hx]
  simp only [bind, Except.bind]
  unfold GraphCRF.inference
  simp only [bind, Except.bind, GraphCRF.checkSizeW_ok hw, GraphCRF.unary_ok (x := ⟨A, E⟩) hAc hw,
    GraphCRF.pairwise_ok (x := ⟨A, E⟩) hAc hw]
  rw [hinf ⟨A.rows, m.nStates, GraphCRF.UN m A w.get⟩ _ _ hAr hin]
  unfold reshapeY toImage
  simp only
  rw [if_neg (not_not.mpr hl)]

/-! ### non-vacuity -/

/-- an inference method that gives every node the label 0. -/
def zeroLabels : Infer := fun U _ _ => .ok (.discrete ⟨U.rows, fun _ => 0⟩)

example : OnePerRow zeroLabels := by
  intro U P E y h
  obtain rfl := Except.ok.inj h
  rfl

example : ∃ err, GridCalls.inference zeroLabels 4 ⟨2, 1, false⟩ ⟨1, 2, 2, fun _ _ _ => 1⟩ ⟨5, fun _ => 1⟩ = .error err :=
  C149_inference_partial 4 (Or.inl rfl) ⟨2, 1, false⟩ (by decide) _ (by decide) (by decide) _
    (by intro U P E y h; obtain rfl := Except.ok.inj h; rfl) _

example : GridCalls.lossAugmentedInference zeroLabels ⟨2, fun _ => 1⟩ 4 ⟨2, 1, false⟩ ⟨1, 2, 2, fun _ _ _ => 1⟩
    ⟨1, 2, fun _ c => c⟩ ⟨5, fun _ => 1⟩ = .error .undefinedRead :=
  C149_violated_loss_augmented 4 (Or.inl rfl) ⟨2, 1, false⟩ _ (by decide) (by decide) (by decide) (by decide) _ _ _ rfl _ rfl

example : GridCalls.jointFeature 4 ⟨2, 1, false⟩ ⟨1, 2, 2, fun _ _ _ => 1⟩ ⟨1, 2, fun _ c => c⟩ = .error .valueError :=
  C149_joint_feature 4 (Or.inl rfl) ⟨2, 1, false⟩ _ (by decide) (by decide) _ rfl

end Verif.Props
