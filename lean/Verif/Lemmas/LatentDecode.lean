import Verif.Lemmas.LatentTraining
import Verif.Model.LatentGrid

/-!
# Decoding latent states with given potentials
-/

namespace Verif.Props

open Finset Verif.Common Verif.Spec Verif.LatentGraph Verif.LatentGrid
open Verif.GraphCRF (Infer)

/-- Called with pairwise potentials `Pw`, the inference method finds a labelling of maximal score for the couplings `P`, whatever
the unary potentials. -/
def FindsBest (inf : Infer) (n S : ℕ) (edges : Edges) (Pw : Pairwise) (P : ℕ → ℕ → ℕ → ℚ) : Prop :=
  ∀ U : ℕ → ℕ → ℚ, ∃ h : Labels, inf ⟨n, S, U⟩ Pw edges = .ok (.discrete h) ∧ h.size = n ∧ Valid n S h.get ∧
    ∀ z, Valid n S z → Spec.score n edges U P z ≤ Spec.score n edges U P h.get

theorem augment_labels {m : LatentGraph.Model} {n : ℕ} {t : Labels} (ht : t.size = n) (htv : Valid n m.nStates t.get)
    (U : ℕ → ℕ → ℚ) : augment m ⟨n, m.nStates, U⟩ t = .ok ⟨n, m.nStates, fun i s =>
      if s < m.nStates ∧ labelOf m (t.get i) ≠ labelOf m s then U i s + 1 else U i s⟩ := by
  unfold augment
  rw [labelFromLatent_ok ht htv]
  simp only
  rw [if_neg (by omega)]
  congr 2
  funext i s
  exact augment_fold _ _ _ _ _ _

theorem augmented_score {m : LatentGraph.Model} {n : ℕ} (t : Labels) (edges : Edges) (U : ℕ → ℕ → ℚ) (P : ℕ → ℕ → ℕ → ℚ)
    {z : ℕ → ℕ} (hz : Valid n m.nStates z) :
    Spec.score n edges (fun i s => if s < m.nStates ∧ labelOf m (t.get i) ≠ labelOf m s then U i s + 1 else U i s) P z =
      Spec.score n edges U P z + ∑ i ∈ range n, if labelOf m (t.get i) = labelOf m (z i) then (0 : ℚ) else 1 := by
  unfold Spec.score
  rw [add_right_comm, ← sum_add_distrib]
  congr 1
  refine sum_congr rfl fun i hi => ?_
  have := hz i (mem_range.mp hi)
  by_cases hc : labelOf m (t.get i) = labelOf m (z i) <;> simp [this, hc]

/-- loss-augmented decoding. -/
theorem augmentedCall_best {inf : Infer} {m : LatentGraph.Model} {n : ℕ} {edges : Edges} {Pw : Pairwise}
    {P : ℕ → ℕ → ℕ → ℚ} (hinf : FindsBest inf n m.nStates edges Pw P) {t : Labels} (ht : t.size = n)
    (htv : Valid n m.nStates t.get) (U : ℕ → ℕ → ℚ) :
    ∃ g : Labels, augmentedCall inf m ⟨n, m.nStates, U⟩ Pw edges t = .ok (.discrete g) ∧ g.size = n ∧
      Valid n m.nStates g.get ∧ ∀ z, Valid n m.nStates z →
        Spec.score n edges U P z + (∑ i ∈ range n, if labelOf m (t.get i) = labelOf m (z i) then (0 : ℚ) else 1) ≤
        Spec.score n edges U P g.get + ∑ i ∈ range n, if labelOf m (t.get i) = labelOf m (g.get i) then (0 : ℚ) else 1 := by
  obtain ⟨g, h1, h2, h3, h4⟩ := hinf fun i s => if s < m.nStates ∧ labelOf m (t.get i) ≠ labelOf m s then U i s + 1 else U i s
  refine ⟨g, ?_, h2, h3, fun z hz => ?_⟩
  · unfold augmentedCall
    rw [augment_labels ht htv]
    exact h1
  · have := h4 z hz
    rw [augmented_score t edges U P hz, augmented_score t edges U P h3] at this
    exact this

/-- changing one vertex changes only the couplings at this vertex. -/
theorem score_switch_edges {n S : ℕ} {edges : Edges} (hE : EdgesIn n edges) (U : ℕ → ℕ → ℚ) (P : ℕ → ℕ → ℕ → ℚ) {ρ : ℚ}
    (hP : ∀ e < edges.length, ∀ a < S, ∀ b < S, |P e a b| ≤ ρ) {h : ℕ → ℕ} (hv : Valid n S h) {i s : ℕ} (hi : i < n) (hs : s < S) :
    Spec.score n edges U P h + U i s - U i (h i) - degree edges i * (2 * ρ) ≤ Spec.score n edges U P (setState h i s) := by
  have hv' : Valid n S (setState h i s) := by
    intro j hj
    unfold setState
    split
    · exact hs
    · exact hv j hj
  unfold Spec.score
  have hu : ∑ j ∈ range n, U j (setState h i s j) = ∑ j ∈ range n, U j (h j) + U i s - U i (h i) := by
    have h1 := Finset.add_sum_erase (range n) (fun j => U j (setState h i s j)) (mem_range.mpr hi)
    have h2 := Finset.add_sum_erase (range n) (fun j => U j (h j)) (mem_range.mpr hi)
    have h3 : ∑ j ∈ (range n).erase i, U j (setState h i s j) = ∑ j ∈ (range n).erase i, U j (h j) := by
      apply sum_congr rfl; intro j hj
      unfold setState
      rw [if_neg (Finset.ne_of_mem_erase hj)]
    have h4 : setState h i s i = s := by unfold setState; simp
    simp only [h4] at h1
    rw [← h1, ← h2, h3]; ring
  have hp : ∑ e ∈ range edges.length, P e (h (edges.getD e (0, 0)).1) (h (edges.getD e (0, 0)).2) -
      degree edges i * (2 * ρ) ≤ ∑ e ∈ range edges.length,
        P e (setState h i s (edges.getD e (0, 0)).1) (setState h i s (edges.getD e (0, 0)).2) := by
    have h5 : (degree edges i : ℚ) * (2 * ρ) = ∑ e ∈ range edges.length,
        if (edges.getD e (0, 0)).1 = i ∨ (edges.getD e (0, 0)).2 = i then 2 * ρ else 0 := by
      unfold degree
      rw [← sum_filter, sum_const, nsmul_eq_mul]
    rw [h5, ← sum_sub_distrib]
    apply sum_le_sum; intro e he
    have hr := hE _ (getD_mem (mem_range.mp he))
    have hPe := hP e (mem_range.mp he)
    generalize edges.getD e (0, 0) = q at hr ⊢
    by_cases hq : q.1 = i ∨ q.2 = i
    · rw [if_pos hq]
      have h6 := abs_le.mp (hPe _ (hv _ hr.1) _ (hv _ hr.2))
      have h7 := abs_le.mp (hPe _ (hv' _ hr.1) _ (hv' _ hr.2))
      linarith [h6.2, h7.1]
    · rw [if_neg hq]
      have h1 : setState h i s q.1 = h q.1 := by unfold setState; rw [if_neg fun e => hq (.inl e)]
      have h2 : setState h i s q.2 = h q.2 := by unfold setState; rw [if_neg fun e => hq (.inr e)]
      rw [h1, h2]
      linarith
  rw [hu]; linarith

/-- With small potentials, the decoding with forbidden states gives a best completion. -/
theorem maskedCall_best {inf : Infer} {m : LatentGraph.Model} (hpos : ∀ l < m.nLabels, 0 < m.nStatesPerLabel.getD l 0) {n : ℕ}
    (hn : 1 ≤ n) {edges : Edges} (hE : EdgesIn n edges) {Pw : Pairwise} {P : ℕ → ℕ → ℕ → ℚ}
    (hinf : FindsBest inf n m.nStates edges Pw P) {y : Labels} (hys : y.size = n) (hyl : ∀ i < n, y.get i < m.nLabels)
    {U : ℕ → ℕ → ℚ} {B : ℕ → ℚ} (hU : ∀ i < n, ∀ s < m.nStates, -B i ≤ U i s) {ρ : ℚ}
    (hP : ∀ e < edges.length, ∀ a < m.nStates, ∀ b < m.nStates, |P e a b| ≤ ρ)
    (hsmall : ∀ i < n, B i + 2 * ρ * degree edges i < 100) :
    ∃ h : Labels, maskedCall inf m ⟨n, m.nStates, U⟩ Pw edges y = .ok h ∧
      Completes m.nStatesPerLabel n y (.discrete h) ∧
      ∀ z : Labels, Completes m.nStatesPerLabel n y (.discrete z) → Spec.score n edges U P z.get ≤ Spec.score n edges U P h.get := by
  have hS : 1 ≤ m.nStates := by
    have := (first_state hpos (hyl 0 hn)).2.2
    omega
  set M := max (matMax ⟨n, m.nStates, U⟩) 1 with hM
  set Um : ℕ → ℕ → ℚ := fun i s => if labelOf m s ≠ y.get i then -100 * M else U i s with hUm
  have hmask : maskedUnaries m ⟨n, m.nStates, U⟩ y = .ok ⟨n, m.nStates, Um⟩ := by
    unfold maskedUnaries
    rw [if_neg (Nat.mul_pos hn hS).ne', if_neg (by rw [hys]; simp)]
    rfl
  obtain ⟨h, hi1, hs, hv, hbest⟩ := hinf Um
  have hlabs : ∀ i < n, labelOf m (h.get i) = y.get i := by
    intro i hi
    by_contra hne
    obtain ⟨-, o1, o2⟩ := first_state hpos (hyl i hi)
    have h1 := score_switch_edges hE Um P hP hv hi o2
    have h2 := hbest (setState h.get i (m.nStatesPerLabel.take (y.get i)).sum) (by
      intro j hj
      unfold setState
      split
      · exact o2
      · exact hv j hj)
    have h3 : Um i (m.nStatesPerLabel.take (y.get i)).sum = U i (m.nStatesPerLabel.take (y.get i)).sum := by
      rw [hUm]
      simp only
      rw [if_neg (not_not.mpr o1)]
    have h4 : Um i (h.get i) = -100 * M := by
      rw [hUm]
      simp only
      rw [if_pos hne]
    have h5 := hU i hi _ o2
    have h6 := hsmall i hi
    have h7 : 1 ≤ M := le_max_right _ _
    rw [h3, h4] at h1
    linarith
  refine ⟨h, ?_, ⟨h, rfl, hs, fun i hi => ⟨hyl i hi, ?_⟩⟩, fun z hz => ?_⟩
  · unfold maskedCall
    rw [hmask]
    simp only [bind, Except.bind]
    rw [hi1]
    simp only
    rw [labelFromLatent_ok hs hv]
    simp only
    rw [if_neg (by rw [hs, hys]; simp), if_neg]
    rintro ⟨i, hi, hne⟩
    exact hne (hlabs i (by omega))
  · rw [← hlabs i hi]
    exact (labelOf_spec (hv i hi)).2
  · obtain ⟨zs, zv, zl⟩ := completes_labels hz
    have hsame : ∀ z : ℕ → ℕ, (∀ i < n, labelOf m (z i) = y.get i) → Spec.score n edges Um P z = Spec.score n edges U P z := by
      intro z hz
      unfold Spec.score
      congr 1
      refine sum_congr rfl fun i hi => ?_
      rw [hUm]
      simp only
      rw [if_neg (not_not.mpr (hz i (mem_range.mp hi)))]
    have := hbest z.get zv
    rw [hsame _ zl, hsame _ hlabs] at this
    exact this

/-- Whatever labelling the inference method returns, the result is a completion. -/
theorem maskedCall_completes {inf : Infer} {m : LatentGraph.Model} (hpos : ∀ l < m.nLabels, 0 < m.nStatesPerLabel.getD l 0) {n : ℕ}
    (hn : 1 ≤ n) {edges : Edges} {Pw : Pairwise}
    (hinf : ∀ U : ℕ → ℕ → ℚ, ∃ h : Labels, inf ⟨n, m.nStates, U⟩ Pw edges = .ok (.discrete h) ∧ h.size = n ∧ Valid n m.nStates h.get)
    {y : Labels} (hys : y.size = n) (hyl : ∀ i < n, y.get i < m.nLabels) (U : ℕ → ℕ → ℚ) :
    ∃ h : Labels, maskedCall inf m ⟨n, m.nStates, U⟩ Pw edges y = .ok h ∧ Completes m.nStatesPerLabel n y (.discrete h) := by
  have hS : 1 ≤ m.nStates := by
    have := (first_state hpos (hyl 0 hn)).2.2
    omega
  obtain ⟨U', hmask⟩ : ∃ U', maskedUnaries m ⟨n, m.nStates, U⟩ y = .ok ⟨n, m.nStates, U'⟩ := by
    unfold maskedUnaries
    rw [if_neg (Nat.mul_pos hn hS).ne', if_neg (by rw [hys]; simp)]
    exact ⟨_, rfl⟩
  obtain ⟨h, hi1, hs, hv⟩ := hinf U'
  unfold maskedCall
  rw [hmask]
  simp only [bind, Except.bind]
  rw [hi1]
  simp only
  rw [labelFromLatent_ok hs hv]
  simp only
  rw [if_neg (by rw [hs, hys]; simp)]
  by_cases hc : ∃ i, i < y.size ∧ labelOf m (h.get i) ≠ y.get i
  · rw [if_pos hc]
    unfold firstStates
    rw [if_neg (not_not.mpr fun i hi => by have := hyl i (by omega); omega)]
    exact ⟨_, rfl, _, rfl, hys, fun i hi => ⟨hyl i hi, (first_state hpos (hyl i hi)).1⟩⟩
  · rw [if_neg hc]
    refine ⟨_, rfl, _, rfl, hs, fun i hi => ⟨hyl i hi, ?_⟩⟩
    have : labelOf m (h.get i) = y.get i := by
      by_contra hne
      exact hc ⟨i, by omega, hne⟩
    rw [← this]
    exact (labelOf_spec (hv i hi)).2

/-! ### `LatentGraphCRF` in these terms -/

theorem latent_masked {inf : Infer} {m : LatentGraph.Model} {x : GraphCRF.X} {y : Labels} {w : Vec} (hF : x.features.cols = m.nFeatures)
    (hw : w.size = GraphCRF.sizeJointFeature m.graph) :
    LatentGraph.latent inf m x y w = maskedCall inf m ⟨x.features.rows, m.nStates, GraphCRF.UN m.graph x.features w.get⟩
      (.mat ⟨m.nStates, m.nStates, GraphCRF.PW m.graph w.get⟩) x.edges y := by
  unfold LatentGraph.latent maskedCall
  rw [GraphCRF.unary_ok (m := m.graph) hF hw, GraphCRF.pairwise_ok (m := m.graph) hF hw]
  simp only [bind, Except.bind]
  rfl

theorem lossAug_augmented {inf : Infer} {m : LatentGraph.Model} {x : GraphCRF.X} {h : Labels} {w : Vec}
    (hF : x.features.cols = m.nFeatures) (hw : w.size = GraphCRF.sizeJointFeature m.graph) :
    LatentGraph.lossAugmentedInference inf m x h w =
      augmentedCall inf m ⟨x.features.rows, m.nStates, GraphCRF.UN m.graph x.features w.get⟩
        (.mat ⟨m.nStates, m.nStates, GraphCRF.PW m.graph w.get⟩) x.edges h := by
  unfold LatentGraph.lossAugmentedInference augmentedCall
  rw [GraphCRF.checkSizeW_ok hw, GraphCRF.unary_ok (m := m.graph) hF hw, GraphCRF.pairwise_ok (m := m.graph) hF hw]
  simp only [bind, Except.bind]
  rfl

end Verif.Props
