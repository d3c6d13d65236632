import Verif.Lemmas.LatentImages
import Verif.Props.C111
import Verif.Props.C128

/-!
# C129: latent states of images
-/

namespace Verif.Props

open Finset Verif.Common Verif.Spec Verif.LatentGraph Verif.LatentGrid Verif.EdgeFeature Verif.Dispatch
open Verif.GraphCRF (Infer)

/-! ### what exact inference finds -/

theorem findsBest_over {S : ℕ} {A : ℕ → Edges → Prop} {inf : Infer} (hinf : SolvesOver S (AllOrNone S A) inf) {n : ℕ} {edges : Edges}
    (hn : 1 ≤ n) (hE : EdgesIn n edges) (hA : A n edges) (hS : 1 ≤ S) (P : ℕ → ℕ → ℚ) :
    FindsBest inf n S edges (.mat ⟨S, S, P⟩) fun _ => P := by
  intro U
  obtain ⟨v, ⟨-, h, rfl, hs, hv⟩, h1, h2⟩ := hinf n edges hn hE ⟨.discrete ⟨n, fun _ => 0⟩, hA, _, rfl, rfl, fun _ _ => hS⟩ U P
  refine ⟨h, h1, hs, hv, fun z hz => ?_⟩
  have := h2 (.discrete ⟨n, z⟩) ⟨hA, _, rfl, rfl, hz⟩
  rw [outputScore_labelling hE (y := ⟨n, z⟩) hz, outputScore_labelling hE hv] at this
  exact this

theorem findsBest_edges {S : ℕ} {A : ℕ → Edges → Prop} {inf : Infer} (hinf : SolvesEdges S (AllOrNone S A) inf) {n : ℕ} {edges : Edges}
    (hn : 1 ≤ n) (hE : EdgesIn n edges) (hA : A n edges) (hS : 1 ≤ S) (P : ℕ → ℕ → ℕ → ℚ) :
    FindsBest inf n S edges (.ten ⟨edges.length, S, S, P⟩) P := by
  intro U
  obtain ⟨v, ⟨-, h, rfl, hs, hv⟩, h1, h2⟩ := hinf n edges hn hE ⟨.discrete ⟨n, fun _ => 0⟩, hA, _, rfl, rfl, fun _ _ => hS⟩ U P
  refine ⟨h, h1, hs, hv, fun z hz => ?_⟩
  have := h2 (.discrete ⟨n, z⟩) ⟨hA, _, rfl, rfl, hz⟩
  rw [edgeScore_labelling hE (y := ⟨n, z⟩) hz, edgeScore_labelling hE hv] at this
  exact this

/-- An exact AD3 on arbitrary graphs with one table of couplings per edge. -/
theorem ad3_decodes_edges (P : Packages) {S : ℕ} (hS : 1 ≤ S) {solve solve'} (hP : P.ad3 = some (solve, solve'))
    (hex : Ad3AlwaysExact solve) (relaxed : Bool) : SolvesEdges S (AllOrNone S fun _ _ => True) (backend P (.name "ad3") relaxed) := by
  intro n edges hn hE hne U Q
  obtain ⟨v, h1, h2, h3⟩ := ad3_exact_solves_edges P hS hP hex relaxed n edges hn hE (by
    obtain ⟨v, -, h⟩ := hne
    exact ⟨v, h⟩) U Q
  exact ⟨v, ⟨trivial, h1⟩, h2, fun z hz => h3 z hz.2⟩

/-! ### potentials of the directional model -/

theorem directional_edgesIn (h w : ℕ) : EdgesIn (h * w) (Grid.right h w ++ Grid.down h w) := by
  obtain ⟨E, hE, hin, -⟩ := C31_grid_edges h w 4 (Or.inl rfl)
  rw [gridEdges_four] at hE
  injection hE with hE
  rw [← hE] at hin
  exact hin

/-- flat features of an image. -/
def imageFeatures (F : ℕ) (t : Ten) : Mat := ⟨t.d0 * t.d1, F, fun i j => t.ravel.get (i * F + j)⟩

/-- the edge features of an image, one column for horizontal and one for vertical edges. -/
def imageDirections (t : Ten) : Mat := Grid.edgeListToFeatures [Grid.right t.d0 t.d1, Grid.down t.d0 t.d1]

theorem directional_pairwise {m : LatentGraph.Model} {t : Ten} (ht : GridFits m.nFeatures t) {w : Vec}
    (hw : w.size = EdgeFeature.sizeJointFeature (directional 4 m)) :
    ∃ P : ℕ → ℕ → ℕ → ℚ,
      pairwisePotentials checkFeatures (directional 4 m) ⟨imageFeatures m.nFeatures t, Grid.right t.d0 t.d1 ++ Grid.down t.d0 t.d1,
        imageDirections t⟩ w =
        .ok ⟨(Grid.right t.d0 t.d1 ++ Grid.down t.d0 t.d1).length, m.nStates, m.nStates, P⟩ ∧
      ∀ e < (Grid.right t.d0 t.d1 ++ Grid.down t.d0 t.d1).length, ∀ a < m.nStates, ∀ b < m.nStates,
        P e a b = EP (directional 4 m) (imageDirections t) w.get e a b := by
  obtain ⟨⟨d0, d1, d2, P⟩, h1, h2, h3, h4, h5⟩ := EdgeFeature.pairwise_ok (check := checkFeatures) (m := directional 4 m)
    (x := ⟨imageFeatures m.nFeatures t, Grid.right t.d0 t.d1 ++ Grid.down t.d0 t.d1, imageDirections t⟩)
    (checkFeatures_ok rfl) rfl (Nat.two_pos : 0 < 2) hw
  have hr : (imageDirections t).rows = (Grid.right t.d0 t.d1 ++ Grid.down t.d0 t.d1).length := by
    unfold imageDirections Grid.edgeListToFeatures
    simp
  simp only at h2 h3 h4 h5
  rw [hr] at h2 h5
  subst h2
  subst h3
  subst h4
  exact ⟨P, h1, h5⟩

/-- the coupling of an edge is one weight. -/
theorem directional_EP {m : LatentGraph.Model} {t : Ten} {w : ℕ → ℚ} {e a b : ℕ} (ha : a < m.nStates) (hb : b < m.nStates) :
    ∃ k < EdgeFeature.sizeJointFeature (directional 4 m), EP (directional 4 m) (imageDirections t) w e a b = w k := by
  unfold EP EW imageDirections Grid.edgeListToFeatures
  have hab : a * m.nStates + b < m.nStates ^ 2 := by
    rw [pow_two]
    exact flat_lt ha hb
  have hsz : EdgeFeature.sizeJointFeature (directional 4 m) = m.nStates * m.nFeatures + 2 * m.nStates ^ 2 := rfl
  rw [hsz]
  change ∃ k < _, ∑ k ∈ range 2, _ = _
  rw [sum_range_succ, sum_range_one]
  by_cases h : e < (Grid.right t.d0 t.d1).length
  · refine ⟨m.nStates * m.nFeatures + (a * m.nStates + b), by omega, ?_⟩
    simp [h, directional, directionalModel]
  · refine ⟨m.nStates * m.nFeatures + (m.nStates ^ 2 + (a * m.nStates + b)), by omega, ?_⟩
    simp [h, directional, directionalModel]

/-! ### sizes of potentials -/

theorem unary_small {S F : ℕ} {t : Ten} (hd : t.d2 = F) {w : ℕ → ℚ} {ρ : ℚ} (hw : ∀ k < S * F, |w k| ≤ ρ) {i s : ℕ}
    (hi : i < t.d0 * t.d1) (hs : s < S) :
    -(ρ * ∑ f ∈ range F, |t.get (i / t.d1) (i % t.d1) f|) ≤ ∑ f ∈ range F, (imageFeatures F t).get i f * w (s * F + f) := by
  rw [mul_sum, ← sum_neg_distrib]
  refine sum_le_sum fun f hf => ?_
  have hf := mem_range.mp hf
  obtain ⟨-, h2, h3⟩ := pixel_of hi
  have e : (imageFeatures F t).get i f = t.get (i / t.d1) (i % t.d1) f := by
    change t.ravel.get (i * F + f) = _
    rw [← ravel_pixel hd h2 hf, h3]
  rw [e]
  have h1 := hw (s * F + f) (flat_lt hs hf)
  have h2 := mul_le_mul_of_nonneg_right h1 (abs_nonneg (t.get (i / t.d1) (i % t.d1) f))
  rw [← abs_mul, mul_comm (w _)] at h2
  have h3 := neg_abs_le (t.get (i / t.d1) (i % t.d1) f * w (s * F + f))
  linarith

theorem pair_small {m : LatentGraph.Model} {w : ℕ → ℚ} {ρ : ℚ} (hw : ∀ k < GraphCRF.sizeJointFeature m.graph, |w k| ≤ ρ) {a b : ℕ}
    (ha : a < m.nStates) (hb : b < m.nStates) : |GraphCRF.PW m.graph w a b| ≤ ρ := by
  rw [PW_eq]
  have hsz : GraphCRF.sizeJointFeature m.graph = if m.directed then m.nStates * m.nFeatures + m.nStates ^ 2
      else m.nStates * m.nFeatures + Sym.tri m.nStates := rfl
  by_cases hd : m.directed
  · rw [if_pos hd] at hsz
    rw [if_pos (show m.graph.directed = true from hd)]
    refine hw _ ?_
    rw [hsz, pow_two]
    exact Nat.add_lt_add_left (flat_lt ha hb) _
  · rw [if_neg hd] at hsz
    rw [if_neg (show ¬ m.graph.directed = true from hd)]
    refine hw _ ?_
    rw [hsz]
    exact Nat.add_lt_add_left (Sym.tri_add_lt (min_le_max) (max_lt ha hb)) _

theorem small_degree {nb : ℕ} {t : Ten} {E : Edges} (hE : Grid.gridEdges t.d0 t.d1 nb = .ok E) {F : ℕ} {ρ : ℚ} (hρ : 0 ≤ ρ)
    (hsmall : ∀ r < t.d0, ∀ c < t.d1, ρ * (∑ f ∈ range F, |t.get r c f| + 2 * nb) < 100) {i : ℕ} (hi : i < t.d0 * t.d1) :
    ρ * ∑ f ∈ range F, |t.get (i / t.d1) (i % t.d1) f| + 2 * ρ * degree E i < 100 := by
  obtain ⟨h1, h2, -⟩ := pixel_of hi
  have h3 := hsmall _ h1 _ h2
  have h4 : (degree E i : ℚ) ≤ nb := by exact_mod_cast grid_degree hE i
  have h5 := mul_le_mul_of_nonneg_left h4 hρ
  rw [mul_add] at h3
  linarith

/-! ### LatentGridCRF -/

theorem grid_imageScore {nb : ℕ} {m : LatentGraph.Model} {t : Ten} {E : Edges} (hE : Grid.gridEdges t.d0 t.d1 nb = .ok E)
    (hd : t.d2 = m.nFeatures) (w : ℕ → ℚ) :
    ImageScore t.d0 t.d1 E (GraphCRF.UN m.graph (imageFeatures m.nFeatures t) w) (fun _ => GraphCRF.PW m.graph w)
      (gridScore nb m.graph t w) :=
  ⟨fun v => grid_score_eq (m := m.graph) hE hd w v, fun _ _ h => gridScore_congr h⟩

theorem grid_latent_eq {inf : Infer} {nb : ℕ} {m : LatentGraph.Model} {t : Ten} {E : Edges}
    (hx : gridX nb m.nFeatures t = .ok ⟨imageFeatures m.nFeatures t, E⟩) {w : Vec}
    (hw : w.size = GraphCRF.sizeJointFeature m.graph) (y : Grid.NMat) :
    LatentGrid.latent inf nb m t y w = (do
      let v ← maskedCall inf m ⟨t.d0 * t.d1, m.nStates, GraphCRF.UN m.graph (imageFeatures m.nFeatures t) w.get⟩
        (.mat ⟨m.nStates, m.nStates, GraphCRF.PW m.graph w.get⟩) E (flat y)
      toImage y.rows y.cols v) := by
  unfold LatentGrid.latent
  rw [hx]
  change (do
    let v ← LatentGraph.latent inf m ⟨imageFeatures m.nFeatures t, E⟩ (flat y) w
    toImage y.rows y.cols v) = _
  rw [latent_masked (x := ⟨imageFeatures m.nFeatures t, E⟩) rfl hw]
  rfl

/-- **C129 (LatentGridCRF, latent).** Whatever labelling inference finds, `latent` returns an image of states of the shape of the
label image in which every pixel has a state of its label. -/
theorem C129_latent (inf : Infer) (nb : ℕ) (hnb : nb = 4 ∨ nb = 8) (m : LatentGraph.Model)
    (hpos : ∀ l < m.nLabels, 0 < m.nStatesPerLabel.getD l 0) (hinf : Answers m.nStates inf) (t : Ten) (ht : GridFits m.nFeatures t)
    (y : Grid.NMat) (hr : y.rows = t.d0) (hc : y.cols = t.d1) (hy : ValidImage t.d0 t.d1 m.nLabels y.get) (w : Vec)
    (hw : w.size = GraphCRF.sizeJointFeature m.graph) :
    ∃ z, LatentGrid.latent inf nb m t y w = .ok z ∧ z.rows = t.d0 ∧ z.cols = t.d1 ∧
      CompletesImage m.nStatesPerLabel t.d0 t.d1 y.get z.get := by
  obtain ⟨E, hE, hin, hx⟩ := gridX_ok hnb ht
  rw [grid_latent_eq hx hw]
  exact image_latent_completes hpos ht.1 ht.2.1 (fun U => hinf _ E (Nat.mul_pos ht.1 ht.2.1) hin U _) hr hc hy _

/-- **C129 (LatentGridCRF, best states).** If inference is exact and the weights are small compared to the penalty of 100, then among
all images of states that complete the labels, `latent` returns one of maximal score. -/
theorem C129_latent_best (inf : Infer) (nb : ℕ) (hnb : nb = 4 ∨ nb = 8) (m : LatentGraph.Model)
    (hpos : ∀ l < m.nLabels, 0 < m.nStatesPerLabel.getD l 0) (A : ℕ → Edges → Prop)
    (hinf : SolvesOver m.nStates (AllOrNone m.nStates A) inf) (t : Ten) (ht : GridFits m.nFeatures t)
    (hA : ∀ E, Grid.gridEdges t.d0 t.d1 nb = .ok E → A (t.d0 * t.d1) E)
    (y : Grid.NMat) (hr : y.rows = t.d0) (hc : y.cols = t.d1) (hy : ValidImage t.d0 t.d1 m.nLabels y.get) (w : Vec)
    (hw : w.size = GraphCRF.sizeJointFeature m.graph) (ρ : ℚ) (hρ : 0 ≤ ρ) (hwρ : ∀ k < w.size, |w.get k| ≤ ρ)
    (hsmall : ∀ r < t.d0, ∀ c < t.d1, ρ * (∑ f ∈ range m.nFeatures, |t.get r c f| + 2 * nb) < 100) :
    ∃ z, LatentGrid.latent inf nb m t y w = .ok z ∧ z.rows = t.d0 ∧ z.cols = t.d1 ∧
      CompletesImage m.nStatesPerLabel t.d0 t.d1 y.get z.get ∧
      ∀ z', CompletesImage m.nStatesPerLabel t.d0 t.d1 y.get z' →
        gridScore nb m.graph t w.get z' ≤ gridScore nb m.graph t w.get z.get := by
  obtain ⟨E, hE, hin, hx⟩ := gridX_ok hnb ht
  have hS : 1 ≤ m.nStates := by
    have := (first_state hpos (hy 0 ht.1 0 ht.2.1)).2.2
    omega
  have hsz : m.nStates * m.nFeatures ≤ GraphCRF.sizeJointFeature m.graph := by
    unfold GraphCRF.sizeJointFeature Model.graph
    simp only
    split <;> omega
  rw [hw] at hwρ
  rw [grid_latent_eq hx hw]
  exact image_latent_best hpos ht.1 ht.2.1 hin (findsBest_over hinf (Nat.mul_pos ht.1 ht.2.1) hin (hA E hE) hS _) hr hc hy
    (B := fun i => ρ * ∑ f ∈ range m.nFeatures, |t.get (i / t.d1) (i % t.d1) f|)
    (fun i hi s hs => unary_small ht.2.2.2 (fun k hk => hwρ k (by omega)) hi hs)
    (fun e _ a ha b hb => pair_small hwρ ha hb) (fun i hi => small_degree hE hρ hsmall hi) (grid_imageScore hE ht.2.2.2 _)

/-- **C129 (LatentGridCRF, loss-augmented inference).** With exact inference the result is an image of states that maximises the score
plus the number of pixels with a state of another label. -/
theorem C129_loss_augmented (inf : Infer) (nb : ℕ) (hnb : nb = 4 ∨ nb = 8) (m : LatentGraph.Model) (hS : 1 ≤ m.nStates)
    (A : ℕ → Edges → Prop) (hinf : SolvesOver m.nStates (AllOrNone m.nStates A) inf) (t : Ten) (ht : GridFits m.nFeatures t)
    (hA : ∀ E, Grid.gridEdges t.d0 t.d1 nb = .ok E → A (t.d0 * t.d1) E)
    (h : Grid.NMat) (hr : h.rows = t.d0) (hc : h.cols = t.d1) (hh : ValidImage t.d0 t.d1 m.nStates h.get) (w : Vec)
    (hw : w.size = GraphCRF.sizeJointFeature m.graph) :
    ∃ z : Grid.NMat, LatentGrid.lossAugmentedInference inf nb m t h w = .ok (.discrete z) ∧ z.rows = t.d0 ∧ z.cols = t.d1 ∧
      ValidImage t.d0 t.d1 m.nStates z.get ∧ ∀ z', ValidImage t.d0 t.d1 m.nStates z' →
        gridScore nb m.graph t w.get z' + wrongPixels m.nStatesPerLabel t.d0 t.d1 h.get z' ≤
        gridScore nb m.graph t w.get z.get + wrongPixels m.nStatesPerLabel t.d0 t.d1 h.get z.get := by
  obtain ⟨E, hE, hin, hx⟩ := gridX_ok hnb ht
  unfold LatentGrid.lossAugmentedInference
  rw [hx]
  change ∃ z : Grid.NMat, (do
    let v ← LatentGraph.lossAugmentedInference inf m ⟨imageFeatures m.nFeatures t, E⟩ (flat h) w
    reshapeY m.nStates t.d0 t.d1 v) = _ ∧ _
  rw [lossAug_augmented (x := ⟨imageFeatures m.nFeatures t, E⟩) rfl hw]
  exact image_lossAug_best (findsBest_over hinf (Nat.mul_pos ht.1 ht.2.1) hin (hA E hE) hS _) hr hc hh
    (grid_imageScore hE ht.2.2.2 _)

/-! ### LatentDirectionalGridCRF -/

/-- couplings that agree on all states in range give the same scores. -/
theorem score_congr_pairs {n S : ℕ} {edges : Edges} (hE : EdgesIn n edges) {U : ℕ → ℕ → ℚ} {P P' : ℕ → ℕ → ℕ → ℚ}
    (hP : ∀ e < edges.length, ∀ a < S, ∀ b < S, P e a b = P' e a b) {z : ℕ → ℕ} (hz : Valid n S z) :
    Spec.score n edges U P z = Spec.score n edges U P' z := by
  unfold Spec.score
  congr 1
  refine sum_congr rfl fun e he => ?_
  have hr := hE _ (getD_mem (mem_range.mp he))
  exact hP e (mem_range.mp he) _ (hz _ hr.1) _ (hz _ hr.2)

theorem FindsBest.congr {inf : Infer} {n S : ℕ} {edges : Edges} (hE : EdgesIn n edges) {Pw : Pairwise} {P P' : ℕ → ℕ → ℕ → ℚ}
    (hP : ∀ e < edges.length, ∀ a < S, ∀ b < S, P e a b = P' e a b) (h : FindsBest inf n S edges Pw P) :
    FindsBest inf n S edges Pw P' := by
  intro U
  obtain ⟨v, h1, h2, h3, h4⟩ := h U
  refine ⟨v, h1, h2, h3, fun z hz => ?_⟩
  rw [← score_congr_pairs hE hP hz, ← score_congr_pairs hE hP h3]
  exact h4 z hz

theorem directional_imageScore {m : LatentGraph.Model} {t : Ten} (hd : t.d2 = m.nFeatures) (w : ℕ → ℚ) :
    ImageScore t.d0 t.d1 (Grid.right t.d0 t.d1 ++ Grid.down t.d0 t.d1) (EU (directional 4 m) (imageFeatures m.nFeatures t) w)
      (EP (directional 4 m) (imageDirections t) w) (directionalScore m.nStates m.nFeatures t w) :=
  ⟨fun v => directional_score_eq hd w v, fun _ _ h => directionalScore_congr h⟩

theorem directional_latent_eq {inf : Infer} {m : LatentGraph.Model} {t : Ten} (ht : GridFits m.nFeatures t) {w : Vec}
    (hw : w.size = EdgeFeature.sizeJointFeature (directional 4 m)) {P : ℕ → ℕ → ℕ → ℚ}
    (hP : pairwisePotentials checkFeatures (directional 4 m) ⟨imageFeatures m.nFeatures t,
      Grid.right t.d0 t.d1 ++ Grid.down t.d0 t.d1, imageDirections t⟩ w =
        .ok ⟨(Grid.right t.d0 t.d1 ++ Grid.down t.d0 t.d1).length, m.nStates, m.nStates, P⟩) (y : Grid.NMat) :
    directionalLatent inf 4 m t y w = (do
      let v ← maskedCall inf m ⟨t.d0 * t.d1, m.nStates, EU (directional 4 m) (imageFeatures m.nFeatures t) w.get⟩
        (.ten ⟨(Grid.right t.d0 t.d1 ++ Grid.down t.d0 t.d1).length, m.nStates, m.nStates, P⟩)
        (Grid.right t.d0 t.d1 ++ Grid.down t.d0 t.d1) (flat y)
      toImage y.rows y.cols v) := by
  have hU := EdgeFeature.unary_ok (check := checkFeatures) (m := directional 4 m) (x := ⟨imageFeatures m.nFeatures t,
    Grid.right t.d0 t.d1 ++ Grid.down t.d0 t.d1, imageDirections t⟩) (checkFeatures_ok rfl) rfl hw
  have hx : directionalX 4 m.nFeatures t = .ok ⟨imageFeatures m.nFeatures t, Grid.right t.d0 t.d1 ++ Grid.down t.d0 t.d1,
    imageDirections t⟩ := directionalX_ok ht
  unfold directionalLatent
  rw [hx]
  simp only [bind, Except.bind]
  rw [hU, hP]
  rfl

/-- **C129 (LatentDirectionalGridCRF, latent).** The same for the model with one table of couplings per direction; 4-neighbourhood, the
only one that its constructor accepts (C89). -/
theorem C129_directional_latent (inf : Infer) (m : LatentGraph.Model)
    (hpos : ∀ l < m.nLabels, 0 < m.nStatesPerLabel.getD l 0) (hinf : AnswersEdges m.nStates inf) (t : Ten)
    (ht : GridFits m.nFeatures t) (y : Grid.NMat) (hr : y.rows = t.d0) (hc : y.cols = t.d1)
    (hy : ValidImage t.d0 t.d1 m.nLabels y.get) (w : Vec) (hw : w.size = EdgeFeature.sizeJointFeature (directional 4 m)) :
    ∃ z, directionalLatent inf 4 m t y w = .ok z ∧ z.rows = t.d0 ∧ z.cols = t.d1 ∧
      CompletesImage m.nStatesPerLabel t.d0 t.d1 y.get z.get := by
  obtain ⟨P, hP, -⟩ := directional_pairwise ht hw
  rw [directional_latent_eq ht hw hP]
  exact image_latent_completes hpos ht.1 ht.2.1
    (fun U => hinf _ _ (Nat.mul_pos ht.1 ht.2.1) (directional_edgesIn t.d0 t.d1) U P) hr hc hy _

/-- **C129 (LatentDirectionalGridCRF, best states).** -/
theorem C129_directional_best (inf : Infer) (m : LatentGraph.Model)
    (hpos : ∀ l < m.nLabels, 0 < m.nStatesPerLabel.getD l 0) (A : ℕ → Edges → Prop)
    (hinf : SolvesEdges m.nStates (AllOrNone m.nStates A) inf) (t : Ten) (ht : GridFits m.nFeatures t)
    (hA : ∀ E, Grid.gridEdges t.d0 t.d1 4 = .ok E → A (t.d0 * t.d1) E)
    (y : Grid.NMat) (hr : y.rows = t.d0) (hc : y.cols = t.d1) (hy : ValidImage t.d0 t.d1 m.nLabels y.get) (w : Vec)
    (hw : w.size = EdgeFeature.sizeJointFeature (directional 4 m)) (ρ : ℚ) (hρ : 0 ≤ ρ) (hwρ : ∀ k < w.size, |w.get k| ≤ ρ)
    (hsmall : ∀ r < t.d0, ∀ c < t.d1, ρ * (∑ f ∈ range m.nFeatures, |t.get r c f| + 8) < 100) :
    ∃ z, directionalLatent inf 4 m t y w = .ok z ∧ z.rows = t.d0 ∧ z.cols = t.d1 ∧
      CompletesImage m.nStatesPerLabel t.d0 t.d1 y.get z.get ∧
      ∀ z', CompletesImage m.nStatesPerLabel t.d0 t.d1 y.get z' →
        directionalScore m.nStates m.nFeatures t w.get z' ≤ directionalScore m.nStates m.nFeatures t w.get z.get := by
  obtain ⟨P, hP, hPe⟩ := directional_pairwise ht hw
  have hE := gridEdges_four t.d0 t.d1
  have hin := directional_edgesIn t.d0 t.d1
  have hS : 1 ≤ m.nStates := by
    have := (first_state hpos (hy 0 ht.1 0 ht.2.1)).2.2
    omega
  rw [hw] at hwρ
  rw [directional_latent_eq ht hw hP]
  exact image_latent_best hpos ht.1 ht.2.1 hin
    ((findsBest_edges hinf (Nat.mul_pos ht.1 ht.2.1) hin (hA _ hE) hS P).congr hin hPe) hr hc hy
    (B := fun i => ρ * ∑ f ∈ range m.nFeatures, |t.get (i / t.d1) (i % t.d1) f|)
    (fun i hi s hs => unary_small ht.2.2.2 (fun k hk => hwρ k (lt_of_lt_of_le hk (Nat.le_add_right _ _))) hi hs)
    (fun e _ a ha b hb => by
      obtain ⟨k, hk, e⟩ := directional_EP (t := t) (w := w.get) (e := e) ha hb
      rw [e]
      exact hwρ k hk) (fun i hi => small_degree hE hρ (fun r hr c hc => by
        have := hsmall r hr c hc
        norm_num
        linarith) hi) (directional_imageScore ht.2.2.2 _)

/-- **C129 (LatentDirectionalGridCRF, loss-augmented inference).** -/
theorem C129_directional_loss_augmented (inf : Infer) (m : LatentGraph.Model) (hS : 1 ≤ m.nStates)
    (A : ℕ → Edges → Prop) (hinf : SolvesEdges m.nStates (AllOrNone m.nStates A) inf) (t : Ten) (ht : GridFits m.nFeatures t)
    (hA : ∀ E, Grid.gridEdges t.d0 t.d1 4 = .ok E → A (t.d0 * t.d1) E)
    (h : Grid.NMat) (hr : h.rows = t.d0) (hc : h.cols = t.d1) (hh : ValidImage t.d0 t.d1 m.nStates h.get) (w : Vec)
    (hw : w.size = EdgeFeature.sizeJointFeature (directional 4 m)) :
    ∃ z : Grid.NMat, LatentGrid.directionalLossAug inf 4 m t h w = .ok (.discrete z) ∧ z.rows = t.d0 ∧ z.cols = t.d1 ∧
      ValidImage t.d0 t.d1 m.nStates z.get ∧ ∀ z', ValidImage t.d0 t.d1 m.nStates z' →
        directionalScore m.nStates m.nFeatures t w.get z' + wrongPixels m.nStatesPerLabel t.d0 t.d1 h.get z' ≤
        directionalScore m.nStates m.nFeatures t w.get z.get + wrongPixels m.nStatesPerLabel t.d0 t.d1 h.get z.get := by
  obtain ⟨P, hP, hPe⟩ := directional_pairwise ht hw
  have hin := directional_edgesIn t.d0 t.d1
  have hU := EdgeFeature.unary_ok (check := checkFeatures) (m := directional 4 m) (x := ⟨imageFeatures m.nFeatures t,
    Grid.right t.d0 t.d1 ++ Grid.down t.d0 t.d1, imageDirections t⟩) (checkFeatures_ok rfl) rfl hw
  have hx : directionalX 4 m.nFeatures t = .ok ⟨imageFeatures m.nFeatures t, Grid.right t.d0 t.d1 ++ Grid.down t.d0 t.d1,
    imageDirections t⟩ := directionalX_ok ht
  unfold LatentGrid.directionalLossAug
  rw [hx]
  simp only [bind, Except.bind]
  rw [GraphCRF.checkSizeW_ok hw, hU, hP]
  exact image_lossAug_best ((findsBest_edges hinf (Nat.mul_pos ht.1 ht.2.1) hin (hA _ (gridEdges_four _ _)) hS P).congr hin hPe)
    hr hc hh (directional_imageScore ht.2.2.2 _)

/-! ### prediction -/

theorem image_inference_best {inf : Infer} {S h w : ℕ} {edges : Edges} {Pw : Pairwise} {P : ℕ → ℕ → ℕ → ℚ}
    (hinf : FindsBest inf (h * w) S edges Pw P) {U : ℕ → ℕ → ℚ} {sc : (ℕ → ℕ → ℕ) → ℚ} (hsc : ImageScore h w edges U P sc) :
    ∃ z : Grid.NMat, (do
        let v ← inf ⟨h * w, S, U⟩ Pw edges
        reshapeY S h w v) = .ok (.discrete z) ∧ z.rows = h ∧ z.cols = w ∧ ValidImage h w S z.get ∧
      ∀ z', ValidImage h w S z' → sc z' ≤ sc z.get := by
  obtain ⟨v, h1, h2, h3, h4⟩ := hinf U
  refine ⟨⟨h, w, fun r c => v.get (r * w + c)⟩, ?_, rfl, rfl, fun r hr c hc => h3 _ (pixel_lt hr hc), fun z' hz => ?_⟩
  · rw [h1]
    exact reshapeY_ok (S := S) h2
  · have := h4 (fun i => z' (i / w) (i % w)) (fun i hi => by
      obtain ⟨p, q, -⟩ := pixel_of hi
      exact hz _ p _ q)
    rw [hsc.flat z', hsc.1 v] at this
    exact this

/-- **C129 (LatentGridCRF, inference).** With exact inference the result is an image of states of maximal score. -/
theorem C129_inference (inf : Infer) (nb : ℕ) (hnb : nb = 4 ∨ nb = 8) (m : LatentGraph.Model) (hS : 1 ≤ m.nStates)
    (A : ℕ → Edges → Prop) (hinf : SolvesOver m.nStates (AllOrNone m.nStates A) inf) (t : Ten) (ht : GridFits m.nFeatures t)
    (hA : ∀ E, Grid.gridEdges t.d0 t.d1 nb = .ok E → A (t.d0 * t.d1) E) (w : Vec)
    (hw : w.size = GraphCRF.sizeJointFeature m.graph) :
    ∃ z : Grid.NMat, LatentGrid.inference inf nb m t w = .ok (.discrete z) ∧ z.rows = t.d0 ∧ z.cols = t.d1 ∧
      ValidImage t.d0 t.d1 m.nStates z.get ∧ ∀ z', ValidImage t.d0 t.d1 m.nStates z' →
        gridScore nb m.graph t w.get z' ≤ gridScore nb m.graph t w.get z.get := by
  obtain ⟨E, hE, hin, hx⟩ := gridX_ok hnb ht
  unfold LatentGrid.inference
  rw [hx]
  change ∃ z : Grid.NMat, (do
    let v ← GraphCRF.inference inf m.graph ⟨imageFeatures m.nFeatures t, E⟩ w
    reshapeY m.nStates t.d0 t.d1 v) = _ ∧ _
  have hi : GraphCRF.inference inf m.graph ⟨imageFeatures m.nFeatures t, E⟩ w =
      inf ⟨t.d0 * t.d1, m.nStates, GraphCRF.UN m.graph (imageFeatures m.nFeatures t) w.get⟩
        (.mat ⟨m.nStates, m.nStates, GraphCRF.PW m.graph w.get⟩) E := by
    unfold GraphCRF.inference
    rw [GraphCRF.checkSizeW_ok hw, GraphCRF.unary_ok (m := m.graph) (x := ⟨imageFeatures m.nFeatures t, E⟩) rfl hw,
      GraphCRF.pairwise_ok (m := m.graph) (x := ⟨imageFeatures m.nFeatures t, E⟩) rfl hw]
    rfl
  rw [hi]
  exact image_inference_best (findsBest_over hinf (Nat.mul_pos ht.1 ht.2.1) hin (hA E hE) hS _) (grid_imageScore hE ht.2.2.2 _)

/-- **C129 (LatentDirectionalGridCRF, inference).** -/
theorem C129_directional_inference (inf : Infer) (m : LatentGraph.Model) (hS : 1 ≤ m.nStates)
    (A : ℕ → Edges → Prop) (hinf : SolvesEdges m.nStates (AllOrNone m.nStates A) inf) (t : Ten) (ht : GridFits m.nFeatures t)
    (hA : ∀ E, Grid.gridEdges t.d0 t.d1 4 = .ok E → A (t.d0 * t.d1) E) (w : Vec)
    (hw : w.size = EdgeFeature.sizeJointFeature (directional 4 m)) :
    ∃ z : Grid.NMat, LatentGrid.directionalInference inf 4 m t w = .ok (.discrete z) ∧ z.rows = t.d0 ∧ z.cols = t.d1 ∧
      ValidImage t.d0 t.d1 m.nStates z.get ∧ ∀ z', ValidImage t.d0 t.d1 m.nStates z' →
        directionalScore m.nStates m.nFeatures t w.get z' ≤ directionalScore m.nStates m.nFeatures t w.get z.get := by
  obtain ⟨P, hP, hPe⟩ := directional_pairwise ht hw
  have hin := directional_edgesIn t.d0 t.d1
  have hU := EdgeFeature.unary_ok (check := checkFeatures) (m := directional 4 m) (x := ⟨imageFeatures m.nFeatures t,
    Grid.right t.d0 t.d1 ++ Grid.down t.d0 t.d1, imageDirections t⟩) (checkFeatures_ok rfl) rfl hw
  have hx : directionalX 4 m.nFeatures t = .ok ⟨imageFeatures m.nFeatures t, Grid.right t.d0 t.d1 ++ Grid.down t.d0 t.d1,
    imageDirections t⟩ := directionalX_ok ht
  unfold LatentGrid.directionalInference EdgeFeature.inference
  rw [hx]
  simp only [bind, Except.bind]
  rw [GraphCRF.checkSizeW_ok hw, hU, hP]
  exact image_inference_best ((findsBest_edges hinf (Nat.mul_pos ht.1 ht.2.1) hin (hA _ (gridEdges_four _ _)) hS P).congr hin hPe)
    (directional_imageScore ht.2.2.2 _)

/-! ### loss and initialisation -/

theorem image_labels {m : LatentGraph.Model} {a : Grid.NMat} (ha : ValidImage a.rows a.cols m.nStates a.get) :
    LatentGrid.labelFromLatent m a = .ok ⟨a.rows, a.cols, fun r c => labelOf m (a.get r c)⟩ := by
  unfold LatentGrid.labelFromLatent
  rw [if_neg (not_not.mpr (fun r hr c hc => ha r hr c hc))]
  rfl

/-- **C129 (label_from_latent).** The labels of an image of states are the image that these states complete. -/
theorem C129_labels (m : LatentGraph.Model) (a : Grid.NMat) (ha : ValidImage a.rows a.cols m.nStates a.get) :
    ∃ y, LatentGrid.labelFromLatent m a = .ok y ∧ y.rows = a.rows ∧ y.cols = a.cols ∧
      CompletesImage m.nStatesPerLabel a.rows a.cols y.get a.get :=
  ⟨_, image_labels ha, rfl, rfl, fun r hr c hc => labelOf_spec (ha r hr c hc)⟩

theorem valid_flat {a : Grid.NMat} {S : ℕ} (ha : ValidImage a.rows a.cols S a.get) : Valid (a.rows * a.cols) S (flat a).get := by
  intro i hi
  obtain ⟨h1, h2, -⟩ := pixel_of hi
  exact ha _ h1 _ h2

/-- **C129 (loss).** The loss of two images of states is the number of pixels whose states belong to different labels; states of the
same label cost nothing. -/
theorem C129_loss (m : LatentGraph.Model) (a b : Grid.NMat) (hr : b.rows = a.rows) (hc : b.cols = a.cols)
    (ha : ValidImage a.rows a.cols m.nStates a.get) (hb : ValidImage a.rows a.cols m.nStates b.get) :
    LatentGrid.loss m a (.discrete b) = .ok (wrongPixels m.nStatesPerLabel a.rows a.cols a.get b.get) := by
  have hb' : ValidImage b.rows b.cols m.nStates b.get := by rw [hr, hc]; exact hb
  unfold LatentGrid.loss
  simp only
  rw [image_labels ha, image_labels hb']
  simp only [bind, Except.bind]
  rw [if_neg (by rw [hr, hc]; simp)]
  rw [loss_some_ok (n := a.rows * a.cols) (c := ⟨m.nLabels, fun _ => 1⟩)
    (y := flat ⟨a.rows, a.cols, fun r c => labelOf m (a.get r c)⟩) (yhat := flat ⟨b.rows, b.cols, fun r c => labelOf m (b.get r c)⟩)
    rfl (by change b.rows * b.cols = _; rw [hr, hc]) (fun i hi => (labelOf_spec (valid_flat ha i hi)).1)]
  rw [← wrongPixels_eq ha hb (u := (flat a).get) (v := (flat b).get) (fun r _ c h => flat_get rfl h) (fun r _ c h => flat_get hc h)]
  rfl

/-- **C129 (continuous loss).** On marginals that put all mass on one state per pixel the loss is that of the image of these states. -/
theorem C129_continuous_loss (m : LatentGraph.Model) (a b : Grid.NMat) (hr : b.rows = a.rows) (hc : b.cols = a.cols)
    (ha : ValidImage a.rows a.cols m.nStates a.get) (hb : ValidImage a.rows a.cols m.nStates b.get) (p : Vec) :
    LatentGrid.loss m a (.relaxed ⟨a.rows, a.cols, m.nStates, fun r c s => if s = b.get r c then 1 else 0⟩ p) =
      LatentGrid.loss m a (.discrete b) := by
  rw [C129_loss m a b hr hc ha hb]
  have hb' : ValidImage b.rows b.cols m.nStates b.get := by rw [hr, hc]; exact hb
  have hvb : Valid (flat a).size m.nStates (flat b).get := by
    have := valid_flat hb'
    rw [hr, hc] at this
    exact this
  obtain ⟨L, h1, h2⟩ := C27_latent_graph_onehot m (flat a) (flat b) (by change b.rows * b.cols = a.rows * a.cols; rw [hr, hc])
    (valid_flat ha) hvb
  have h3 : LatentGraph.loss m (flat a) (flat b) = .ok (wrongPixels m.nStatesPerLabel a.rows a.cols a.get b.get) := by
    unfold LatentGraph.loss
    rw [labelFromLatent_ok (n := a.rows * a.cols) rfl (valid_flat ha), labelFromLatent_ok (n := a.rows * a.cols)
      (by change b.rows * b.cols = a.rows * a.cols; rw [hr, hc]) hvb]
    simp only [bind, Except.bind]
    rw [loss_some_ok (n := a.rows * a.cols) (c := ⟨m.nLabels, fun _ => 1⟩) (y := ⟨(flat a).size, fun i => labelOf m ((flat a).get i)⟩)
      (yhat := ⟨(flat b).size, fun i => labelOf m ((flat b).get i)⟩) rfl (by change b.rows * b.cols = _; rw [hr, hc])
      (fun i hi => (labelOf_spec (valid_flat ha i hi)).1)]
    rw [← wrongPixels_eq ha hb (u := (flat a).get) (v := (flat b).get) (fun r _ c h => flat_get rfl h) (fun r _ c h => flat_get hc h)]
    rfl
  rw [h3] at h1
  rw [h1, ← h2]
  unfold LatentGrid.loss LatentGrid.continuousLoss
  simp only
  congr 2
  funext i s
  change (if s = b.get (i / a.cols) (i % a.cols) then (1 : ℚ) else 0) = if s = b.get (i / b.cols) (i % b.cols) then 1 else 0
  rw [hc]

theorem mapM_images (Y : List Grid.NMat) (H : List Labels) (hl : H.length = Y.length)
    (h : ∀ k (hk : k < Y.length), (H.getD k ⟨0, fun _ => 0⟩).size = Y[k].rows * Y[k].cols) :
    ((Y.zip H).mapM fun p => toImage p.1.rows p.1.cols p.2) =
      .ok ((Y.zip H).map fun p => ⟨p.1.rows, p.1.cols, fun r c => p.2.get (r * p.1.cols + c)⟩) := by
  induction Y generalizing H with
  | nil => rfl
  | cons y Y ih =>
    match H, hl with
    | g :: H, hl =>
      rw [List.zip_cons_cons, List.mapM_cons]
      have h0 : g.size = y.rows * y.cols := h 0 (by simp)
      rw [toImage_ok h0, ih H (by simpa using hl) (fun k hk => by
        have := h (k + 1) (by simpa using hk)
        simpa using this)]
      rfl

/-- **C129 (init_latent).** Whatever the clusterings are, the initial states have the shape of the label images and complete them. -/
theorem C129_init (sizes : List ℕ) (Y : List Grid.NMat) (pred : ℕ → ℕ → ℕ → ℕ)
    (hY : ∀ y ∈ Y, ValidImage y.rows y.cols sizes.length y.get)
    (hpred : ∀ label k r, label < sizes.length → pred label k r < sizes.getD label 0) :
    ∃ H, initLatent sizes Y pred = .ok H ∧ H.length = Y.length ∧ ∀ k (hk : k < Y.length) (hk' : k < H.length),
      H[k].rows = Y[k].rows ∧ H[k].cols = Y[k].cols ∧ CompletesImage sizes Y[k].rows Y[k].cols Y[k].get H[k].get := by
  obtain ⟨H, h1, h2, h3⟩ := C35_kmeans_init sizes (Y.map flat) pred (by
    intro y hy i hi
    obtain ⟨a, ha, rfl⟩ := List.mem_map.mp hy
    exact valid_flat (hY a ha) i hi) hpred
  rw [List.length_map] at h2
  have h3' : ∀ k (hk : k < Y.length), (H.getD k ⟨0, fun _ => 0⟩).size = Y[k].rows * Y[k].cols ∧
      ∀ i < Y[k].rows * Y[k].cols, Owns sizes ((flat Y[k]).get i) ((H.getD k ⟨0, fun _ => 0⟩).get i) := by
    intro k hk
    have := h3 k (by simpa using hk)
    rw [List.getElem_map] at this
    exact ⟨this.1, fun i hi => (this.2 i hi).2.2⟩
  refine ⟨(Y.zip H).map fun p => ⟨p.1.rows, p.1.cols, fun r c => p.2.get (r * p.1.cols + c)⟩, ?_, by simp [h2], ?_⟩
  · unfold initLatent
    rw [h1]
    simp only [bind, Except.bind]
    exact mapM_images Y H h2 fun k hk => (h3' k hk).1
  · intro k hk hk'
    rw [List.getElem_map, List.getElem_zip]
    refine ⟨rfl, rfl, fun r hr c hc => ⟨hY _ (List.getElem_mem hk) r hr c hc, ?_⟩⟩
    have := (h3' k hk).2 _ (pixel_lt hr hc)
    rw [flat_get rfl hc, List.getD_eq_getElem _ _ (by omega)] at this
    exact this

/-! ### instances -/

/-- two labels with two and one states, one feature. -/
def latentImageModel : LatentGraph.Model := ⟨[2, 1], 1, false⟩

/-- labels of the image `gridImage` of height 2 and width 3. -/
def latentImageLabels : Grid.NMat := ⟨2, 3, fun r _ => r⟩

theorem latentImage_fits : GridFits 1 gridImage := (grid_sample _ List.mem_cons_self).1

theorem latentImage_valid : ValidImage 2 3 2 latentImageLabels.get := fun _ hr _ _ => hr

theorem latentImage_pos : ∀ l < latentImageModel.nLabels, 0 < latentImageModel.nStatesPerLabel.getD l 0 := by decide

theorem latentImage_features : ∀ r < 2, ∀ c < 3, (1 : ℚ) * (∑ f ∈ range 1, |gridImage.get r c f| + 2 * 8) < 100 := by
  decide +kernel

/-- any labelling, for example the first state everywhere. -/
example : Answers 3 (fun U _ _ => .ok (.discrete ⟨U.rows, fun _ => 0⟩)) ∧ AnswersEdges 3 (fun U _ _ => .ok (.discrete ⟨U.rows, fun _ => 0⟩)) :=
  ⟨fun _ _ _ _ _ _ => ⟨_, rfl, rfl, fun _ _ => by norm_num⟩, fun _ _ _ _ _ _ => ⟨_, rfl, rfl, fun _ _ => by norm_num⟩⟩

/-- an exact AD3, weights at most one, labels of two rows. -/
example : ∃ P : Packages, (∃ z, LatentGrid.latent (backend P (.name "ad3") false) 8 latentImageModel gridImage latentImageLabels
      ⟨9, fun k => (k : ℚ) / 9⟩ = .ok z ∧ z.rows = 2 ∧ z.cols = 3 ∧ CompletesImage [2, 1] 2 3 latentImageLabels.get z.get) ∧
    (∃ z, directionalLatent (backend P (.name "ad3") false) 4 latentImageModel gridImage latentImageLabels
      ⟨21, fun k => (k : ℚ) / 21⟩ = .ok z ∧ z.rows = 2 ∧ z.cols = 3 ∧ CompletesImage [2, 1] 2 3 latentImageLabels.get z.get) := by
  obtain ⟨solve, hs⟩ := exact_ad3_exists
  let P : Packages := { idealPackages with ad3 := some (solve, fun U edges _ _ r => solve U edges ⟨0, 0, 0, fun _ _ _ => 0⟩ r) }
  refine ⟨P, ?_, ?_⟩
  · obtain ⟨z, h1, h2, h3, h4, -⟩ := C129_latent_best _ 8 (.inr rfl) latentImageModel latentImage_pos (fun _ _ => True)
      (C128_ad3 P (by decide) rfl hs false) gridImage latentImage_fits (fun _ _ => trivial) latentImageLabels rfl rfl latentImage_valid
      ⟨9, fun k => (k : ℚ) / 9⟩ rfl 1 (by norm_num) (by decide +kernel) (by exact_mod_cast latentImage_features)
    exact ⟨z, h1, h2, h3, h4⟩
  · obtain ⟨z, h1, h2, h3, h4, -⟩ := C129_directional_best _ latentImageModel latentImage_pos (fun _ _ => True)
      (ad3_decodes_edges P (by decide) rfl hs false) gridImage latentImage_fits (fun _ _ => trivial) latentImageLabels rfl rfl
      latentImage_valid ⟨21, fun k => (k : ℚ) / 21⟩ rfl 1 (by norm_num) (by decide +kernel) (fun r hr c hc => by
        have := latentImage_features r hr c hc
        have e : gridImage.d0 = 2 := rfl
        change 1 * (∑ f ∈ range 1, _ + 8) < (100 : ℚ)
        linarith)
    exact ⟨z, h1, h2, h3, h4⟩

/-- loss-augmented inference with an exact AD3. -/
example : ∃ P : Packages, (∃ z : Grid.NMat, LatentGrid.lossAugmentedInference (backend P (.name "ad3") false) 4 latentImageModel gridImage
      ⟨2, 3, fun r c => r + c / 2⟩ ⟨9, fun k => (k : ℚ)⟩ = .ok (.discrete z) ∧ z.rows = 2 ∧ z.cols = 3) ∧
    (∃ z : Grid.NMat, directionalLossAug (backend P (.name "ad3") false) 4 latentImageModel gridImage
      ⟨2, 3, fun r c => r + c / 2⟩ ⟨21, fun k => (k : ℚ)⟩ = .ok (.discrete z) ∧ z.rows = 2 ∧ z.cols = 3) := by
  obtain ⟨solve, hs⟩ := exact_ad3_exists
  let P : Packages := { idealPackages with ad3 := some (solve, fun U edges _ _ r => solve U edges ⟨0, 0, 0, fun _ _ _ => 0⟩ r) }
  refine ⟨P, ?_, ?_⟩
  · obtain ⟨z, h1, h2, h3, -⟩ := C129_loss_augmented _ 4 (.inl rfl) latentImageModel (by decide) (fun _ _ => True)
      (C128_ad3 P (by decide) rfl hs false) gridImage latentImage_fits (fun _ _ => trivial) ⟨2, 3, fun r c => r + c / 2⟩ rfl rfl
      (show ValidImage 2 3 3 _ by unfold ValidImage; decide) ⟨9, fun k => (k : ℚ)⟩ rfl
    exact ⟨z, h1, h2, h3⟩
  · obtain ⟨z, h1, h2, h3, -⟩ := C129_directional_loss_augmented _ latentImageModel (by decide) (fun _ _ => True)
      (ad3_decodes_edges P (by decide) rfl hs false) gridImage latentImage_fits (fun _ _ => trivial) ⟨2, 3, fun r c => r + c / 2⟩ rfl rfl
      (show ValidImage 2 3 3 _ by unfold ValidImage; decide) ⟨21, fun k => (k : ℚ)⟩ rfl
    exact ⟨z, h1, h2, h3⟩

/-- prediction with an exact AD3. -/
example : ∃ P : Packages, (∃ z : Grid.NMat, LatentGrid.inference (backend P (.name "ad3") false) 8 latentImageModel gridImage
      ⟨9, fun k => (k : ℚ)⟩ = .ok (.discrete z) ∧ z.rows = 2 ∧ z.cols = 3) ∧
    (∃ z : Grid.NMat, directionalInference (backend P (.name "ad3") false) 4 latentImageModel gridImage
      ⟨21, fun k => (k : ℚ)⟩ = .ok (.discrete z) ∧ z.rows = 2 ∧ z.cols = 3) := by
  obtain ⟨solve, hs⟩ := exact_ad3_exists
  let P : Packages := { idealPackages with ad3 := some (solve, fun U edges _ _ r => solve U edges ⟨0, 0, 0, fun _ _ _ => 0⟩ r) }
  refine ⟨P, ?_, ?_⟩
  · obtain ⟨z, h1, h2, h3, -⟩ := C129_inference _ 8 (.inr rfl) latentImageModel (by decide) (fun _ _ => True)
      (C128_ad3 P (by decide) rfl hs false) gridImage latentImage_fits (fun _ _ => trivial) ⟨9, fun k => (k : ℚ)⟩ rfl
    exact ⟨z, h1, h2, h3⟩
  · obtain ⟨z, h1, h2, h3, -⟩ := C129_directional_inference _ latentImageModel (by decide) (fun _ _ => True)
      (ad3_decodes_edges P (by decide) rfl hs false) gridImage latentImage_fits (fun _ _ => trivial) ⟨21, fun k => (k : ℚ)⟩ rfl
    exact ⟨z, h1, h2, h3⟩

/-- labels of a small image of states. -/
example : (LatentGrid.labelFromLatent latentImageModel ⟨2, 2, fun r c => r + c⟩).map
    (fun z => (List.range z.rows).map fun r => (List.range z.cols).map (z.get r)) = .ok [[0, 0], [0, 1]] := by
  decide +kernel

/-- confusing the two states of the first label costs nothing. -/
example : LatentGrid.loss latentImageModel ⟨2, 2, fun r c => r + c⟩ (.discrete ⟨2, 2, fun _ _ => 0⟩) = .ok 1 := by decide +kernel

/-- initial states of the two rows. -/
example : (initLatent [2, 1] [latentImageLabels] fun l _ r => if l = 0 then r % 2 else 0).map
    (fun H => H.map fun z => (List.range z.rows).map fun r => (List.range z.cols).map (z.get r)) = .ok [[[0, 1, 0], [2, 2, 2]]] := by
  decide +kernel

end Verif.Props
