import Verif.Model.GridInstance
import Verif.Spec.Grid
import Verif.Props.C13
import Verif.Props.C22
import Verif.Props.C31
import Verif.Props.C94
import Verif.Props.C111

/-!
# C115: training a `GridCRF` and a `DirectionalGridCRF`
-/

namespace Verif.Props

open Finset Verif.Common Verif.Spec Verif.Learner Verif.Dispatch Verif.Lemmas
open Verif.GraphCRF (Infer checkSizeW_ok)
open Verif.EdgeFeature

/-! ### pulling a learner back along a map of instances -/

/-- A model that maps its instances to those of another model. -/
theorem PairwiseLearner.comap {X X' : Type} {M : SModel X YVal} {S : ℕ} {cw : Vec} {nodes : X → ℕ} {edges : X → Edges}
    {good : X → Prop} {O : X → Set YVal} {bound : X → ℚ} (h : PairwiseLearner M S cw nodes edges good O bound) (f : X' → X)
    (good' : X' → Prop) (hg : ∀ t, good' t → good (f t)) (M' : SModel X' YVal) (hplain : M'.rescaleC = false)
    (hdim : M'.dim = M.dim) (hjf : ∀ t, good' t → M'.jointFeature t = M.jointFeature (f t))
    (hla : ∀ t, good' t → ∀ y w, M'.lossAug t y w true = M.lossAug (f t) y w true)
    (hloss : ∀ a b, M'.lossOf a b = M.lossOf a b) :
    PairwiseLearner M' S cw (fun t => nodes (f t)) (fun t => edges (f t)) good' (fun t => O (f t)) (fun t => bound (f t)) where
  plain := hplain
  states := h.states
  weights := h.weights
  weights_pos := h.weights_pos
  nodes_pos := fun t ht => h.nodes_pos _ (hg t ht)
  edges_in := fun t ht => h.edges_in _ (hg t ht)
  outputs := fun t ht => h.outputs _ (hg t ht)
  exact_lossAug := by
    intro t y w hy h0
    have hfe : ∀ v, (problemOf M' fun x => {v | good' x ∧ v ∈ O (f x)}).feat t v y =
        (problemOf M fun x => {v | good x ∧ v ∈ O x}).feat (f t) v y := by
      intro v
      change M'.feat t v y = M.feat (f t) v y
      rw [h.feat]
      unfold SModel.feat
      rw [hplain, hjf t hy.1]
      rfl
    have hvi : ∀ v, (problemOf M' fun x => {v | good' x ∧ v ∈ O (f x)}).violation w t y v =
        (problemOf M fun x => {v | good x ∧ v ∈ O x}).violation w (f t) y v := by
      intro v
      unfold Problem.violation Problem.value
      rw [hfe, hfe]
      change M'.lossOf y v + ∑ k ∈ Finset.range M'.dim, _ - ∑ k ∈ Finset.range M'.dim, _ =
        M.lossOf y v + ∑ k ∈ Finset.range M.dim, _ - ∑ k ∈ Finset.range M.dim, _
      rw [hdim, hloss]
    obtain ⟨h1, h2⟩ := h.exact_lossAug (f t) y w ⟨hg t hy.1, hy.2⟩ (by rw [← h0]; exact (hloss _ _).symm)
    simp only at h1 h2 ⊢
    rw [hla t hy.1]
    refine ⟨⟨hy.1, h1.2⟩, fun z hz => ?_⟩
    rw [hvi, hvi]
    exact h2 z ⟨hg t hz.1, hz.2⟩
  lossOf := fun t ht l v hl hv hr => (hloss _ _).trans (h.lossOf _ (hg t ht) l v hl hv hr)
  feature := fun t ht y z hy hz hag k hk => by
    rw [hjf t ht]
    exact h.feature _ (hg t ht) y z hy hz hag k (hdim ▸ hk)
  bound_nonneg := fun t => h.bound_nonneg _
  range := fun t ht y hy z hz => by
    rw [hjf t ht, hdim]
    exact h.range _ (hg t ht) y hy z hz

/-- A `GraphCRF` with an inference method that finds the best output. -/
theorem graph_learner {backend : Bool → Infer} {cw : Vec} {m : GraphCRF.Model} (hS : 2 ≤ m.nStates) (hc : cw.size = m.nStates)
    (hcw : ∀ c < m.nStates, 0 < cw.get c) {O : ℕ → Edges → Set YVal}
    (hO : ∀ n edges, ∀ v ∈ O n edges, IsRelaxed n m.nStates edges v) (hsolve : SolvesOver m.nStates O (backend true)) :
    PairwiseLearner (graphModel backend cw m) m.nStates cw (fun x => x.features.rows) (fun x => x.edges) (Fits m)
      (fun x => O x.features.rows x.edges) (featureBound m) := by
  have hS1 : 1 ≤ m.nStates := by omega
  exact {
    plain := rfl
    states := hS
    weights := hc
    weights_pos := hcw
    nodes_pos := fun x hx => hx.1
    edges_in := fun x hx => hx.2.2
    outputs := fun x _ v hv => hO _ _ v hv
    exact_lossAug := graph_exact hS1 hc hO true hsolve
    lossOf := fun x _ t v ht htv hv => lossOf_output hS1 hc ht htv hv
    feature := fun x hx y z hy hz hag k _ => congrFun (graphFeature_congr hx hS1 hy hz hag) k
    bound_nonneg := fun x => sum_nonneg fun _ _ => sq_nonneg _
    range := fun x hx y hy z hz =>
      graph_range (backend := backend) (cw := cw) hS1 hO [(x, y)] (featureBound m x) (by simp) (x, y) (by simp) y ⟨hx, hy⟩ z ⟨hx, hz⟩ }

/-! ### images -/

/-- The image has pixels and the right number of features. -/
def GridFits (F : ℕ) (t : Ten) : Prop := 1 ≤ t.d0 ∧ 1 ≤ t.d1 ∧ 1 ≤ F ∧ t.d2 = F

/-- The graph of an image. -/
def gridView (nb F : ℕ) (t : Ten) : GraphCRF.X := okD ⟨⟨0, 0, fun _ _ => 0⟩, []⟩ (gridX nb F t)

theorem gridFeatures_ok {F : ℕ} {t : Ten} (h : GridFits F t) :
    gridFeatures F t = .ok ⟨t.d0 * t.d1, F, fun i j => t.ravel.get (i * F + j)⟩ := by
  obtain ⟨-, -, hF, hd⟩ := h
  unfold gridFeatures
  rw [hd, if_neg (by omega), if_neg (by simp), Nat.mul_div_cancel _ (by omega)]
  unfold Vec.reshape2
  rw [if_pos (by unfold Ten.ravel; rw [hd])]

theorem ravel_pixel {F : ℕ} {t : Ten} (h : t.d2 = F) {r c f : ℕ} (hc : c < t.d1) (hf : f < F) :
    t.ravel.get ((r * t.d1 + c) * F + f) = t.get r c f := by
  unfold Ten.ravel
  simp only
  rw [h, flat_div hf, flat_mod hf, flat_div hc, flat_mod hc]

theorem gridX_ok {nb F : ℕ} (hnb : nb = 4 ∨ nb = 8) {t : Ten} (h : GridFits F t) :
    ∃ E, Grid.gridEdges t.d0 t.d1 nb = .ok E ∧ EdgesIn (t.d0 * t.d1) E ∧
      gridX nb F t = .ok ⟨⟨t.d0 * t.d1, F, fun i j => t.ravel.get (i * F + j)⟩, E⟩ := by
  obtain ⟨E, hE, hin, -⟩ := C31_grid_edges t.d0 t.d1 nb hnb
  refine ⟨E, hE, hin, ?_⟩
  unfold gridX
  rw [gridFeatures_ok h, hE]
  rfl

theorem gridView_eq {nb F : ℕ} {t : Ten} {x : GraphCRF.X} (h : gridX nb F t = .ok x) : gridView nb F t = x := by
  unfold gridView
  rw [h]
  rfl

theorem gridView_fits {nb : ℕ} (hnb : nb = 4 ∨ nb = 8) {m : GraphCRF.Model} {t : Ten} (h : GridFits m.nFeatures t) :
    Fits m (gridView nb m.nFeatures t) ∧ (gridView nb m.nFeatures t).features.rows = t.d0 * t.d1 := by
  obtain ⟨E, -, hin, hx⟩ := gridX_ok hnb h
  rw [gridView_eq hx]
  exact ⟨⟨Nat.mul_pos h.1 h.2.1, rfl, hin⟩, rfl⟩

/-- The outputs that compete for an image: `O` of its grid graph. -/
def imageOutputs (nb F : ℕ) (O : ℕ → Edges → Set YVal) (t : Ten) : Set YVal :=
  {v | GridFits F t ∧ ∃ E, Grid.gridEdges t.d0 t.d1 nb = .ok E ∧ v ∈ O (t.d0 * t.d1) E}

theorem gridView_outputs {nb F : ℕ} (hnb : nb = 4 ∨ nb = 8) {O : ℕ → Edges → Set YVal} :
    (fun t => {v | GridFits F t ∧ v ∈ O (gridView nb F t).features.rows (gridView nb F t).edges}) = imageOutputs nb F O := by
  funext t
  ext v
  constructor
  · rintro ⟨h, hv⟩
    obtain ⟨E, hE, -, hx⟩ := gridX_ok hnb h
    rw [gridView_eq hx] at hv
    exact ⟨h, E, hE, hv⟩
  · rintro ⟨h, E', hE', hv⟩
    obtain ⟨E, hE, -, hx⟩ := gridX_ok hnb h
    refine ⟨h, ?_⟩
    rw [gridView_eq hx]
    rw [hE] at hE'
    injection hE' with hE'
    rw [hE']
    exact hv

theorem grid_learner {backend : Bool → Infer} {cw : Vec} {nb : ℕ} (hnb : nb = 4 ∨ nb = 8) {m : GraphCRF.Model} (hS : 2 ≤ m.nStates)
    (hc : cw.size = m.nStates) (hcw : ∀ c < m.nStates, 0 < cw.get c) {O : ℕ → Edges → Set YVal}
    (hO : ∀ n edges, ∀ v ∈ O n edges, IsRelaxed n m.nStates edges v) (hsolve : SolvesOver m.nStates O (backend true)) :
    PairwiseLearner (gridModel backend cw nb m) m.nStates cw (fun t => (gridView nb m.nFeatures t).features.rows)
      (fun t => (gridView nb m.nFeatures t).edges) (GridFits m.nFeatures)
      (fun t => O (gridView nb m.nFeatures t).features.rows (gridView nb m.nFeatures t).edges)
      (fun t => featureBound m (gridView nb m.nFeatures t)) := by
  refine (graph_learner (backend := backend) hS hc hcw hO hsolve).comap (gridView nb m.nFeatures) (GridFits m.nFeatures)
    (fun t ht => (gridView_fits hnb ht).1) (gridModel backend cw nb m) rfl rfl ?_ ?_ (fun _ _ => rfl)
  · intro t ht
    obtain ⟨E, -, -, hx⟩ := gridX_ok hnb ht
    rw [gridView_eq hx]
    funext y
    change gridFeature nb m t y = graphFeature m _ y
    unfold gridFeature graphFeature
    rw [hx]
    rfl
  · intro t ht y w
    obtain ⟨E, -, -, hx⟩ := gridX_ok hnb ht
    rw [gridView_eq hx]
    change gridLossAug backend cw nb m t y w true = _
    cases y with
    | relaxed u p => rfl
    | discrete l =>
      unfold gridLossAug
      simp only
      rw [hx]
      rfl

/-- Every sample is an image with one label in range per pixel. -/
def GridData (S F : ℕ) (data : List (Ten × Labels)) : Prop :=
  ∀ d ∈ data, GridFits F d.1 ∧ d.2.size = d.1.d0 * d.1.d1 ∧ Valid (d.1.d0 * d.1.d1) S d.2.get

/-- **C115 (`GridCRF`, relaxed inference).** Images of any heights and widths, 4- or 8-neighbourhood, LP inference or AD3: the
one-slack learner and the Frank-Wolfe learner return weights whose risk, with relaxed labellings as competitors, is close to the
minimum. -/
theorem C115_grid_relaxed (P : Packages) (method : Method) (cw : Vec) (nb : ℕ) (hnb : nb = 4 ∨ nb = 8) (m : GraphCRF.Model)
    (hS : 2 ≤ m.nStates) (hc : cw.size = m.nStates) (hcw : ∀ c < m.nStates, 0 < cw.get c) (hP : Relaxes m.nStates P method)
    (data : List (Ten × Labels)) (hne : data ≠ []) (hd : GridData m.nStates m.nFeatures data) (R : ℚ)
    (hR : ∀ d ∈ data, featureBound m (gridView nb m.nFeatures d.1) ≤ R) :
    let M := gridModel (backend P method) cw nb m
    let outputs := imageOutputs nb m.nFeatures (relaxedOutputs m.nStates)
    OneSlackTrains M outputs (labelled data) R (totalWeight cw data) ∧
    FrankWolfeTrains M outputs (labelled data) R (totalWeight cw data) := by
  have h := (grid_learner (backend := backend P method) hnb hS hc hcw (O := relaxedOutputs m.nStates) (fun n edges v hv => hv)
    (relaxes_solves (by omega) hP)).trains data hne (fun d hdm => by
      obtain ⟨h1, h2, h3⟩ := hd d hdm
      have h4 := (gridView_fits hnb h1).2
      exact ⟨h1, h2.trans h4.symm, (by rw [← h4] at h3; exact h3), fun _ hv => .inl hv⟩) R hR
  rw [gridView_outputs hnb] at h
  exact h

/-- **C115 (`GridCRF`, exact inference).** With an exact AD3 all four learners return weights whose risk is close to the minimum;
competitors are all labellings. -/
theorem C115_grid_exact (P : Packages) (solve solve') (hP : P.ad3 = some (solve, solve')) (hex : Ad3AlwaysExact solve) (cw : Vec)
    (nb : ℕ) (hnb : nb = 4 ∨ nb = 8) (m : GraphCRF.Model) (hS : 2 ≤ m.nStates) (hc : cw.size = m.nStates)
    (hcw : ∀ c < m.nStates, 0 < cw.get c) (data : List (Ten × Labels)) (hne : data ≠ []) (hd : GridData m.nStates m.nFeatures data)
    (R : ℚ) (hR : ∀ d ∈ data, featureBound m (gridView nb m.nFeatures d.1) ≤ R) :
    let M := gridModel (backend P (.name "ad3")) cw nb m
    let outputs := imageOutputs nb m.nFeatures (labellings m.nStates)
    OneSlackTrains M outputs (labelled data) R (totalWeight cw data) ∧
    ((∃ d ∈ data, 1 / 10 ^ 5 ≤ ∑ i ∈ range d.2.size, cw.get (d.2.get i)) →
      NSlackTrains M outputs graphEq (labelled data) R (totalWeight cw data)) ∧
    FrankWolfeTrains M outputs (labelled data) R (totalWeight cw data) ∧ SubgradientTrains M outputs (labelled data) := by
  have h := grid_learner (backend := backend P (.name "ad3")) hnb hS hc hcw (O := labellings m.nStates) (fun n edges v hv => .inl hv)
    (ad3_exact_solves P (by omega) hP hex true)
  have hd' : LabelledData m.nStates (fun t => (gridView nb m.nFeatures t).features.rows) (GridFits m.nFeatures)
      (fun t => labellings m.nStates (gridView nb m.nFeatures t).features.rows (gridView nb m.nFeatures t).edges) data :=
    fun d hdm => by
      obtain ⟨h1, h2, h3⟩ := hd d hdm
      have h4 := (gridView_fits hnb h1).2
      exact ⟨h1, h2.trans h4.symm, (by rw [← h4] at h3; exact h3), fun _ hv => hv⟩
  have h1 := h.trains data hne hd' R hR
  have h2 := h.trains_discrete (fun x _ v hv => hv) data hne hd' R hR
  rw [gridView_outputs hnb] at h1 h2
  exact ⟨h1.1, h2.1, h1.2, h2.2⟩

/-! ### images with directed pairs -/

/-- The graph with edge features of an image. -/
def directionalView (nb F : ℕ) (t : Ten) : EdgeFeature.X := okD ⟨⟨0, 0, fun _ _ => 0⟩, [], ⟨0, 0, fun _ _ => 0⟩⟩ (directionalX nb F t)

theorem directionalX_ok {F : ℕ} {t : Ten} (h : GridFits F t) :
    directionalX 4 F t = .ok ⟨⟨t.d0 * t.d1, F, fun i j => t.ravel.get (i * F + j)⟩, Grid.right t.d0 t.d1 ++ Grid.down t.d0 t.d1,
      Grid.edgeListToFeatures [Grid.right t.d0 t.d1, Grid.down t.d0 t.d1]⟩ := by
  unfold directionalX
  rw [gridFeatures_ok h]
  simp [Grid.gridEdges, Grid.gridEdgeLists, bind, Except.bind, pure, Except.pure]

theorem directionalView_eq {F : ℕ} {t : Ten} (h : GridFits F t) :
    directionalView 4 F t = ⟨⟨t.d0 * t.d1, F, fun i j => t.ravel.get (i * F + j)⟩, Grid.right t.d0 t.d1 ++ Grid.down t.d0 t.d1,
      Grid.edgeListToFeatures [Grid.right t.d0 t.d1, Grid.down t.d0 t.d1]⟩ := by
  unfold directionalView
  rw [directionalX_ok h]
  rfl

theorem gridEdges_four (h w : ℕ) : Grid.gridEdges h w 4 = .ok (Grid.right h w ++ Grid.down h w) := by
  simp [Grid.gridEdges, Grid.gridEdgeLists]

theorem directionalView_fits {S F : ℕ} {t : Ten} (h : GridFits F t) : EdgeFits (directionalModel S F 4) (directionalView 4 F t) := by
  rw [directionalView_eq h]
  refine ⟨Nat.mul_pos h.1 h.2.1, rfl, ?_, ?_, rfl⟩
  · obtain ⟨E, hE, hin, -⟩ := C31_grid_edges t.d0 t.d1 4 (Or.inl rfl)
    rw [gridEdges_four] at hE
    injection hE with hE
    rw [← hE] at hin
    exact hin
  · unfold Grid.edgeListToFeatures
    simp

theorem directionalView_outputs {F : ℕ} {O : ℕ → Edges → Set YVal} :
    (fun t => {v | GridFits F t ∧ v ∈ O (directionalView 4 F t).features.rows (directionalView 4 F t).edges}) = imageOutputs 4 F O := by
  funext t
  ext v
  constructor
  · rintro ⟨h, hv⟩
    rw [directionalView_eq h] at hv
    exact ⟨h, _, gridEdges_four _ _, hv⟩
  · rintro ⟨h, E', hE', hv⟩
    refine ⟨h, ?_⟩
    rw [directionalView_eq h]
    rw [gridEdges_four] at hE'
    injection hE' with hE'
    rw [← hE'] at hv
    exact hv

theorem directionalX_view {F : ℕ} {t : Ten} (h : GridFits F t) : directionalX 4 F t = .ok (directionalView 4 F t) := by
  rw [directionalView_eq h]
  exact directionalX_ok h

theorem directionalFeature_ok {nb : ℕ} {m : EdgeFeature.Model} {t : Ten} {x : EdgeFeature.X} (h : directionalX nb m.nFeatures t = .ok x)
    (y : YVal) : directionalFeature nb m t y = (okD ⟨0, fun _ => 0⟩ (EdgeFeature.jointFeature checkFeatures m x y)).get := by
  unfold directionalFeature
  rw [h]
  rfl

theorem directionalLossAug_ok {backend : Bool → Infer} {cw : Vec} {nb : ℕ} {m : EdgeFeature.Model} {t : Ten} {x : EdgeFeature.X}
    (h : directionalX nb m.nFeatures t = .ok x) (l : Labels) (w : W) (relaxed : Bool) :
    directionalLossAug backend cw nb m t (.discrete l) w relaxed = okD (.discrete l)
      (EdgeFeature.lossAugmentedInference checkFeatures (backend relaxed) cw m x l ⟨EdgeFeature.sizeJointFeature m, w⟩) := by
  unfold directionalLossAug
  simp only
  rw [h]
  rfl

theorem directional_learner {backend : Bool → Infer} {cw : Vec} {S F : ℕ} (hS : 2 ≤ S)
    (hc : cw.size = S) (hcw : ∀ c < S, 0 < cw.get c) {O : ℕ → Edges → Set YVal}
    (hO : ∀ n edges, ∀ v ∈ O n edges, IsRelaxed n S edges v) (hsolve : SolvesEdges S O (backend true)) :
    PairwiseLearner (directionalGridModel backend cw 4 S F) S cw (fun t => (directionalView 4 F t).features.rows)
      (fun t => (directionalView 4 F t).edges) (GridFits F)
      (fun t => O (directionalView 4 F t).features.rows (directionalView 4 F t).edges)
      (fun t => edgeBound (directionalModel S F 4) (directionalView 4 F t)) := by
  refine (edge_learner (backend := backend) (m := directionalModel S F 4) rfl rfl (Nat.two_pos : 0 < 2) hS hc hcw hO hsolve).comap
    (directionalView 4 F) (GridFits F) (fun t ht => directionalView_fits ht) (directionalGridModel backend cw 4 S F) rfl rfl
    ?_ ?_ (fun _ _ => rfl)
  · intro t ht
    have hfit := directionalView_fits (S := S) ht
    have hx := directionalX_view ht
    generalize directionalView 4 F t = x at hfit hx ⊢
    obtain ⟨-, h2, -, h3, h4⟩ := hfit
    funext y
    change directionalFeature 4 (directionalModel S F 4) t y = edgeFeature (directionalModel S F 4) x y
    rw [directionalFeature_ok hx]
    unfold edgeFeature EdgeFeature.jointFeature
    rw [EdgeFeature.checkSizeX_ok h2 h3 h4, EdgeFeature.checkFeatures_ok h2]
  · intro t ht y w
    have hfit := directionalView_fits (S := S) ht
    have hx := directionalX_view ht
    generalize directionalView 4 F t = x at hfit hx ⊢
    obtain ⟨-, h2, -, h3, h4⟩ := hfit
    change directionalLossAug backend cw 4 (directionalModel S F 4) t y w true = edgeLossAug backend cw (directionalModel S F 4) x y w true
    cases y with
    | relaxed u p => rfl
    | discrete l =>
      rw [directionalLossAug_ok hx]
      unfold edgeLossAug EdgeFeature.lossAugmentedInference EdgeFeature.unaryPotentials EdgeFeature.pairwisePotentials
      simp only
      rw [EdgeFeature.checkSizeX_ok h2 h3 h4, EdgeFeature.checkFeatures_ok h2]

/-- **C115 (`DirectionalGridCRF`, relaxed inference).** 4-neighbourhood, LP inference or AD3. -/
theorem C115_directional_relaxed (P : Packages) (method : Method) (cw : Vec) (S F : ℕ) (hS : 2 ≤ S) (hc : cw.size = S)
    (hcw : ∀ c < S, 0 < cw.get c) (hP : Relaxes S P method) (data : List (Ten × Labels)) (hne : data ≠ []) (hd : GridData S F data)
    (R : ℚ) (hR : ∀ d ∈ data, edgeBound (directionalModel S F 4) (directionalView 4 F d.1) ≤ R) :
    let M := directionalGridModel (backend P method) cw 4 S F
    let outputs := imageOutputs 4 F (relaxedOutputs S)
    OneSlackTrains M outputs (labelled data) R (totalWeight cw data) ∧
    FrankWolfeTrains M outputs (labelled data) R (totalWeight cw data) := by
  have h := (directional_learner (backend := backend P method) hS hc hcw (O := relaxedOutputs S) (fun n edges v hv => hv)
    (relaxes_solves_edges (by omega) hP)).trains data hne (fun d hdm => by
      obtain ⟨h1, h2, h3⟩ := hd d hdm
      have h4 : (directionalView 4 F d.1).features.rows = d.1.d0 * d.1.d1 := by rw [directionalView_eq h1]
      exact ⟨h1, h2.trans h4.symm, (by rw [← h4] at h3; exact h3), fun _ hv => .inl hv⟩) R hR
  rw [directionalView_outputs] at h
  exact h

/-- **C115 (`DirectionalGridCRF`, exact inference).** 4-neighbourhood, exact AD3, all four learners. -/
theorem C115_directional_exact (P : Packages) (solve solve') (hP : P.ad3 = some (solve, solve')) (hex : Ad3AlwaysExact solve) (cw : Vec)
    (S F : ℕ) (hS : 2 ≤ S) (hc : cw.size = S) (hcw : ∀ c < S, 0 < cw.get c) (data : List (Ten × Labels)) (hne : data ≠ [])
    (hd : GridData S F data) (R : ℚ) (hR : ∀ d ∈ data, edgeBound (directionalModel S F 4) (directionalView 4 F d.1) ≤ R) :
    let M := directionalGridModel (backend P (.name "ad3")) cw 4 S F
    let outputs := imageOutputs 4 F (labellings S)
    OneSlackTrains M outputs (labelled data) R (totalWeight cw data) ∧
    ((∃ d ∈ data, 1 / 10 ^ 5 ≤ ∑ i ∈ range d.2.size, cw.get (d.2.get i)) →
      NSlackTrains M outputs graphEq (labelled data) R (totalWeight cw data)) ∧
    FrankWolfeTrains M outputs (labelled data) R (totalWeight cw data) ∧ SubgradientTrains M outputs (labelled data) := by
  have h := directional_learner (backend := backend P (.name "ad3")) (F := F) hS hc hcw (O := labellings S) (fun n edges v hv => .inl hv)
    (ad3_exact_solves_edges P (by omega) hP hex true)
  have hd' : LabelledData S (fun t => (directionalView 4 F t).features.rows) (GridFits F)
      (fun t => labellings S (directionalView 4 F t).features.rows (directionalView 4 F t).edges) data :=
    fun d hdm => by
      obtain ⟨h1, h2, h3⟩ := hd d hdm
      have h4 : (directionalView 4 F d.1).features.rows = d.1.d0 * d.1.d1 := by rw [directionalView_eq h1]
      exact ⟨h1, h2.trans h4.symm, (by rw [← h4] at h3; exact h3), fun _ hv => hv⟩
  have h1 := h.trains data hne hd' R hR
  have h2 := h.trains_discrete (fun x _ v hv => hv) data hne hd' R hR
  rw [directionalView_outputs] at h1 h2
  exact ⟨h1.1, h2.1, h1.2, h2.2⟩

/-! ### what the weights mean -/

theorem sum_edges_map (E : Edges) (g : ℕ × ℕ → ℚ) : ∑ e ∈ range E.length, g (E.getD e (0, 0)) = (E.map g).sum := by
  induction E with
  | nil => simp
  | cons a E ih =>
    rw [List.length_cons, sum_range_succ', List.map_cons, List.sum_cons, ← ih, add_comm]
    rfl

theorem sum_columns (r c : ℕ) (f g : ℕ → ℕ → ℕ) (k : ℕ × ℕ → ℚ) :
    ((Grid.columns (Grid.NMat.ravel ⟨r, c, f⟩) (Grid.NMat.ravel ⟨r, c, g⟩)).map k).sum =
      ∑ i ∈ range r, ∑ j ∈ range c, k (f i j, g i j) := by
  rw [columns_eq, List.map_map]
  unfold List.product
  rw [List.map_flatMap]
  induction r with
  | zero => simp
  | succ r ih =>
    rw [List.range_succ, List.flatMap_append, List.sum_append, ih, sum_range_succ]
    congr 1
    rw [List.flatMap_singleton, List.map_map, sum_list_range]
    rfl

/-- Score of a labelling of an image with the same weights for all pairs of neighbours. -/
def gridScore (nb : ℕ) (m : GraphCRF.Model) (t : Ten) (w : ℕ → ℚ) (y : ℕ → ℕ → ℕ) : ℚ :=
  let P := pairWeight m.nStates m.nFeatures m.directed w
  pixelScore t.d0 t.d1 m.nFeatures t.get w y + (horizontal t.d0 t.d1 P y + vertical t.d0 t.d1 P y +
    if nb = 8 then diagonal t.d0 t.d1 P y else 0)

/-- Score of a labelling of an image with one table of weights for horizontal and one for vertical neighbours. -/
def directionalScore (S F : ℕ) (t : Ten) (w : ℕ → ℚ) (y : ℕ → ℕ → ℕ) : ℚ :=
  pixelScore t.d0 t.d1 F t.get w y + (horizontal t.d0 t.d1 (fun a b => w (S * F + (a * S + b))) y +
    vertical t.d0 t.d1 (fun a b => w (S * F + S ^ 2 + (a * S + b))) y)

/-- The labels of an image from a flat array. -/
def unflat (t : Ten) (y : Labels) (r c : ℕ) : ℕ := y.get (r * t.d1 + c)

theorem sum_pixels (h w : ℕ) (g : ℕ → ℚ) : ∑ i ∈ range (h * w), g i = ∑ r ∈ range h, ∑ c ∈ range w, g (r * w + c) := by
  induction h with
  | zero => simp
  | succ h ih => rw [Nat.succ_mul, sum_range_add, ih, sum_range_succ]

theorem pixels_eq {F : ℕ} {t : Ten} (h : t.d2 = F) (w : ℕ → ℚ) (y : Labels) :
    ∑ i ∈ range (t.d0 * t.d1), ∑ f ∈ range F, t.ravel.get (i * F + f) * w (y.get i * F + f) =
      pixelScore t.d0 t.d1 F t.get w (unflat t y) := by
  rw [sum_pixels]
  unfold pixelScore unflat
  refine sum_congr rfl fun r _ => sum_congr rfl fun c hc => sum_congr rfl fun f hf => ?_
  rw [ravel_pixel h (mem_range.mp hc) (mem_range.mp hf)]

theorem right_sum (h w : ℕ) (P : ℕ → ℕ → ℚ) (y : ℕ → ℕ) :
    ((Grid.right h w).map fun p => P (y p.1) (y p.2)).sum = horizontal h w P fun r c => y (r * w + c) := by
  unfold Grid.right
  exact sum_columns h (w - 1) (fun i j => i * w + j) (fun i j => i * w + (j + 1)) _

theorem down_sum (h w : ℕ) (P : ℕ → ℕ → ℚ) (y : ℕ → ℕ) :
    ((Grid.down h w).map fun p => P (y p.1) (y p.2)).sum = vertical h w P fun r c => y (r * w + c) := by
  unfold Grid.down
  exact sum_columns (h - 1) w (fun i j => i * w + j) (fun i j => (i + 1) * w + j) _

theorem diagonals_sum (h w : ℕ) (P : ℕ → ℕ → ℚ) (y : ℕ → ℕ) :
    ((Grid.upright h w).map fun p => P (y p.1) (y p.2)).sum + ((Grid.downright h w).map fun p => P (y p.1) (y p.2)).sum =
      diagonal h w P fun r c => y (r * w + c) := by
  unfold Grid.upright Grid.downright diagonal
  simp only [sum_add_distrib]
  congr 1
  · exact sum_columns (h - 1) (w - 1) (fun i j => (i + 1) * w + j) (fun i j => i * w + (j + 1)) _
  · exact sum_columns (h - 1) (w - 1) (fun i j => i * w + j) (fun i j => (i + 1) * w + (j + 1)) _

theorem grid_edge_sum {nb h w : ℕ} {E : Edges} (hE : Grid.gridEdges h w nb = .ok E) (P : ℕ → ℕ → ℚ) (y : ℕ → ℕ) :
    ∑ e ∈ range E.length, P (y (E.getD e (0, 0)).1) (y (E.getD e (0, 0)).2) =
      horizontal h w P (fun r c => y (r * w + c)) + vertical h w P (fun r c => y (r * w + c)) +
        if nb = 8 then diagonal h w P (fun r c => y (r * w + c)) else 0 := by
  rw [sum_edges_map E fun p => P (y p.1) (y p.2), ← right_sum, ← down_sum, ← diagonals_sum]
  by_cases h8 : nb = 8
  · subst h8
    simp only [Grid.gridEdges, Grid.gridEdgeLists] at hE
    simp at hE
    subst hE
    simp
    ring
  · by_cases h4 : nb = 4
    · subst h4
      rw [gridEdges_four] at hE
      injection hE with hE
      subst hE
      simp
    · rw [C31_bad_neighborhood _ _ _ h4 h8] at hE
      cases hE

theorem grid_score_eq {nb : ℕ} {m : GraphCRF.Model} {t : Ten} {E : Edges} (hE : Grid.gridEdges t.d0 t.d1 nb = .ok E)
    (hd : t.d2 = m.nFeatures) (w : ℕ → ℚ) (y : Labels) :
    Spec.score (t.d0 * t.d1) E (GraphCRF.UN m ⟨t.d0 * t.d1, m.nFeatures, fun i j => t.ravel.get (i * m.nFeatures + j)⟩ w)
      (fun _ => GraphCRF.PW m w) y.get = gridScore nb m t w (unflat t y) := by
  unfold Spec.score gridScore
  congr 1
  · exact pixels_eq hd w y
  · have : GraphCRF.PW m w = pairWeight m.nStates m.nFeatures m.directed w := by
      funext a b
      rw [PW_eq]
      rfl
    rw [this]
    exact grid_edge_sum hE _ _

/-- **C115 (`GridCRF`, meaning of the weights).** Weights times joint feature of a labelling is its score: per pixel its features times
the weights of its label, per pair of neighbours the weight of the pair of labels. -/
theorem C115_grid_score (backend : Bool → Infer) (cw : Vec) (nb : ℕ) (hnb : nb = 4 ∨ nb = 8) (m : GraphCRF.Model) (hS : 1 ≤ m.nStates)
    (t : Ten) (ht : GridFits m.nFeatures t) (y : Labels) (hy : y.size = t.d0 * t.d1) (hv : Valid (t.d0 * t.d1) m.nStates y.get)
    (w : ℕ → ℚ) :
    ∑ k ∈ range (gridModel backend cw nb m).dim, w k * (gridModel backend cw nb m).jointFeature t (.discrete y) k =
      gridScore nb m t w (unflat t y) := by
  obtain ⟨E, hE, hin, hx⟩ := gridX_ok hnb ht
  have hjf : (gridModel backend cw nb m).jointFeature t (.discrete y) = graphFeature m
      ⟨⟨t.d0 * t.d1, m.nFeatures, fun i j => t.ravel.get (i * m.nFeatures + j)⟩, E⟩ (.discrete y) := by
    change gridFeature nb m t _ = _
    unfold gridFeature graphFeature
    rw [hx]
    rfl
  rw [hjf]
  have := value_output (m := m) (x := ⟨⟨t.d0 * t.d1, m.nFeatures, fun i j => t.ravel.get (i * m.nFeatures + j)⟩, E⟩) rfl hin hS
    (.inl ⟨y, rfl, hy, hv⟩) w
  refine Eq.trans this ?_
  rw [outputScore_labelling hin hv]
  exact grid_score_eq hE ht.2.2.2 w y

/-- **C115 (`GridCRF`, prediction).** With an exact AD3, `inference` returns a labelling of the image of maximal score. -/
theorem C115_grid_predict (P : Packages) (solve solve') (hP : P.ad3 = some (solve, solve')) (hex : Ad3AlwaysExact solve)
    (nb : ℕ) (hnb : nb = 4 ∨ nb = 8) (m : GraphCRF.Model) (hS : 1 ≤ m.nStates) (t : Ten) (ht : GridFits m.nFeatures t) (w : ℕ → ℚ)
    (relaxed : Bool) :
    ∃ y : Labels, gridInference (backend P (.name "ad3") relaxed) nb m t w = .ok (.discrete y) ∧ y.size = t.d0 * t.d1 ∧
      Valid (t.d0 * t.d1) m.nStates y.get ∧
      ∀ y' : Labels, Valid (t.d0 * t.d1) m.nStates y'.get → gridScore nb m t w (unflat t y') ≤ gridScore nb m t w (unflat t y) := by
  obtain ⟨E, hE, hin, hx⟩ := gridX_ok hnb ht
  have hne : (labellings m.nStates (t.d0 * t.d1) E).Nonempty := ⟨.discrete ⟨_, fun _ => 0⟩, _, rfl, rfl, fun _ _ => hS⟩
  obtain ⟨v, ⟨y, rfl, h1, h2⟩, h3, h4⟩ := ad3_exact_solves P hS hP hex relaxed (t.d0 * t.d1) E (Nat.mul_pos ht.1 ht.2.1) hin hne
    (GraphCRF.UN m ⟨t.d0 * t.d1, m.nFeatures, fun i j => t.ravel.get (i * m.nFeatures + j)⟩ w) (GraphCRF.PW m w)
  refine ⟨y, ?_, h1, h2, fun y' hy' => ?_⟩
  · unfold gridInference
    rw [hx]
    change GraphCRF.inference _ m _ _ = _
    unfold GraphCRF.inference
    rw [checkSizeW_ok (w := ⟨GraphCRF.sizeJointFeature m, w⟩) rfl, GraphCRF.unary_ok (w := ⟨GraphCRF.sizeJointFeature m, w⟩) rfl rfl,
      GraphCRF.pairwise_ok (w := ⟨GraphCRF.sizeJointFeature m, w⟩) rfl rfl]
    exact h3
  · have := h4 (.discrete ⟨t.d0 * t.d1, y'.get⟩) ⟨_, rfl, rfl, hy'⟩
    rw [outputScore_labelling hin h2, outputScore_labelling hin (y := ⟨t.d0 * t.d1, y'.get⟩) hy',
      grid_score_eq hE ht.2.2.2, grid_score_eq hE ht.2.2.2] at this
    exact this

theorem directional_score_eq {S F : ℕ} {t : Ten} (hd : t.d2 = F) (w : ℕ → ℚ) (y : Labels) :
    Spec.score (t.d0 * t.d1) (Grid.right t.d0 t.d1 ++ Grid.down t.d0 t.d1)
      (EU (directionalModel S F 4) ⟨t.d0 * t.d1, F, fun i j => t.ravel.get (i * F + j)⟩ w)
      (EP (directionalModel S F 4) (Grid.edgeListToFeatures [Grid.right t.d0 t.d1, Grid.down t.d0 t.d1]) w) y.get =
    directionalScore S F t w (unflat t y) := by
  unfold Spec.score directionalScore
  congr 1
  · exact pixels_eq hd w y
  · have hP : ∀ e a b, EP (directionalModel S F 4) (Grid.edgeListToFeatures [Grid.right t.d0 t.d1, Grid.down t.d0 t.d1]) w e a b =
        if e < (Grid.right t.d0 t.d1).length then w (S * F + (a * S + b)) else w (S * F + S ^ 2 + (a * S + b)) := by
      intro e a b
      unfold EP EW Grid.edgeListToFeatures
      change ∑ k ∈ range 2, _ = _
      rw [sum_range_succ, sum_range_one]
      by_cases h : e < (Grid.right t.d0 t.d1).length
      · simp [h, directionalModel]
      · simp [h, directionalModel, Nat.add_assoc]
    simp only [hP]
    rw [List.length_append, sum_range_add]
    congr 1
    · refine Eq.trans ?_ (right_sum t.d0 t.d1 _ y.get)
      refine Eq.trans ?_ (sum_edges_map (Grid.right t.d0 t.d1) fun p => w (S * F + (y.get p.1 * S + y.get p.2)))
      refine sum_congr rfl fun e he => ?_
      rw [if_pos (mem_range.mp he), List.getD_append _ _ _ _ (mem_range.mp he)]
    · refine Eq.trans ?_ (down_sum t.d0 t.d1 _ y.get)
      refine Eq.trans ?_ (sum_edges_map (Grid.down t.d0 t.d1) fun p => w (S * F + S ^ 2 + (y.get p.1 * S + y.get p.2)))
      refine sum_congr rfl fun e _ => ?_
      rw [if_neg (by omega), List.getD_append_right _ _ _ _ (by omega), Nat.add_sub_cancel_left]

/-- **C115 (`DirectionalGridCRF`, meaning of the weights).** The first table of pair weights belongs to horizontal neighbours, the second
to vertical neighbours. -/
theorem C115_directional_score (backend : Bool → Infer) (cw : Vec) (S F : ℕ) (t : Ten) (ht : GridFits F t) (y : Labels)
    (hy : y.size = t.d0 * t.d1) (hv : Valid (t.d0 * t.d1) S y.get) (w : ℕ → ℚ) :
    ∑ k ∈ range (directionalGridModel backend cw 4 S F).dim, w k * (directionalGridModel backend cw 4 S F).jointFeature t (.discrete y) k =
      directionalScore S F t w (unflat t y) := by
  have hfit := directionalView_fits (S := S) ht
  have hx := directionalX_view ht
  have hview := directionalView_eq ht
  generalize directionalView 4 F t = x at hfit hx hview
  have hmod : checkModel (directionalModel S F 4) = .ok () := by
    unfold checkModel directionalModel
    simp
  obtain ⟨h1, h2, h5, h3, h4⟩ := id hfit
  have hjf : (directionalGridModel backend cw 4 S F).jointFeature t (.discrete y) = edgeFeature (directionalModel S F 4) x (.discrete y) := by
    change directionalFeature 4 (directionalModel S F 4) t _ = _
    rw [directionalFeature_ok hx]
    unfold edgeFeature EdgeFeature.jointFeature
    rw [EdgeFeature.checkSizeX_ok h2 h3 h4, EdgeFeature.checkFeatures_ok h2]
  have hr : x.features.rows = t.d0 * t.d1 := by rw [hview]
  rw [hjf]
  refine Eq.trans (edge_value hmod hfit (.inl ⟨y, rfl, hy.trans hr.symm, by rw [hr]; exact hv⟩) w) ?_
  rw [edgeScore_labelling h5 (by rw [hr]; exact hv), ← directional_score_eq ht.2.2.2, hview]
  unfold Spec.score
  congr 1

/-! ### the hypotheses can be met -/

/-- two states, one feature. -/
def gridCrf : GraphCRF.Model := ⟨2, 1, false⟩

/-- an image of two rows and three columns. -/
def gridImage : Ten := ⟨2, 3, 1, fun r c _ => r - c⟩

/-- the image with a labelling. -/
def gridSample : List (Ten × Labels) := [(gridImage, ⟨6, fun i => if i < 3 then 1 else 0⟩)]

theorem grid_sample : GridData 2 1 gridSample := by
  intro d hd
  rw [gridSample, List.mem_singleton] at hd
  subst hd
  exact ⟨⟨by decide, by decide, by decide, rfl⟩, rfl, by unfold Valid; decide⟩

theorem grid_bound : ∀ d ∈ gridSample, featureBound gridCrf (gridView 8 1 d.1) ≤ 1502 := by
  intro d hd
  rw [gridSample, List.mem_singleton] at hd
  subst hd
  decide +kernel

theorem directional_bound : ∀ d ∈ gridSample, edgeBound (directionalModel 2 1 4) (directionalView 4 1 d.1) ≤ 150 := by
  intro d hd
  rw [gridSample, List.mem_singleton] at hd
  subst hd
  decide +kernel

example : OneSlackTrains (gridModel (backend idealPackages (.name "lp")) ⟨2, fun _ => 1⟩ 8 gridCrf)
    (imageOutputs 8 1 (relaxedOutputs 2)) (labelled gridSample) 1502 (totalWeight ⟨2, fun _ => 1⟩ gridSample) :=
  (C115_grid_relaxed idealPackages (.name "lp") ⟨2, fun _ => 1⟩ 8 (.inr rfl) gridCrf (by decide) rfl (by decide +kernel)
    (idealPackages_relaxes _ (by decide)) gridSample (by decide) grid_sample 1502 grid_bound).1

example : FrankWolfeTrains (directionalGridModel (backend idealPackages (.name "lp")) ⟨2, fun _ => 1⟩ 4 2 1)
    (imageOutputs 4 1 (relaxedOutputs 2)) (labelled gridSample) 150 (totalWeight ⟨2, fun _ => 1⟩ gridSample) :=
  (C115_directional_relaxed idealPackages (.name "lp") ⟨2, fun _ => 1⟩ 2 1 (by decide) rfl (by decide +kernel)
    (idealPackages_relaxes _ (by decide)) gridSample (by decide) grid_sample 150 directional_bound).2

example : ∃ P : Packages,
    SubgradientTrains (gridModel (backend P (.name "ad3")) ⟨2, fun _ => 1⟩ 8 gridCrf) (imageOutputs 8 1 (labellings 2)) (labelled gridSample) ∧
    NSlackTrains (directionalGridModel (backend P (.name "ad3")) ⟨2, fun _ => 1⟩ 4 2 1) (imageOutputs 4 1 (labellings 2)) graphEq
      (labelled gridSample) 150 (totalWeight ⟨2, fun _ => 1⟩ gridSample) ∧
    ∃ y, gridInference (backend P (.name "ad3") false) 4 gridCrf gridImage (fun k => k) = .ok (.discrete y) := by
  obtain ⟨solve, hsolve⟩ := exact_ad3_exists
  refine ⟨⟨none, LP.ideal, some (solve, fun U edges _ _ r => solve U edges ⟨0, 0, 0, fun _ _ _ => 0⟩ r), none⟩, ?_, ?_, ?_⟩
  · exact (C115_grid_exact _ solve _ rfl hsolve ⟨2, fun _ => 1⟩ 8 (.inr rfl) gridCrf (by decide) rfl (by decide +kernel) gridSample
      (by decide) grid_sample 1502 grid_bound).2.2.2
  · exact (C115_directional_exact _ solve _ rfl hsolve ⟨2, fun _ => 1⟩ 2 1 (by decide) rfl (by decide +kernel) gridSample
      (by decide) grid_sample 150 directional_bound).2.1 (by decide +kernel)
  · obtain ⟨y, hy, -⟩ := C115_grid_predict
      ⟨none, LP.ideal, some (solve, fun U edges _ _ r => solve U edges ⟨0, 0, 0, fun _ _ _ => 0⟩ r), none⟩ solve _ rfl hsolve 4 (.inl rfl) gridCrf (by decide) gridImage
      ⟨by decide, by decide, by decide, rfl⟩ (fun k => k) false
    exact ⟨y, hy⟩

/-- the score of a labelling of the image with 4 pairs of horizontal and 3 pairs of vertical neighbours. -/
example : gridScore 4 gridCrf gridImage (fun k => 10 ^ k) (unflat gridImage ⟨6, fun i => if i < 3 then 1 else 0⟩) = 23170 ∧
    directionalScore 2 1 gridImage (fun k => k + 1) (unflat gridImage ⟨6, fun i => if i < 3 then 1 else 0⟩) = 39 := by
  decide +kernel

end Verif.Props
