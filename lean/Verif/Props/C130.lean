import Verif.Spec.Prediction
import Verif.Props.C129

/-!
# C130: predictions of pairwise models and their score
-/

namespace Verif.Props

open Finset Verif.Common Verif.Spec Verif.Learner Verif.Dispatch Verif.EdgeFeature Verif.Lemmas
open Verif.GraphCRF (Infer)
open Verif.MaxProd (maxProductInfer)

/-! ### scores -/

theorem graph_loss_wrong {cw : Vec} {S n : ℕ} (hc : cw.size = S) {y z : Labels} (hy : y.size = n) (hv : Valid n S y.get)
    (hz : z.size = n) : graphLoss cw S (.discrete y) (.discrete z) = wrongWeight cw.get y z := by
  change okD 0 (Loss.loss (some cw) y z) = _
  rw [loss_some_ok hy hz (fun i hi => by rw [hc]; exact hv i hi)]
  change weightedHamming _ _ _ _ = _
  unfold weightedHamming wrongWeight
  rw [hy]
  exact sum_congr rfl fun i _ => by simp only [eq_comm]

theorem graph_max_weight {cw : Vec} {S n : ℕ} (hc : cw.size = S) {y : Labels} (hy : y.size = n) (hv : Valid n S y.get) :
    graphMaxLoss cw (.discrete y) = labelWeight cw.get y := by
  change okD 0 (Loss.maxLoss (some cw) y) = _
  unfold Loss.maxLoss
  simp only
  rw [if_pos (fun i hi => by rw [hc]; exact hv i (by omega))]
  rfl

theorem wrong_nonneg {cw : ℕ → ℚ} {S n : ℕ} (hcw : ∀ c < S, 0 < cw c) {y : Labels} (hy : y.size = n) (hv : Valid n S y.get)
    (z : Labels) : 0 ≤ wrongWeight cw y z ∧ wrongWeight cw y z ≤ labelWeight cw y ∧
      (wrongWeight cw y z = 0 ↔ ∀ i < y.size, z.get i = y.get i) := by
  have h : ∀ i ∈ range y.size, 0 < cw (y.get i) := fun i hi => hcw _ (hv i (by rw [← hy]; exact mem_range.mp hi))
  unfold wrongWeight labelWeight
  refine ⟨sum_nonneg fun i hi => ?_, sum_le_sum fun i hi => ?_, ?_⟩
  · split
    · exact le_rfl
    · exact (h i hi).le
  · split
    · exact (h i hi).le
    · exact le_rfl
  · rw [sum_eq_zero_iff_of_nonneg fun i hi => by
      split
      · exact le_rfl
      · exact (h i hi).le]
    constructor
    · intro h0 i hi
      have := h0 i (mem_range.mpr hi)
      by_contra hne
      rw [if_neg hne] at this
      exact (h i (mem_range.mpr hi)).ne' this
    · intro h0 i hi
      rw [if_pos (h0 i (mem_range.mp hi))]

/-- Models with the losses of `base.py` that predict labellings. -/
theorem scores_share {X : Type} {M : SModel X YVal} {S : ℕ} {cw : Vec} {nodes : X → ℕ} {good : X → Prop} {ok : (ℕ → ℚ) → Prop}
    (hl : ∀ a b, M.loss a b = graphLoss cw S a b) (hm : ∀ a, M.maxLoss a = graphMaxLoss cw a) (hc : cw.size = S)
    (hcw : ∀ c < S, 0 < cw.get c) (hn : ∀ x, good x → 1 ≤ nodes x) (hp : PredictsBest M S nodes good ok) :
    ScoresShare M S cw.get nodes good ok := by
  intro data w hne hw hd
  have hpred : ∃ pred : List Labels, predict M w (data.map Prod.fst) = pred.map .discrete ∧ pred.length = data.length ∧
      ∀ p ∈ data.zip pred, p.2.size = p.1.2.size := by
    clear hne
    induction data with
    | nil => exact ⟨[], rfl, rfl, by simp⟩
    | cons d data ih =>
      obtain ⟨pred, h1, h2, h3⟩ := ih fun d' hd' => hd d' (List.mem_cons_of_mem _ hd')
      obtain ⟨g1, g2, g3⟩ := hd d List.mem_cons_self
      obtain ⟨y, e1, e2, -⟩ := hp d.1 w g1 hw
      refine ⟨y :: pred, ?_, by simp [h2], ?_⟩
      · unfold predict at h1 ⊢
        rw [List.map_cons, List.map_cons, h1, e1, List.map_cons]
      · intro p hp'
        rw [List.zip_cons_cons, List.mem_cons] at hp'
        rcases hp' with rfl | hp'
        · exact e2.trans g2.symm
        · exact h3 p hp'
  obtain ⟨pred, h1, h2, h3⟩ := hpred
  refine ⟨pred, h1, h2, h3, ?_⟩
  have hmem : ∀ p ∈ data.zip pred, p.1 ∈ data := fun p hp' => (List.of_mem_zip hp').1
  have hs : Learner.score M (data.map fun d => .discrete d.2) (predict M w (data.map Prod.fst)) =
      1 - ((data.zip pred).map fun p => wrongWeight cw.get p.1.2 p.2).sum / (data.map fun d => labelWeight cw.get d.2).sum := by
    rw [h1]
    unfold Learner.score
    congr 2
    · rw [List.zip_map, List.map_map]
      congr 1
      refine List.map_congr_left fun p hp' => ?_
      obtain ⟨g1, g2, g3⟩ := hd _ (hmem p hp')
      change M.loss (.discrete p.1.2) (.discrete p.2) = _
      rw [hl, graph_loss_wrong hc g2 g3 ((h3 p hp').trans g2)]
    · rw [List.map_map]
      congr 1
      refine List.map_congr_left fun d hd' => ?_
      obtain ⟨g1, g2, g3⟩ := hd _ hd'
      change M.maxLoss (.discrete d.2) = _
      rw [hm, graph_max_weight hc g2 g3]
  have hpos : 0 < (data.map fun d => labelWeight cw.get d.2).sum := by
    have h0 : ∀ d ∈ data, 0 < labelWeight cw.get d.2 := fun d hd' => by
      obtain ⟨g1, g2, g3⟩ := hd _ hd'
      exact sum_pos (fun i hi => hcw _ (g3 i (by rw [← g2]; exact mem_range.mp hi)))
        ⟨0, mem_range.mpr (by rw [g2]; exact hn _ g1)⟩
    exact List.sum_pos _ (fun x hx => by
      obtain ⟨d, hd', rfl⟩ := List.mem_map.mp hx
      exact h0 d hd') (by simpa using hne)
  have hw0 : ∀ p ∈ data.zip pred, 0 ≤ wrongWeight cw.get p.1.2 p.2 ∧ wrongWeight cw.get p.1.2 p.2 ≤ labelWeight cw.get p.1.2 ∧
      (wrongWeight cw.get p.1.2 p.2 = 0 ↔ ∀ i < p.1.2.size, p.2.get i = p.1.2.get i) := fun p hp' => by
    obtain ⟨g1, g2, g3⟩ := hd _ (hmem p hp')
    exact wrong_nonneg hcw g2 g3 _
  have hsum0 := list_sum_nonneg (data.zip pred) (fun p => wrongWeight cw.get p.1.2 p.2) fun p hp' => (hw0 p hp').1
  have hsum1 := list_sum_le (data.zip pred) (fun p => wrongWeight cw.get p.1.2 p.2) (fun p => labelWeight cw.get p.1.2)
    fun p hp' => (hw0 p hp').2.1
  have hz : (data.zip pred).map (fun p => labelWeight cw.get p.1.2) = data.map fun d => labelWeight cw.get d.2 := by
    conv_rhs => rw [← List.map_fst_zip (l₁ := data) (l₂ := pred) (by omega)]
    rw [List.map_map]
    rfl
  rw [hz] at hsum1
  have hz0 := list_sum_eq_zero_iff (data.zip pred) (fun p => wrongWeight cw.get p.1.2 p.2) fun p hp' => (hw0 p hp').1
  simp only
  rw [hs]
  have hd0 := div_nonneg hsum0 hpos.le
  have hd1 := (div_le_one hpos).mpr hsum1
  refine ⟨rfl, by linarith, by linarith, ?_⟩
  constructor
  · intro h p hp' 
    refine (hw0 p hp').2.2.mp (hz0.mp ?_ p hp')
    have h' : ((data.zip pred).map fun p => wrongWeight cw.get p.1.2 p.2).sum / (data.map fun d => labelWeight cw.get d.2).sum = 0 := by
      linarith
    rcases div_eq_zero_iff.mp h' with h' | h'
    · exact h'
    · exact absurd h' hpos.ne'
  · intro h
    rw [hz0.mpr fun p hp' => (hw0 p hp').2.2.mpr (h p hp')]
    simp

/-! ### predictions -/

theorem graph_predicts {backend : Bool → Infer} {cw : Vec} {m : GraphCRF.Model} (hS : 1 ≤ m.nStates) {A : ℕ → Edges → Prop}
    (hinf : SolvesOver m.nStates (AllOrNone m.nStates A) (backend false)) :
    PredictsBest (graphModel backend cw m) m.nStates (fun x => x.features.rows) (fun x => Fits m x ∧ A x.features.rows x.edges)
      (fun _ => True) := by
  rintro ⟨f, E⟩ w ⟨⟨hn, hF, hE⟩, hA⟩ -
  simp only at hn hF hE hA ⊢
  obtain ⟨y, h1, h2, h3, h4⟩ := findsBest_over hinf hn hE hA hS (GraphCRF.PW m w) (GraphCRF.UN m f w)
  refine ⟨y, ?_, h2, h3, fun y' hy' hv' => ?_⟩
  · change okD _ (GraphCRF.inference (backend false) m ⟨f, E⟩ ⟨GraphCRF.sizeJointFeature m, w⟩) = _
    unfold GraphCRF.inference
    rw [GraphCRF.checkSizeW_ok (w := ⟨GraphCRF.sizeJointFeature m, w⟩) rfl,
      GraphCRF.unary_ok (x := ⟨f, E⟩) (w := ⟨GraphCRF.sizeJointFeature m, w⟩) hF rfl,
      GraphCRF.pairwise_ok (x := ⟨f, E⟩) (w := ⟨GraphCRF.sizeJointFeature m, w⟩) hF rfl]
    simp only [bind, Except.bind]
    rw [h1]
    rfl
  · have e : ∀ z : Labels, z.size = f.rows → Valid f.rows m.nStates z.get →
        ∑ k ∈ range (graphModel backend cw m).dim, w k * (graphModel backend cw m).jointFeature ⟨f, E⟩ (.discrete z) k =
          Spec.score f.rows E (GraphCRF.UN m f w) (fun _ => GraphCRF.PW m w) z.get := fun z hz hzv => by
      rw [← outputScore_labelling hE hzv]
      exact value_output (m := m) (x := ⟨f, E⟩) hF hE hS (.inl ⟨z, rfl, hz, hzv⟩) w
    rw [e y' hy' hv', e y h2 h3]
    exact h4 _ hv'

theorem edge_predicts {backend : Bool → Infer} {cw : Vec} {m : EdgeFeature.Model} (hmod : checkModel m = .ok ())
    (hpos : 0 < m.nEdgeFeatures) (hS : 1 ≤ m.nStates)
    {A : ℕ → Edges → Prop} (hinf : SolvesEdges m.nStates (AllOrNone m.nStates A) (backend false)) :
    PredictsBest (edgeModel backend cw m) m.nStates (fun x => x.features.rows) (fun x => EdgeFits m x ∧ A x.features.rows x.edges)
      (RespectsSymmetry m.nStates m.nFeatures m.sym m.anti) := by
  rintro ⟨f, E, ef⟩ w ⟨hfit, hA⟩ hw
  obtain ⟨hn, hF, hE, hr, hK⟩ := id hfit
  simp only at hn hF hE hr hK hA ⊢
  obtain ⟨⟨d0, d1, d2, P⟩, p1, p2, p3, p4, p5⟩ := EdgeFeature.pairwise_ok (check := EdgeFeature.checkSizeX) (m := m) (x := ⟨f, E, ef⟩)
    (w := ⟨EdgeFeature.sizeJointFeature m, w⟩) (EdgeFeature.checkSizeX_ok hF hr hK) hK hpos rfl
  simp only at p2 p3 p4 p5
  rw [hr] at p2 p5
  subst p2 p3 p4
  obtain ⟨y, h1, h2, h3, h4⟩ := (findsBest_edges hinf hn hE hA hS P).congr hE p5 (EU m f w)
  refine ⟨y, ?_, h2, h3, fun y' hy' hv' => ?_⟩
  · change okD _ (EdgeFeature.inference EdgeFeature.checkSizeX (backend false) m ⟨f, E, ef⟩ ⟨EdgeFeature.sizeJointFeature m, w⟩) = _
    unfold EdgeFeature.inference
    rw [GraphCRF.checkSizeW_ok (w := ⟨EdgeFeature.sizeJointFeature m, w⟩) rfl,
      EdgeFeature.unary_ok (x := ⟨f, E, ef⟩) (w := ⟨EdgeFeature.sizeJointFeature m, w⟩) (EdgeFeature.checkSizeX_ok hF hr hK) hF rfl, p1]
    simp only [bind, Except.bind]
    rw [h1]
    rfl
  · have e : ∀ z : Labels, z.size = f.rows → Valid f.rows m.nStates z.get →
        ∑ k ∈ range (edgeModel backend cw m).dim, w k * (edgeModel backend cw m).jointFeature ⟨f, E, ef⟩ (.discrete z) k =
          Spec.score f.rows E (EU m f w) (EP m ef w) z.get := fun z hz hzv => by
      refine Eq.trans (edge_value hmod hfit (.inl ⟨z, rfl, hz, hzv⟩) w) ?_
      rw [edgeScore_labelling hE hzv]
      exact score_congr_pairs hE (fun e _ a ha b hb => symEP_eq hw ef e a b ha hb) hzv
    rw [e y' hy' hv', e y h2 h3]
    exact h4 _ hv'

/-- **C130 (GraphCRF, ChainCRF).** If inference finds best labellings on graphs with the property `A`, prediction returns labellings of
maximal score, and `score` is the weighted share of vertices with right labels. -/
theorem C130_graph (backend : Bool → Infer) (cw : Vec) (m : GraphCRF.Model) (hS : 1 ≤ m.nStates) (hc : cw.size = m.nStates)
    (hcw : ∀ c < m.nStates, 0 < cw.get c) (A : ℕ → Edges → Prop)
    (hinf : SolvesOver m.nStates (AllOrNone m.nStates A) (backend false)) :
    PredictsBest (graphModel backend cw m) m.nStates (fun x => x.features.rows) (fun x => Fits m x ∧ A x.features.rows x.edges)
      (fun _ => True) ∧
    ScoresShare (graphModel backend cw m) m.nStates cw.get (fun x => x.features.rows) (fun x => Fits m x ∧ A x.features.rows x.edges)
      (fun _ => True) :=
  ⟨graph_predicts hS hinf, scores_share (fun _ _ => rfl) (fun _ => rfl) hc hcw (fun _ h => h.1.1) (graph_predicts hS hinf)⟩

/-- **C130 (EdgeFeatureGraphCRF).** The same for weights that respect the declared symmetries, which all learned weights do
(C112). -/
theorem C130_edge (backend : Bool → Infer) (cw : Vec) (m : EdgeFeature.Model) (hmod : checkModel m = .ok ())
    (hpos : 0 < m.nEdgeFeatures) (hS : 1 ≤ m.nStates) (hc : cw.size = m.nStates)
    (hcw : ∀ c < m.nStates, 0 < cw.get c) (A : ℕ → Edges → Prop)
    (hinf : SolvesEdges m.nStates (AllOrNone m.nStates A) (backend false)) :
    PredictsBest (edgeModel backend cw m) m.nStates (fun x => x.features.rows) (fun x => EdgeFits m x ∧ A x.features.rows x.edges)
      (RespectsSymmetry m.nStates m.nFeatures m.sym m.anti) ∧
    ScoresShare (edgeModel backend cw m) m.nStates cw.get (fun x => x.features.rows)
      (fun x => EdgeFits m x ∧ A x.features.rows x.edges) (RespectsSymmetry m.nStates m.nFeatures m.sym m.anti) :=
  ⟨edge_predicts hmod hpos hS hinf,
    scores_share (fun _ _ => rfl) (fun _ => rfl) hc hcw (fun _ h => h.1.1) (edge_predicts hmod hpos hS hinf)⟩

/-! ### images -/

theorem predicts_comap {X X' : Type} {M : SModel X YVal} {S : ℕ} {nodes : X → ℕ} {good : X → Prop} {ok : (ℕ → ℚ) → Prop}
    (h : PredictsBest M S nodes good ok) (f : X' → X) (good' : X' → Prop) (hg : ∀ t, good' t → good (f t)) (M' : SModel X' YVal)
    (nodes' : X' → ℕ) (hn : ∀ t, good' t → nodes (f t) = nodes' t)
    (hdim : M'.dim = M.dim) (hjf : ∀ t, good' t → M'.jointFeature t = M.jointFeature (f t))
    (hinf : ∀ t, good' t → ∀ w, M'.inference t w = M.inference (f t) w) : PredictsBest M' S nodes' good' ok := by
  intro t w ht hw
  obtain ⟨y, h1, h2, h3, h4⟩ := h (f t) w (hg t ht) hw
  rw [hn t ht] at h2 h3 h4
  rw [hjf t ht, hdim, hinf t ht]
  exact ⟨y, h1, h2, h3, h4⟩

/-- The image fits and its grid graph has the property `A`. -/
def GridGood (nb F : ℕ) (A : ℕ → Edges → Prop) (t : Ten) : Prop :=
  GridFits F t ∧ ∀ E, Grid.gridEdges t.d0 t.d1 nb = .ok E → A (t.d0 * t.d1) E

theorem grid_predicts {backend : Bool → Infer} {cw : Vec} {nb : ℕ} (hnb : nb = 4 ∨ nb = 8) {m : GraphCRF.Model} (hS : 1 ≤ m.nStates)
    {A : ℕ → Edges → Prop} (hinf : SolvesOver m.nStates (AllOrNone m.nStates A) (backend false)) :
    PredictsBest (gridModel backend cw nb m) m.nStates (fun t => t.d0 * t.d1) (GridGood nb m.nFeatures A) (fun _ => True) := by
  refine predicts_comap (graph_predicts (backend := backend) (cw := cw) hS hinf) (gridView nb m.nFeatures) _ ?_ _ _
    (fun t ht => (gridView_fits hnb ht.1).2) rfl ?_ ?_
  · intro t ht
    refine ⟨(gridView_fits hnb ht.1).1, ?_⟩
    obtain ⟨E, hE, -, hx⟩ := gridX_ok hnb ht.1
    rw [gridView_eq hx]
    exact ht.2 E hE
  · intro t ht
    obtain ⟨E, -, -, hx⟩ := gridX_ok hnb ht.1
    rw [gridView_eq hx]
    funext y
    change gridFeature nb m t y = graphFeature m _ y
    unfold gridFeature graphFeature
    rw [hx]
    rfl
  · intro t ht w
    obtain ⟨E, -, -, hx⟩ := gridX_ok hnb ht.1
    rw [gridView_eq hx]
    change okD _ (gridInference (backend false) nb m t w) = _
    unfold gridInference
    rw [hx]
    rfl

theorem directionalInference_ok {inf : Infer} {nb : ℕ} {m : EdgeFeature.Model} {t : Ten} {x : EdgeFeature.X}
    (h : directionalX nb m.nFeatures t = .ok x) (w : W) :
    directionalInference inf nb m t w = EdgeFeature.inference checkFeatures inf m x ⟨EdgeFeature.sizeJointFeature m, w⟩ := by
  unfold directionalInference
  rw [h]
  rfl

theorem directional_predicts {backend : Bool → Infer} {cw : Vec} {S F : ℕ} (hS : 1 ≤ S)
    {A : ℕ → Edges → Prop} (hinf : SolvesEdges S (AllOrNone S A) (backend false)) :
    PredictsBest (directionalGridModel backend cw 4 S F) S (fun t => t.d0 * t.d1) (GridGood 4 F A) (fun _ => True) := by
  have h := edge_predicts (backend := backend) (cw := cw) (m := directionalModel S F 4) rfl (Nat.two_pos : 0 < 2) hS hinf
  have h' : PredictsBest (edgeModel backend cw (directionalModel S F 4)) S (fun x => x.features.rows)
      (fun x => EdgeFits (directionalModel S F 4) x ∧ A x.features.rows x.edges) (fun _ => True) :=
    fun x w hx _ => h x w hx ⟨fun k hk => absurd hk List.not_mem_nil, fun k hk => absurd hk List.not_mem_nil⟩
  refine predicts_comap h' (directionalView 4 F) _ ?_ _ _ (fun t ht => by rw [directionalView_eq ht.1]) rfl ?_ ?_
  · intro t ht
    refine ⟨directionalView_fits ht.1, ?_⟩
    rw [directionalView_eq ht.1]
    exact ht.2 _ (gridEdges_four _ _)
  · intro t ht
    have hfit := directionalView_fits (S := S) ht.1
    have hx := directionalX_view ht.1
    generalize directionalView 4 F t = x at hfit hx ⊢
    obtain ⟨-, h2, -, h3, h4⟩ := hfit
    funext y
    change directionalFeature 4 (directionalModel S F 4) t y = edgeFeature (directionalModel S F 4) x y
    rw [directionalFeature_ok hx]
    unfold edgeFeature EdgeFeature.jointFeature
    rw [EdgeFeature.checkSizeX_ok h2 h3 h4, EdgeFeature.checkFeatures_ok h2]
  · intro t ht w
    have hfit := directionalView_fits (S := S) ht.1
    have hx := directionalX_view ht.1
    generalize directionalView 4 F t = x at hfit hx ⊢
    obtain ⟨-, h2, -, h3, h4⟩ := hfit
    change okD _ (directionalInference (backend false) 4 (directionalModel S F 4) t w) =
      okD _ (EdgeFeature.inference EdgeFeature.checkSizeX (backend false) (directionalModel S F 4) x ⟨_, w⟩)
    rw [directionalInference_ok hx]
    unfold EdgeFeature.inference EdgeFeature.unaryPotentials EdgeFeature.pairwisePotentials
    rw [EdgeFeature.checkSizeX_ok h2 h3 h4, EdgeFeature.checkFeatures_ok h2]

/-- **C130 (GridCRF).** Images with 4- or 8-neighbourhood; `score` is the weighted share of pixels with right labels. -/
theorem C130_grid (backend : Bool → Infer) (cw : Vec) (nb : ℕ) (hnb : nb = 4 ∨ nb = 8) (m : GraphCRF.Model) (hS : 1 ≤ m.nStates)
    (hc : cw.size = m.nStates) (hcw : ∀ c < m.nStates, 0 < cw.get c) (A : ℕ → Edges → Prop)
    (hinf : SolvesOver m.nStates (AllOrNone m.nStates A) (backend false)) :
    PredictsBest (gridModel backend cw nb m) m.nStates (fun t => t.d0 * t.d1) (GridGood nb m.nFeatures A) (fun _ => True) ∧
    ScoresShare (gridModel backend cw nb m) m.nStates cw.get (fun t => t.d0 * t.d1) (GridGood nb m.nFeatures A) (fun _ => True) :=
  ⟨grid_predicts hnb hS hinf, scores_share (fun _ _ => rfl) (fun _ => rfl) hc hcw (fun _ h => Nat.mul_pos h.1.1 h.1.2.1)
    (grid_predicts hnb hS hinf)⟩

/-- **C130 (DirectionalGridCRF).** Images with 4-neighbourhood. -/
theorem C130_directional (backend : Bool → Infer) (cw : Vec) (S F : ℕ) (hS : 1 ≤ S)
    (hc : cw.size = S) (hcw : ∀ c < S, 0 < cw.get c) (A : ℕ → Edges → Prop)
    (hinf : SolvesEdges S (AllOrNone S A) (backend false)) :
    PredictsBest (directionalGridModel backend cw 4 S F) S (fun t => t.d0 * t.d1) (GridGood 4 F A) (fun _ => True) ∧
    ScoresShare (directionalGridModel backend cw 4 S F) S cw.get (fun t => t.d0 * t.d1) (GridGood 4 F A) (fun _ => True) :=
  ⟨directional_predicts hS hinf, scores_share (fun _ _ => rfl) (fun _ => rfl) hc hcw (fun _ h => Nat.mul_pos h.1.1 h.1.2.1)
    (directional_predicts hS hinf)⟩

/-! ### examples -/

/-- an exact AD3 on arbitrary graphs, three states, weights 1, 2, 3. -/
example : ∃ P : Packages, ∀ F : ℕ,
    ScoresShare (graphModel (backend P (.name "ad3")) ⟨3, fun c => (c : ℚ) + 1⟩ ⟨3, F, false⟩) 3 (fun c => (c : ℚ) + 1)
      (fun x => x.features.rows) (fun x => Fits ⟨3, F, false⟩ x ∧ True) (fun _ => True) ∧
    ScoresShare (gridModel (backend P (.name "ad3")) ⟨3, fun c => (c : ℚ) + 1⟩ 8 ⟨3, F, false⟩) 3 (fun c => (c : ℚ) + 1)
      (fun t => t.d0 * t.d1) (GridGood 8 F fun _ _ => True) (fun _ => True) ∧
    ScoresShare (directionalGridModel (backend P (.name "ad3")) ⟨3, fun c => (c : ℚ) + 1⟩ 4 3 F) 3 (fun c => (c : ℚ) + 1)
      (fun t => t.d0 * t.d1) (GridGood 4 F fun _ _ => True) (fun _ => True) ∧
    ScoresShare (edgeModel (backend P (.name "ad3")) ⟨3, fun c => (c : ℚ) + 1⟩ ⟨3, F, 2, [0], [1]⟩) 3 (fun c => (c : ℚ) + 1)
      (fun x => x.features.rows) (fun x => EdgeFits ⟨3, F, 2, [0], [1]⟩ x ∧ True) (RespectsSymmetry 3 F [0] [1]) := by
  obtain ⟨solve, hs⟩ := exact_ad3_exists
  let P : Packages := { idealPackages with ad3 := some (solve, fun U edges _ _ r => solve U edges ⟨0, 0, 0, fun _ _ _ => 0⟩ r) }
  have hpos : ∀ c : ℕ, c < 3 → 0 < (c : ℚ) + 1 := fun c _ => by positivity
  refine ⟨P, fun F => ⟨?_, ?_, ?_, ?_⟩⟩
  · exact (C130_graph _ ⟨3, fun c => (c : ℚ) + 1⟩ ⟨3, F, false⟩ (by norm_num) rfl hpos (fun _ _ => True)
      (C128_ad3 P (by norm_num) rfl hs false)).2
  · exact (C130_grid _ ⟨3, fun c => (c : ℚ) + 1⟩ 8 (.inr rfl) ⟨3, F, false⟩ (by norm_num) rfl hpos (fun _ _ => True)
      (C128_ad3 P (by norm_num) rfl hs false)).2
  · exact (C130_directional _ ⟨3, fun c => (c : ℚ) + 1⟩ 3 F (by norm_num) rfl hpos (fun _ _ => True)
      (ad3_decodes_edges P (by norm_num) rfl hs false)).2
  · exact (C130_edge _ ⟨3, fun c => (c : ℚ) + 1⟩ ⟨3, F, 2, [0], [1]⟩ (by rfl) (by norm_num) (by norm_num) rfl hpos (fun _ _ => True)
      (ad3_decodes_edges P (by norm_num) rfl hs false)).2

/-- an image fits, its labels are in range, and a weight vector respects the symmetries. -/
example : GridGood 8 1 (fun _ _ => True) gridImage ∧ Valid (gridImage.d0 * gridImage.d1) 3 (fun i => i % 3) ∧
    RespectsSymmetry 2 0 [0] [1] (fun k => if k = 1 ∨ k = 2 ∨ k = 5 then 1 else if k = 6 then -1 else 0) := by
  refine ⟨⟨?_, fun _ _ => trivial⟩, fun i _ => Nat.mod_lt _ (by norm_num), ?_⟩
  · unfold GridFits; decide
  · unfold RespectsSymmetry
    decide +kernel

/-- max-product on chains. -/
example (F : ℕ) : PredictsBest (graphModel (fun _ => maxProductInfer {}) ⟨3, fun c => (c : ℚ) + 1⟩ ⟨3, F, true⟩) 3 (fun x => x.features.rows)
    (fun x => Fits ⟨3, F, true⟩ x ∧ x.edges = chainEdges x.features.rows) (fun _ => True) :=
  (C130_graph _ ⟨3, fun c => (c : ℚ) + 1⟩ ⟨3, F, true⟩ (by norm_num) rfl (fun c _ => by positivity)
    (fun n edges => edges = chainEdges n) (C128_chain {} (by norm_num) false)).1

end Verif.Props
