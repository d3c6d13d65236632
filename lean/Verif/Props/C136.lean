import Verif.Spec.LatentPrediction
import Verif.Model.LatentGridInstance
import Verif.Props.C130
import Verif.Props.C131
import Verif.Props.C135

/-!
# C136: predictions of models with latent states and their score
-/

namespace Verif.Props

open Finset Verif.Common Verif.Spec Verif.Learner Verif.LatentSSVM Verif.LatentNode Verif.Lemmas Verif.Dispatch
open Verif.GraphCRF (Infer)
open Verif.MaxProd (maxProductInfer)

/-! ### what follows from single predictions -/

theorem predicts_latent {X Y H : Type} {L : LModel X Y H} {good : X → Prop} {ok : (ℕ → ℚ) → Prop} {Best : X → (ℕ → ℚ) → H → Y → Prop}
    (h : ∀ x w, good x → ok w → Best x w (L.m.inference x w) (L.labelFromLatent (L.m.inference x w))) :
    PredictsLatent L good ok Best := by
  intro xs w hx hw
  refine ⟨xs.map fun x => (L.m.inference x w, L.labelFromLatent (L.m.inference x w)), ?_, ?_, ?_⟩
  · unfold Learner.predict
    rw [List.map_map]
    rfl
  · unfold LatentSSVM.predict Learner.predict
    rw [List.map_map, List.map_map]
    rfl
  · rw [List.forall₂_map_right_iff]
    exact List.forall₂_same.mpr fun x hm => h x w (hx x hm) hw

/-- The score from losses that are between zero and the maximal loss. -/
theorem latent_scores {X Y H : Type} {L : LModel X Y H} {good : X → Y → Prop} {ok : (ℕ → ℚ) → Prop} {wrong : Y → Y → ℚ} {weight : Y → ℚ}
    {right : Y → Y → Prop}
    (hl : ∀ x y w, good x y → ok w → L.baseLoss y (L.labelFromLatent (L.m.inference x w)) = wrong y (L.labelFromLatent (L.m.inference x w)) ∧
      0 ≤ wrong y (L.labelFromLatent (L.m.inference x w)) ∧ wrong y (L.labelFromLatent (L.m.inference x w)) ≤ weight y ∧
      (wrong y (L.labelFromLatent (L.m.inference x w)) = 0 ↔ right y (L.labelFromLatent (L.m.inference x w))))
    (hm : ∀ x y, good x y → L.maxLoss y = weight y ∧ 0 < weight y) : LatentScores L good ok wrong weight right := by
  intro data w hne hw hd
  have hp : LatentSSVM.predict L w (data.map Prod.fst) = data.map fun d => L.labelFromLatent (L.m.inference d.1 w) := by
    unfold LatentSSVM.predict Learner.predict
    rw [List.map_map, List.map_map]
    rfl
  have hz : ∀ {β : Type} (f : Y × Y → β) (data : List (X × Y)),
      ((data.map Prod.snd).zip (data.map fun d => L.labelFromLatent (L.m.inference d.1 w))).map f =
      data.map fun d => f (d.2, L.labelFromLatent (L.m.inference d.1 w)) := by
    intro β f data
    induction data with
    | nil => rfl
    | cons d data ih => simp only [List.map_cons, List.zip_cons_cons, ih]
  have hz' : data.zip (data.map fun d => L.labelFromLatent (L.m.inference d.1 w)) =
      data.map fun d => (d, L.labelFromLatent (L.m.inference d.1 w)) := by
    clear hne hd hp
    induction data with
    | nil => rfl
    | cons d data ih => simp only [List.map_cons, List.zip_cons_cons, ih]
  have hs : LatentSSVM.score L w data = 1 - (data.map fun d => wrong d.2 (L.labelFromLatent (L.m.inference d.1 w))).sum /
      (data.map fun d => weight d.2).sum := by
    unfold LatentSSVM.score
    rw [hp, hz]
    congr 2
    · congr 1
      exact List.map_congr_left fun d hd' => (hl _ _ _ (hd d hd') hw).1
    · congr 1
      exact List.map_congr_left fun d hd' => (hm _ _ (hd d hd')).1
  have hpos : 0 < (data.map fun d => weight d.2).sum :=
    List.sum_pos _ (fun x hx => by
      obtain ⟨d, hd', rfl⟩ := List.mem_map.mp hx
      exact (hm _ _ (hd d hd')).2) (by simpa using hne)
  have hsum0 := list_sum_nonneg data (fun d => wrong d.2 (L.labelFromLatent (L.m.inference d.1 w)))
    fun d hd' => (hl _ _ _ (hd d hd') hw).2.1
  have hsum1 := list_sum_le data (fun d => wrong d.2 (L.labelFromLatent (L.m.inference d.1 w))) (fun d => weight d.2)
    fun d hd' => (hl _ _ _ (hd d hd') hw).2.2.1
  have hz0 := list_sum_eq_zero_iff data (fun d => wrong d.2 (L.labelFromLatent (L.m.inference d.1 w)))
    fun d hd' => (hl _ _ _ (hd d hd') hw).2.1
  have hd0 := div_nonneg hsum0 hpos.le
  have hd1 := (div_le_one hpos).mpr hsum1
  simp only
  rw [hp, hz', hs]
  refine ⟨by simp, by rw [List.map_map]; rfl, by linarith, by linarith, ?_⟩
  constructor
  · intro h p hp'
    obtain ⟨d, hd', rfl⟩ := List.mem_map.mp hp'
    refine (hl _ _ _ (hd d hd') hw).2.2.2.mp (hz0.mp ?_ d hd')
    have h' : (data.map fun d => wrong d.2 (L.labelFromLatent (L.m.inference d.1 w))).sum / (data.map fun d => weight d.2).sum = 0 := by
      linarith
    rcases div_eq_zero_iff.mp h' with h' | h'
    · exact h'
    · exact absurd h' hpos.ne'
  · intro h
    rw [hz0.mpr fun d hd' => (hl _ _ _ (hd d hd') hw).2.2.2.mpr (h _ (List.mem_map.mpr ⟨d, hd', rfl⟩))]
    simp

/-! ### losses of label arrays -/

theorem labels_wrong {cw : Vec} {S : ℕ} (hc : cw.size = S) (hcw : ∀ c < S, 0 < cw.get c) {y z : Labels} {n : ℕ} (hy : y.size = n)
    (hv : Valid n S y.get) (hz : z.size = n) :
    okD 0 (Loss.loss (some cw) y z) = wrongWeight cw.get y z ∧ 0 ≤ wrongWeight cw.get y z ∧
      wrongWeight cw.get y z ≤ labelWeight cw.get y ∧ (wrongWeight cw.get y z = 0 ↔ SameLabels y z) :=
  ⟨graph_loss_wrong hc hy hv hz, wrong_nonneg hcw hy hv z⟩

theorem labels_weight {cw : Vec} {S : ℕ} (hc : cw.size = S) (hcw : ∀ c < S, 0 < cw.get c) {y : Labels} {n : ℕ} (hn : 1 ≤ n) (hy : y.size = n)
    (hv : Valid n S y.get) : okD 0 (Loss.maxLoss (some cw) y) = labelWeight cw.get y ∧ 0 < labelWeight cw.get y :=
  ⟨graph_max_weight hc hy hv, sum_pos (fun i hi => hcw _ (hv i (by rw [← hy]; exact mem_range.mp hi)))
    ⟨0, mem_range.mpr (by rw [hy]; exact hn)⟩⟩

/-! ### LatentGraphCRF -/

theorem latentGraph_best {backend : Bool → Infer} {m : LatentGraph.Model} (hS : 1 ≤ m.nStates) {A : ℕ → Edges → Prop}
    (hinf : SolvesOver m.nStates (AllOrNone m.nStates A) (backend false)) (pred : List (GraphCRF.X × Labels) → ℕ → ℕ → ℕ → ℕ)
    (x : GraphCRF.X) (w : W) (hx : Fits m.graph x ∧ A x.features.rows x.edges) :
    BestStates m.nStatesPerLabel m.nStates x.features.rows (fun v => ∑ k ∈ range (GraphCRF.sizeJointFeature m.graph), w k *
      (latentGraphModel backend m).jointFeature x v k) ((latentGraph backend m pred).m.inference x w)
      ((latentGraph backend m pred).labelFromLatent ((latentGraph backend m pred).m.inference x w)) := by
  obtain ⟨h, h1, h2, h3, h4⟩ := graph_predicts (backend := backend) (cw := ⟨0, fun _ => 0⟩) (m := m.graph) hS hinf x w hx trivial
  have e : (latentGraph backend m pred).m.inference x w = .discrete h := h1
  have e2 : (latentGraph backend m pred).labelFromLatent (.discrete h) = ⟨h.size, fun i => labelOf m (h.get i)⟩ := by
    change okD _ (LatentGraph.labelFromLatent m h) = _
    rw [labelFromLatent_ok h2 h3]
    rfl
  rw [e, e2]
  exact ⟨⟨h, rfl, h2, h3⟩, h4, h2, h, rfl, h2, fun i hi => labelOf_spec (h3 i hi)⟩

/-- **C136 (LatentGraphCRF).** If inference finds best labellings, `predict_latent` returns latent labellings of maximal score and
`predict` the labels of their states; `score` is the share of vertices with right labels. -/
theorem C136_latent_graph (backend : Bool → Infer) (m : LatentGraph.Model) (hS : 1 ≤ m.nStates) (A : ℕ → Edges → Prop)
    (hinf : SolvesOver m.nStates (AllOrNone m.nStates A) (backend false)) (pred : List (GraphCRF.X × Labels) → ℕ → ℕ → ℕ → ℕ) :
    PredictsLatent (latentGraph backend m pred) (fun x => Fits m.graph x ∧ A x.features.rows x.edges) (fun _ => True)
      (fun x w v y => BestStates m.nStatesPerLabel m.nStates x.features.rows (fun v => ∑ k ∈ range (GraphCRF.sizeJointFeature m.graph),
        w k * (latentGraphModel backend m).jointFeature x v k) v y) ∧
    LatentScores (latentGraph backend m pred) (fun x y => (Fits m.graph x ∧ A x.features.rows x.edges) ∧ y.size = x.features.rows ∧
      Valid x.features.rows m.nLabels y.get) (fun _ => True) (wrongWeight fun _ => 1) (fun y => y.size) SameLabels := by
  refine ⟨predicts_latent fun x w hx _ => latentGraph_best hS hinf pred x w hx, latent_scores ?_ ?_⟩
  · rintro x y w ⟨hx, hs, hv⟩ -
    obtain ⟨-, -, h3, -⟩ := latentGraph_best hS hinf pred x w hx
    have := labels_wrong (cw := ⟨m.nLabels, fun _ => 1⟩) rfl (fun _ _ => one_pos) hs hv h3
    unfold labelWeight at this
    simp only [sum_const, card_range, nsmul_eq_mul, mul_one] at this
    exact this
  · rintro x y ⟨hx, hs, hv⟩
    have := labels_weight (cw := ⟨m.nLabels, fun _ => 1⟩) rfl (fun _ _ => one_pos) hx.1.1 hs hv
    unfold labelWeight at this
    simp only [sum_const, card_range, nsmul_eq_mul, mul_one] at this
    exact this

/-! ### images -/

theorem image_wrong {m : LatentGraph.Model} {h w : ℕ} {y z : Grid.NMat} (yr : y.rows = h) (yc : y.cols = w)
    (hv : ValidImage h w m.nLabels y.get) (zr : z.rows = h) (zc : z.cols = w) :
    LatentGrid.imageBaseLoss m y z = wrongImage y z ∧ 0 ≤ wrongImage y z ∧ wrongImage y z ≤ imageArea y ∧
      (wrongImage y z = 0 ↔ SameImage y z) := by
  subst yr yc
  have hvf := valid_flat hv
  have hsz : (LatentGrid.flat z).size = y.rows * y.cols := by
    change z.rows * z.cols = _
    rw [zr, zc]
  obtain ⟨h1, h2, h3, h4⟩ := labels_wrong (cw := ⟨m.nLabels, fun _ => 1⟩) rfl (fun _ _ => one_pos) (y := LatentGrid.flat y)
    (z := LatentGrid.flat z) rfl hvf hsz
  have e : wrongWeight (fun _ => 1) (LatentGrid.flat y) (LatentGrid.flat z) = wrongImage y z := by
    unfold wrongWeight wrongImage
    change ∑ i ∈ range (y.rows * y.cols), _ = _
    rw [sum_pixels]
    refine sum_congr rfl fun r _ => sum_congr rfl fun c hc => ?_
    rw [flat_get rfl (mem_range.mp hc), flat_get zc (mem_range.mp hc)]
  have e2 : labelWeight (fun _ => 1) (LatentGrid.flat y) = imageArea y := by
    unfold labelWeight imageArea
    change ∑ i ∈ range (y.rows * y.cols), (1 : ℚ) = _
    simp
  simp only at h1 h2 h3 h4
  rw [e] at h1 h2 h3 h4
  rw [e2] at h3
  refine ⟨h1, h2, h3, h4.trans ⟨fun h r hr c hc => ?_, fun h i hi => ?_⟩⟩
  · have := h (r * y.cols + c) (pixel_lt hr hc)
    rwa [flat_get rfl hc, flat_get zc hc] at this
  · obtain ⟨p, q, e⟩ := pixel_of hi
    have := h _ p _ q
    rw [← flat_get (a := y) rfl q, ← flat_get (a := z) zc q, e] at this
    exact this

theorem image_weight {m : LatentGraph.Model} {h w : ℕ} {y : Grid.NMat} (hh : 0 < h) (hw : 0 < w) (yr : y.rows = h) (yc : y.cols = w)
    (hv : ValidImage h w m.nLabels y.get) : LatentGrid.imageMaxLoss m y = imageArea y ∧ 0 < imageArea y := by
  subst yr yc
  obtain ⟨h1, h2⟩ := labels_weight (cw := ⟨m.nLabels, fun _ => 1⟩) rfl (fun _ _ => one_pos) (y := LatentGrid.flat y)
    (Nat.mul_pos hh hw) rfl (valid_flat hv)
  have e2 : labelWeight (fun _ => 1) (LatentGrid.flat y) = imageArea y := by
    unfold labelWeight imageArea
    change ∑ i ∈ range (y.rows * y.cols), (1 : ℚ) = _
    simp
  simp only at h1 h2
  rw [e2] at h1 h2
  exact ⟨h1, h2⟩

/-- both classes of images. -/
theorem image_predictions {L : LModel Ten Grid.NMat LatentGrid.ImageVal} {m : LatentGraph.Model} {good : Ten → Prop}
    (hg : ∀ t, good t → GridFits m.nFeatures t) (hlab : ∀ h, L.labelFromLatent h = LatentGrid.imageLabels m h)
    (hb : ∀ y z, L.baseLoss y z = LatentGrid.imageBaseLoss m y z) (hm : ∀ y, L.maxLoss y = LatentGrid.imageMaxLoss m y)
    {sc : Ten → (ℕ → ℚ) → (ℕ → ℕ → ℕ) → ℚ}
    (hinf : ∀ t, good t → ∀ w, ∃ z : Grid.NMat, L.m.inference t w = .discrete z ∧ z.rows = t.d0 ∧ z.cols = t.d1 ∧
      ValidImage t.d0 t.d1 m.nStates z.get ∧ ∀ z', ValidImage t.d0 t.d1 m.nStates z' → sc t w z' ≤ sc t w z.get) :
    PredictsLatent L good (fun _ => True) (fun t w v y => BestImage m.nStatesPerLabel m.nStates t.d0 t.d1 (sc t w) v y) ∧
    LatentScores L (fun t y => good t ∧ y.rows = t.d0 ∧ y.cols = t.d1 ∧ ValidImage t.d0 t.d1 m.nLabels y.get) (fun _ => True)
      wrongImage imageArea SameImage := by
  have key : ∀ t w, good t → BestImage m.nStatesPerLabel m.nStates t.d0 t.d1 (sc t w) (L.m.inference t w)
      (L.labelFromLatent (L.m.inference t w)) := by
    intro t w ht
    obtain ⟨z, h1, h2, h3, h4, h5⟩ := hinf t ht w
    obtain ⟨y, g1, g2, g3, g4⟩ := C129_labels m z (by rw [h2, h3]; exact h4)
    have e : LatentGrid.imageLabels m (.discrete z) = y := by
      change okD _ (LatentGrid.labelFromLatent m z) = _
      rw [g1]
      rfl
    rw [hlab, h1, e]
    rw [h2, h3] at g4
    exact ⟨z, rfl, h2, h3, h4, h5, g2.trans h2, g3.trans h3, g4⟩
  refine ⟨predicts_latent fun t w ht _ => key t w ht, latent_scores ?_ ?_⟩
  · rintro t y w ⟨ht, hr, hc, hv⟩ -
    obtain ⟨-, -, -, -, -, -, h6, h7, -⟩ := key t w ht
    rw [hb]
    exact image_wrong hr hc hv h6 h7
  · rintro t y ⟨ht, hr, hc, hv⟩
    rw [hm]
    exact image_weight (hg t ht).1 (hg t ht).2.1 hr hc hv

/-- **C136 (LatentGridCRF).** `predict_latent` returns images of states of maximal score and `predict` the images of their labels; `score`
is the share of pixels with right labels. -/
theorem C136_latent_grid (backend : Bool → Infer) (nb : ℕ) (hnb : nb = 4 ∨ nb = 8) (m : LatentGraph.Model) (hS : 1 ≤ m.nStates)
    (A : ℕ → Edges → Prop) (hinf : SolvesOver m.nStates (AllOrNone m.nStates A) (backend false))
    (pred : List (Ten × Grid.NMat) → ℕ → ℕ → ℕ → ℕ) :
    PredictsLatent (LatentGrid.latentGrid backend nb m pred) (GridGood nb m.nFeatures A) (fun _ => True)
      (fun t w v y => BestImage m.nStatesPerLabel m.nStates t.d0 t.d1 (gridScore nb m.graph t w) v y) ∧
    LatentScores (LatentGrid.latentGrid backend nb m pred) (fun t y => GridGood nb m.nFeatures A t ∧ y.rows = t.d0 ∧ y.cols = t.d1 ∧
      ValidImage t.d0 t.d1 m.nLabels y.get) (fun _ => True) wrongImage imageArea SameImage :=
  image_predictions (fun _ h => h.1) (fun _ => rfl) (fun _ _ => rfl) (fun _ => rfl) fun t ht w => by
    obtain ⟨z, h1, h2⟩ := C129_inference (backend false) nb hnb m hS A hinf t ht.1 ht.2 ⟨GraphCRF.sizeJointFeature m.graph, w⟩ rfl
    refine ⟨z, ?_, h2⟩
    change okD _ (LatentGrid.inference (backend false) nb m t ⟨GraphCRF.sizeJointFeature m.graph, w⟩) = _
    rw [h1]
    rfl

/-- **C136 (LatentDirectionalGridCRF).** The same with one table of couplings per direction. -/
theorem C136_latent_directional (backend : Bool → Infer) (m : LatentGraph.Model) (hS : 1 ≤ m.nStates)
    (A : ℕ → Edges → Prop) (hinf : SolvesEdges m.nStates (AllOrNone m.nStates A) (backend false))
    (pred : List (Ten × Grid.NMat) → ℕ → ℕ → ℕ → ℕ) :
    PredictsLatent (LatentGrid.latentDirectional backend 4 m pred) (GridGood 4 m.nFeatures A) (fun _ => True)
      (fun t w v y => BestImage m.nStatesPerLabel m.nStates t.d0 t.d1 (directionalScore m.nStates m.nFeatures t w) v y) ∧
    LatentScores (LatentGrid.latentDirectional backend 4 m pred) (fun t y => GridGood 4 m.nFeatures A t ∧ y.rows = t.d0 ∧
      y.cols = t.d1 ∧ ValidImage t.d0 t.d1 m.nLabels y.get) (fun _ => True) wrongImage imageArea SameImage :=
  image_predictions (fun _ h => h.1) (fun _ => rfl) (fun _ _ => rfl) (fun _ => rfl) fun t ht w => by
    obtain ⟨z, h1, h2⟩ := C129_directional_inference (backend false) m hS A hinf t ht.1 ht.2
      ⟨EdgeFeature.sizeJointFeature (LatentGrid.directional 4 m), w⟩ rfl
    refine ⟨z, ?_, h2⟩
    change okD _ (LatentGrid.directionalInference (backend false) 4 m t ⟨EdgeFeature.sizeJointFeature (LatentGrid.directional 4 m), w⟩) = _
    rw [h1]
    rfl

/-! ### models with hidden nodes -/

/-- losses and weights of both classes. -/
theorem hidden_scores {X : Type} {L : LModel X Labels YVal} {nL S : ℕ} {cw : Vec} (hc : cw.size = nL) (hcw : ∀ c < nL, 0 < cw.get c)
    {nv nh : X → ℕ} {good : X → Prop} {ok : (ℕ → ℚ) → Prop} {value : X → (ℕ → ℚ) → (ℕ → ℕ) → ℚ} (hn : ∀ x, good x → 1 ≤ nv x)
    (hb : ∀ y z, L.baseLoss y z = okD 0 (Loss.loss (some cw) y z)) (hm : ∀ y, L.maxLoss y = okD 0 (LatentNode.maxLoss nL cw y))
    (hbest : ∀ x w, good x → ok w → BestHidden nL S (nv x) (nh x) (value x w) (L.m.inference x w)
      (L.labelFromLatent (L.m.inference x w))) :
    PredictsLatent L good ok (fun x w v y => BestHidden nL S (nv x) (nh x) (value x w) v y) ∧
    LatentScores L (fun x y => good x ∧ y.size = nv x ∧ Valid (nv x) nL y.get) ok (wrongWeight cw.get) (labelWeight cw.get)
      SameLabels := by
  refine ⟨predicts_latent fun x w hx hw => hbest x w hx hw, latent_scores ?_ ?_⟩
  · rintro x y w ⟨hx, hs, hv⟩ hw
    obtain ⟨-, -, -, -, -, -, h6, -⟩ := hbest x w hx hw
    rw [hb]
    exact labels_wrong hc hcw hs hv h6
  · rintro x y ⟨hx, hs, hv⟩
    rw [hm]
    have hl : Legal (nv x) 0 nL nL y.get := ⟨hv, fun i hi hi' => by omega⟩
    obtain ⟨s1, g1⟩ := labelFromLatent_legal (h := y) (nv := nv x) (nh := 0) (by rw [hs]; rfl) hl
    have hv' : Valid (nv x) nL (labelFromLatent nL y).get := fun i hi => by
      rw [g1 i hi]
      exact hv i hi
    obtain ⟨h1, h2⟩ := labels_weight hc hcw (hn x hx) s1 hv'
    have e : labelWeight cw.get (labelFromLatent nL y) = labelWeight cw.get y := by
      unfold labelWeight
      rw [s1, hs]
      exact sum_congr rfl fun i hi => by rw [g1 i (mem_range.mp hi)]
    rw [e] at h1 h2
    exact ⟨h1, h2⟩

theorem legal_exists {a b nL S : ℕ} (h1 : 1 ≤ nL) (h2 : nL < S) : ∃ t : ℕ → ℕ, Legal a b nL S t :=
  ⟨fun i => if i < a then 0 else nL, fun i hi => by simp only [if_pos hi]; exact h1,
    fun i hi _ => by simp only [if_neg (by omega : ¬ i < a)]; exact ⟨le_rfl, h2⟩⟩

/-- best labellings under the potentials of the model are legal if weights are small. -/
theorem plain_legal {mm : LatentNode.Model} {x : Mat} {w : ℕ → ℚ} {a b : ℕ} {U : Mat} {M : ℚ} (hU : UnarySpec mm x w a b U M)
    {edges : Edges} (hE : EdgesIn (a + b) edges) {P : ℕ → ℕ → ℕ → ℚ} {q : ℕ → ℚ}
    (hP : ∀ e < edges.length, ∀ s < mm.nStates, ∀ s' < mm.nStates, |P e s s'| ≤ q e) {β : ℕ → ℚ}
    (hvis : ∀ i < a, ∀ s < mm.nLabels, -β i ≤ U.get i s)
    (hhid : ∀ i, a ≤ i → i < a + b → ∀ s, mm.nLabels ≤ s → s < mm.nStates → -β i ≤ U.get i s) (h1 : 1 ≤ mm.nLabels)
    (h2 : 0 < mm.nHiddenStates) (hsmall : ∀ i < a + b, β i + 2 * load edges q i < 99) {g : ℕ → ℕ} (hg : Valid (a + b) mm.nStates g)
    (hbest : ∀ z, Valid (a + b) mm.nStates z → Spec.score (a + b) edges U.get P z ≤ Spec.score (a + b) edges U.get P g) :
    Legal a b mm.nLabels mm.nStates g := by
  obtain ⟨t, ht⟩ := legal_exists (a := a) (b := b) (S := mm.nStates) h1 (by unfold LatentNode.Model.nStates; omega)
  have e : augmented mm.nStates a (fun _ => 0) t U.get = U.get := by
    funext i s
    unfold augmented
    split <;> simp
  refine visible_augmented_legal hU hE hP hvis hhid (c := fun _ => 0) le_rfl (fun _ _ => le_rfl) ht (fun i hi => ?_) hg ?_
  · have := hsmall i hi
    linarith
  · rw [e]
    exact hbest

/-- An instance of a `LatentNodeCRF` with visible nodes, features of the right size, edges between its nodes, a graph with the property
`A`, and features so small that weights of norm at most `ρ` cannot outweigh a penalty of 99. -/
def NodeInstance (m : LatentNode.Model) (A : ℕ → Edges → Prop) (ρ : ℚ) (x : LatentNode.X) : Prop :=
  1 ≤ xVisible m x ∧ x.features.cols = m.nFeatures ∧
    x.features.rows = (if m.latentFeatures then xVisible m x + x.nHidden else xVisible m x) ∧
    EdgesIn (xVisible m x + x.nHidden) x.edges ∧ A (xVisible m x + x.nHidden) x.edges ∧ NodeSmall ρ 0 (xVisible m x + x.nHidden) x

/-- **C136 (LatentNodeCRF).** For short weights, `predict_latent` returns labellings in which visible nodes have labels and hidden nodes
other states, of maximal score among those, and `predict` the labels of the visible nodes; `score` is the share, by class weights, of
visible nodes with right labels. -/
theorem C136_latent_node (backend : Bool → Infer) (cw : Vec) (m : LatentNode.Model) (km : KMeans) (h1 : 1 ≤ m.nLabels)
    (h2 : 0 < m.nHiddenStates) (hc : cw.size = m.nLabels) (hcw : ∀ c < m.nLabels, 0 < cw.get c) (A : ℕ → Edges → Prop)
    (hinf : SolvesOver m.nStates (AllOrNone m.nStates A) (backend false)) (ρ : ℚ) (hρ : 0 ≤ ρ) :
    PredictsLatent (latentNode backend cw m km) (NodeInstance m A ρ) (InBall (sizeJointFeature m) (ρ ^ 2))
      (fun x w v y => BestHidden m.nLabels m.nStates (xVisible m x) x.nHidden (latentNodeScore m.nStates m.nLabels m.nFeatures
        m.latentFeatures x.features.get (xVisible m x) x.nHidden x.edges w) v y) ∧
    LatentScores (latentNode backend cw m km) (fun x y => NodeInstance m A ρ x ∧ y.size = xVisible m x ∧
      Valid (xVisible m x) m.nLabels y.get) (InBall (sizeJointFeature m) (ρ ^ 2)) (wrongWeight cw.get) (labelWeight cw.get)
      SameLabels := by
  refine hidden_scores hc hcw (fun x hx => hx.1) (fun _ _ => rfl) (fun _ => rfl) ?_
  rintro x w ⟨ha, hF, hr, hE, hA, hsm⟩ hw
  generalize xVisible m x = a at *
  have hLS := nLabels_le m
  have hn : 0 < a + x.nHidden := by omega
  have hS : 0 < m.nStates := by omega
  obtain ⟨U, M, hU, hs⟩ := LatentNode.unary_ok (w := ⟨sizeJointFeature m, w⟩) hF hr hn hS rfl
  obtain ⟨g, hg, gs, gv, hbest⟩ := findsBest_over hinf hn hE hA hS (LP m w) U.get
  obtain ⟨hv1, hv2⟩ := node_unary_ge hs hF hr (ρ := ρ) (fun k hk => hw.abs_le hρ (lt_of_lt_of_le hk (LatentNode.size_ge m)))
  have gl := plain_legal hs hE (P := fun _ => LP m w) (q := fun _ => ρ)
    (fun _ _ _ ha _ hb => node_pairwise_le hρ hw ha hb) hv1 hv2 h1 h2 (by
      intro i hi
      have := hsm i hi
      rw [load_const]
      linarith) gv hbest
  have hinf' : (latentNode backend cw m km).m.inference x w = .discrete g := by
    change okD _ (nodeInference (backend false) m x ⟨sizeJointFeature m, w⟩) = _
    unfold nodeInference
    rw [GraphCRF.checkSizeW_ok (w := ⟨sizeJointFeature m, w⟩) rfl, hU, LatentNode.pairwise_ok (w := ⟨sizeJointFeature m, w⟩) hF rfl]
    obtain ⟨ur, uc, ug⟩ := U
    have e1 := hs.rows
    have e2 := hs.cols
    simp only at e1 e2
    subst e1 e2
    simp only [bind, Except.bind]
    rw [hg]
    rfl
  obtain ⟨s1, g1⟩ := labelFromLatent_legal gs gl
  have hval : ∀ z, Legal a x.nHidden m.nLabels m.nStates z → latentNodeScore m.nStates m.nLabels m.nFeatures m.latentFeatures x.features.get a
      x.nHidden x.edges w z = Spec.score (a + x.nHidden) x.edges U.get (fun _ => LP m w) z := by
    intro z hz
    unfold Spec.score latentNodeScore
    rw [unary_sum hs hz]
    congr 1
    exact sum_congr rfl fun e _ => (LP_eq m w _ _).symm
  rw [hinf']
  refine ⟨g, rfl, gs, gl.1, gl.2, fun z z1 z2 => ?_, s1, g1⟩
  rw [hval z ⟨z1, z2⟩, hval _ gl]
  exact hbest z (Legal.valid ⟨z1, z2⟩ hLS)

/-- An instance of an `EdgeFeatureLatentNodeCRF`, as above. -/
def EdgeNodeInstance (m : EModel) (A : ℕ → Edges → Prop) (ρ : ℚ) (x : EX) : Prop :=
  1 ≤ exVisible m x ∧ x.features.cols = m.base.nFeatures ∧
    x.features.rows = (if m.base.latentFeatures then exVisible m x + x.nHidden else exVisible m x) ∧
    EdgesIn (exVisible m x + x.nHidden) x.edges ∧ x.edgeFeatures.rows = x.edges.length ∧ x.edgeFeatures.cols = m.nEdgeFeatures ∧
    A (exVisible m x + x.nHidden) x.edges ∧ EdgeNodeSmall ρ 0 (exVisible m x + x.nHidden) x

/-- **C136 (EdgeFeatureLatentNodeCRF).** The same with edge features; the weights need not have the declared symmetries. -/
theorem C136_edge_latent_node (backend : Bool → Infer) (cw : Vec) (m : EModel) (km : KMeans) (hpos : 0 < m.nEdgeFeatures)
    (h1 : 1 ≤ m.base.nLabels)
    (h2 : 0 < m.base.nHiddenStates) (hc : cw.size = m.base.nLabels) (hcw : ∀ c < m.base.nLabels, 0 < cw.get c) (A : ℕ → Edges → Prop)
    (hinf : SolvesEdges m.base.nStates (AllOrNone m.base.nStates A) (backend false)) (ρ : ℚ) (hρ : 0 ≤ ρ) :
    PredictsLatent (edgeLatentNode backend cw m km) (EdgeNodeInstance m A ρ) (InBall (eSize m) (ρ ^ 2))
      (fun x w v y => BestHidden m.base.nLabels m.base.nStates (exVisible m x) x.nHidden (latentEdgeScore m.base.nStates m.base.nLabels
        m.base.nFeatures m.nEdgeFeatures m.base.latentFeatures x.features.get (exVisible m x) x.nHidden x.edges x.edgeFeatures.get w)
        v y) ∧
    LatentScores (edgeLatentNode backend cw m km) (fun x y => EdgeNodeInstance m A ρ x ∧ y.size = exVisible m x ∧
      Valid (exVisible m x) m.base.nLabels y.get) (InBall (eSize m) (ρ ^ 2)) (wrongWeight cw.get) (labelWeight cw.get) SameLabels := by
  refine hidden_scores hc hcw (fun x hx => hx.1) (fun _ _ => rfl) (fun _ => rfl) ?_
  rintro x w ⟨ha, hF, hr, hE, hEf, hK, hA, hsm⟩ hw
  generalize exVisible m x = a at *
  have hLS := nLabels_le m.base
  have hn : 0 < a + x.nHidden := by omega
  have hS : 0 < m.base.nStates := by omega
  obtain ⟨U, M, hU, hs⟩ := eUnary_ok (w := ⟨eSize m, w⟩) hF hEf hK hr hn hS rfl
  obtain ⟨T, hT, hT0, hT1, hT2, hTe⟩ := ePairwise_ok (w := ⟨eSize m, w⟩) hF hEf hK hpos rfl
  obtain ⟨d0, d1, d2, P⟩ := T
  simp only at hT0 hT1 hT2 hTe
  subst hT0 hT1 hT2
  obtain ⟨g, hg, gs, gv, hbest⟩ := findsBest_edges hinf hn hE hA hS P U.get
  obtain ⟨hv1, hv2⟩ := node_unary_ge hs hF hr (ρ := ρ)
    (fun k hk => hw.abs_le hρ (lt_of_lt_of_le hk (Nat.le_add_right _ _)))
  have gl := plain_legal hs hE (P := P) (q := fun e => ρ * edgeMass x.edgeFeatures e)
    (fun e he _ ha _ hb => by rw [hTe e he _ ha _ hb]; exact edgeNode_pairwise_le hρ hw hK ha hb) hv1 hv2 h1 h2 (by
      intro i hi
      have := hsm i hi
      rw [load_smul]
      linarith) gv hbest
  have hinf' : (edgeLatentNode backend cw m km).m.inference x w = .discrete g := by
    change okD _ (edgeNodeInference (backend false) m x ⟨eSize m, w⟩) = _
    unfold edgeNodeInference
    rw [GraphCRF.checkSizeW_ok (w := ⟨eSize m, w⟩) rfl, hU, hT]
    obtain ⟨ur, uc, ug⟩ := U
    have e1 := hs.rows
    have e2 := hs.cols
    simp only at e1 e2
    subst e1 e2
    simp only [bind, Except.bind]
    rw [hg]
    rfl
  obtain ⟨s1, g1⟩ := labelFromLatent_legal gs gl
  have hval : ∀ z, Legal a x.nHidden m.base.nLabels m.base.nStates z → latentEdgeScore m.base.nStates m.base.nLabels
        m.base.nFeatures m.nEdgeFeatures m.base.latentFeatures x.features.get a x.nHidden x.edges x.edgeFeatures.get w z =
      Spec.score (a + x.nHidden) x.edges U.get P z := by
    intro z hz
    unfold Spec.score latentEdgeScore
    rw [unary_sum hs hz]
    congr 1
    have hv := hz.valid hLS
    refine sum_congr rfl fun e he => ?_
    have hm := hE _ (getD_mem (mem_range.mp he))
    rw [hTe e (mem_range.mp he) _ (hv _ hm.1) _ (hv _ hm.2)]
    unfold EdgeFeature.EP
    refine sum_congr rfl fun k _ => ?_
    rw [mul_comm]
    unfold EdgeFeature.EW LatentNode.Model.nInput
    simp only
    congr 2
    ring
  rw [hinf']
  refine ⟨g, rfl, gs, gl.1, gl.2, fun z z1 z2 => ?_, s1, g1⟩
  rw [hval z ⟨z1, z2⟩, hval _ gl]
  exact hbest z (Legal.valid ⟨z1, z2⟩ hLS)

/-! ### examples -/

/-- the image with its labels and an exact AD3: `score` of any weights lies between 0 and 1. -/
example : ∃ P : Packages, ∀ w : ℕ → ℚ,
    0 ≤ LatentSSVM.score (LatentGrid.latentGrid (backend P (.name "ad3")) 8 latentImageModel fun _ _ _ _ => 0) w latentImageData ∧
    LatentSSVM.score (LatentGrid.latentDirectional (backend P (.name "ad3")) 4 latentImageModel fun _ _ _ _ => 0) w latentImageData ≤ 1 := by
  obtain ⟨solve, hs⟩ := exact_ad3_exists
  let P : Packages := { idealPackages with ad3 := some (solve, fun U edges _ _ r => solve U edges ⟨0, 0, 0, fun _ _ _ => 0⟩ r) }
  have hd : ∀ nb, ∀ d ∈ latentImageData, GridGood nb latentImageModel.nFeatures (fun _ _ => True) d.1 ∧ d.2.rows = d.1.d0 ∧ d.2.cols = d.1.d1 ∧
      ValidImage d.1.d0 d.1.d1 latentImageModel.nLabels d.2.get := by
    intro nb d hd
    rw [latentImageData, List.mem_singleton] at hd
    subst hd
    exact ⟨⟨latentImage_fits, fun _ _ => trivial⟩, rfl, rfl, latentImage_valid⟩
  refine ⟨P, fun w => ⟨?_, ?_⟩⟩
  · exact ((C136_latent_grid (backend P (.name "ad3")) 8 (.inr rfl) latentImageModel (by decide) (fun _ _ => True)
      (C128_ad3 P (by decide) rfl hs false) fun _ _ _ _ => 0).2 latentImageData w (by simp [latentImageData]) trivial (hd 8)).2.2.1
  · exact ((C136_latent_directional (backend P (.name "ad3")) latentImageModel (by decide) (fun _ _ => True)
      (ad3_decodes_edges P (by decide) rfl hs false) fun _ _ _ _ => 0).2 latentImageData w (by simp [latentImageData]) trivial (hd 4)).2.2.2.1

/-- max-product on a chain of three vertices with one feature. -/
example (w : ℕ → ℚ) : (LatentSSVM.predict (latentGraph (fun _ => maxProductInfer {}) latentImageModel fun _ _ _ _ => 0) w
    [⟨⟨3, 1, fun i _ => i⟩, chainEdges 3⟩]).length = 1 := by
  obtain ⟨r, -, h2, h3⟩ := (C136_latent_graph (fun _ => maxProductInfer {}) latentImageModel (by decide) (fun n edges => edges = chainEdges n)
    (C128_chain {} (by decide) false) fun _ _ _ _ => 0).1 [⟨⟨3, 1, fun i _ => i⟩, chainEdges 3⟩] w (by
      intro x hx
      rw [List.mem_singleton] at hx
      subst hx
      exact ⟨⟨by decide, rfl, by unfold EdgesIn; decide⟩, rfl⟩) trivial
  rw [h2, List.length_map, ← h3.length_eq]
  rfl

/-- two visible nodes and a hidden one, with and without edge features. -/
theorem nodeChain_instance : (∀ d ∈ nodeChainData, NodeInstance nodeChain (fun n edges => edges = chainEdges n) 3 d.1 ∧
      d.2.size = xVisible nodeChain d.1 ∧ Valid (xVisible nodeChain d.1) nodeChain.nLabels d.2.get) ∧
    ∀ d ∈ edgeChainData, EdgeNodeInstance edgeChain (fun n edges => edges = chainEdges n) 3 d.1 ∧
      d.2.size = exVisible edgeChain d.1 ∧ Valid (exVisible edgeChain d.1) edgeChain.base.nLabels d.2.get := by
  refine ⟨fun d hd => ?_, fun d hd => ?_⟩
  · rw [nodeChainData, List.mem_singleton] at hd
    subst hd
    refine ⟨⟨by decide, rfl, rfl, by unfold EdgesIn; decide, rfl, ?_⟩, rfl, by unfold Valid; decide⟩
    unfold NodeSmall
    decide +kernel
  · rw [edgeChainData, List.mem_singleton] at hd
    subst hd
    refine ⟨⟨by decide, rfl, rfl, by unfold EdgesIn; decide, rfl, rfl, rfl, ?_⟩, rfl, by unfold Valid; decide⟩
    unfold EdgeNodeSmall
    decide +kernel

example (w : ℕ → ℚ) (hw : InBall (sizeJointFeature nodeChain) (3 ^ 2) w) :
    0 ≤ LatentSSVM.score (latentNode (fun _ => maxProductInfer {}) nodeChainWeights nodeChain splitKMeans) w nodeChainData :=
  ((C136_latent_node (fun _ => maxProductInfer {}) nodeChainWeights nodeChain splitKMeans (by decide) (by decide) rfl
    nodeChain_setup.positive (fun n edges => edges = chainEdges n) (C128_chain {} (by decide) false) 3 (by norm_num)).2 nodeChainData w
    (by simp [nodeChainData]) hw nodeChain_instance.1).2.2.1

example (w : ℕ → ℚ) (hw : InBall (eSize edgeChain) (3 ^ 2) w) :
    LatentSSVM.score (edgeLatentNode (fun _ => maxProductInfer {}) nodeChainWeights edgeChain splitKMeans) w edgeChainData ≤ 1 :=
  ((C136_edge_latent_node (fun _ => maxProductInfer {}) nodeChainWeights edgeChain splitKMeans (by decide) (by decide) (by decide) rfl
    nodeChain_setup.positive (fun n edges => edges = chainEdges n) (chain_solves_edges {} (by decide)) 3 (by norm_num)).2 edgeChainData w
    (by simp [edgeChainData]) hw nodeChain_instance.2).2.2.2.1

end Verif.Props
