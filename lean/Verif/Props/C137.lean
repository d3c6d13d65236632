import Verif.Spec.LatentMarginals
import Verif.Props.C136

/-!
# C137: relaxed outputs of models with hidden states
-/

namespace Verif.Props

open Finset Verif.Common Verif.Spec Verif.Learner Verif.LatentGraph Verif.LatentGrid Verif.EdgeFeature Verif.Dispatch
open Verif.GraphCRF (Infer)

theorem same_label {m : LatentGraph.Model} {s s' : ℕ} (hs : s < m.nStates) (hs' : s' < m.nStates) :
    SameLabel m.nStatesPerLabel s s' ↔ labelOf m s = labelOf m s' := by
  constructor
  · rintro ⟨l, hl, h1, h2⟩
    exact (labelOf_owns hl h1).1.trans (labelOf_owns hl h2).1.symm
  · intro h
    obtain ⟨a1, a2⟩ := labelOf_spec hs
    obtain ⟨-, b2⟩ := labelOf_spec hs'
    exact ⟨_, a1, a2, h ▸ b2⟩

/-! ### losses -/

/-- **C137 (continuous loss).** For arbitrary marginals the continuous loss counts, for every vertex, one minus the mass on the states
of the true label. -/
theorem C137_continuous_loss (m : LatentGraph.Model) (h : Labels) (hv : Valid h.size m.nStates h.get) (yhat : Mat)
    (hr : h.size ≤ yhat.rows) (hc : m.nStates ≤ yhat.cols) :
    LatentGraph.continuousLoss m h yhat = .ok (∑ i ∈ range h.size,
      (1 - ∑ s ∈ range m.nStates, if SameLabel m.nStatesPerLabel (h.get i) s then yhat.get i s else 0)) := by
  unfold LatentGraph.continuousLoss
  rw [if_neg (by omega), labelFromLatent_ok rfl hv]
  simp only [bind, Except.bind]
  refine (continuousLoss_some_ok (c := ⟨m.nLabels, fun _ => 1⟩)
    (y := ⟨h.size, fun i => labelOf m (h.get i)⟩) (m := marginalsOfLabels m yhat) hr
    (fun i hi => (labelOf_spec (hv i hi)).1) (fun i hi => (labelOf_spec (hv i hi)).1)).trans ?_
  congr 1
  refine sum_congr rfl fun i hi => ?_
  simp only [marginalsOfLabels, one_mul]
  rw [labelMarginals_fold]
  congr 1
  refine sum_congr rfl fun s hs => ?_
  have := same_label (m := m) (hv i (mem_range.mp hi)) (mem_range.mp hs)
  by_cases h' : labelOf m (h.get i) = labelOf m s
  · rw [if_pos (this.mpr h')]
    exact if_pos h'
  · rw [if_neg (fun H => h' (this.mp H))]
    exact if_neg h'

/-- **C137 (continuous loss, normalised marginals).** If the marginals of every vertex sum to one, the continuous loss is the mass on
states of other labels. -/
theorem C137_other_mass (m : LatentGraph.Model) (h : Labels) (hv : Valid h.size m.nStates h.get) (yhat : Mat)
    (hr : h.size ≤ yhat.rows) (hc : m.nStates ≤ yhat.cols) (hn : ∀ i < h.size, ∑ s ∈ range m.nStates, yhat.get i s = 1) :
    LatentGraph.continuousLoss m h yhat = .ok (otherMass m.nStatesPerLabel m.nStates h.size h.get yhat.get) := by
  rw [C137_continuous_loss m h hv yhat hr hc]
  congr 1
  unfold otherMass
  refine sum_congr rfl fun i hi => ?_
  rw [← hn i (mem_range.mp hi), ← sum_sub_distrib]
  refine sum_congr rfl fun s _ => ?_
  split <;> simp

theorem otherMass_congr {sizes : List ℕ} {S n : ℕ} {h h' : ℕ → ℕ} {μ μ' : ℕ → ℕ → ℚ} (hh : ∀ i < n, h i = h' i)
    (hμ : ∀ i < n, ∀ s < S, μ i s = μ' i s) : otherMass sizes S n h μ = otherMass sizes S n h' μ' := by
  unfold otherMass
  refine sum_congr rfl fun i hi => sum_congr rfl fun s hs => ?_
  rw [hh i (mem_range.mp hi), hμ i (mem_range.mp hi) s (mem_range.mp hs)]

/-- the loss of an output of the learner interface. -/
theorem latent_lossOf_output {backend : Bool → Infer} {m : LatentGraph.Model} (hS : 1 ≤ m.nStates) {n : ℕ} {edges : Edges} {t : Labels}
    (ht : t.size = n) (htv : Valid n m.nStates t.get) {v : YVal} (h : IsRelaxed n m.nStates edges v) :
    (latentGraphModel backend m).lossOf (.discrete t) v = otherMass m.nStatesPerLabel m.nStates n t.get (nodeMarg m.nStates v) := by
  subst ht
  rcases h with ⟨y, rfl, hs, hv⟩ | ⟨u, p, rfl, hu, hp, hpoly⟩
  · rw [latent_loss_ok rfl htv hs hv]
    unfold otherMass
    refine sum_congr rfl fun i hi => ?_
    have hi := mem_range.mp hi
    rw [sum_eq_single (y.get i)]
    · have := same_label (m := m) (htv i hi) (hv i hi)
      by_cases h' : labelOf m (t.get i) = labelOf m (y.get i)
      · rw [if_pos h', if_pos (this.mpr h')]
      · rw [if_neg h', if_neg (fun H => h' (this.mp H))]
        simp [nodeMarg]
    · intro s _ hne
      simp [nodeMarg, hne]
    · intro hn
      exact absurd (mem_range.mpr (hv i hi)) hn
  · change okD 0 (LatentGraph.continuousLoss m t ⟨u.size / m.nStates, m.nStates, _⟩) = _
    rw [C137_other_mass m t htv _ (by rw [hu, Nat.mul_div_cancel _ hS]) le_rfl (fun i hi => hpoly.normalised i hi)]
    rfl

/-! ### loss augmentation -/

/-- The potentials that loss augmentation makes. -/
def augmentedU (m : LatentGraph.Model) (t : ℕ → ℕ) (U : ℕ → ℕ → ℚ) (i s : ℕ) : ℚ :=
  if s < m.nStates ∧ labelOf m (t i) ≠ labelOf m s then U i s + 1 else U i s

theorem latent_augment_ok {m : LatentGraph.Model} {n : ℕ} {t : Labels} (ht : t.size = n) (htv : Valid n m.nStates t.get) (U : ℕ → ℕ → ℚ) :
    augment m ⟨n, m.nStates, U⟩ t = .ok ⟨n, m.nStates, augmentedU m t.get U⟩ := by
  unfold augment
  rw [labelFromLatent_ok ht htv]
  simp only
  rw [if_neg (by omega)]
  congr 2
  funext i s
  exact augment_fold _ _ _ _ _ _

theorem marginalScore_augmented {m : LatentGraph.Model} {n : ℕ} {edges : Edges} {t : ℕ → ℕ} (htv : Valid n m.nStates t)
    (U : ℕ → ℕ → ℚ) (P : ℕ → ℕ → ℕ → ℚ) (μ : ℕ → ℕ → ℚ) (ν : ℕ → ℕ → ℕ → ℚ) :
    marginalScore n m.nStates edges (augmentedU m t U) P μ ν =
      marginalScore n m.nStates edges U P μ ν + otherMass m.nStatesPerLabel m.nStates n t μ := by
  unfold marginalScore otherMass
  rw [add_right_comm, ← sum_add_distrib]
  congr 1
  refine sum_congr rfl fun i hi => ?_
  rw [← sum_add_distrib]
  refine sum_congr rfl fun s hs => ?_
  have hs := mem_range.mp hs
  have := same_label (m := m) (htv i (mem_range.mp hi)) hs
  unfold augmentedU
  by_cases h' : labelOf m (t i) = labelOf m s
  · rw [if_neg (fun H => H.2 h'), if_pos (this.mpr h')]
    ring
  · rw [if_pos ⟨hs, h'⟩, if_neg (fun H => h' (this.mp H))]
    ring

/-- **C137 (LatentGraphCRF, loss-augmented inference).** If inference finds the best of a family of labellings and relaxed labellings,
loss-augmented inference finds the one for which weights times joint feature plus loss is largest, and this loss is the mass on
states of wrong labels. -/
theorem C137_graph_loss_augmented (backend : Bool → Infer) (relaxed : Bool) (m : LatentGraph.Model) (hS : 1 ≤ m.nStates)
    (O : ℕ → Edges → Set YVal) (hO : ∀ n edges, ∀ v ∈ O n edges, IsRelaxed n m.nStates edges v)
    (hsolve : SolvesOver m.nStates O (backend relaxed)) (x : GraphCRF.X) (hx : Fits m.graph x)
    (hne : (O x.features.rows x.edges).Nonempty) (t : Labels) (ht : t.size = x.features.rows)
    (htv : Valid x.features.rows m.nStates t.get) (w : ℕ → ℚ) :
    let M := latentGraphModel backend m
    let o := M.lossAug x (.discrete t) w relaxed
    o ∈ O x.features.rows x.edges ∧
    (∀ v ∈ O x.features.rows x.edges, M.lossOf (.discrete t) v =
      otherMass m.nStatesPerLabel m.nStates x.features.rows t.get (nodeMarg m.nStates v)) ∧
    ∀ v ∈ O x.features.rows x.edges, dot M.dim w (M.jointFeature x v) + M.lossOf (.discrete t) v ≤
      dot M.dim w (M.jointFeature x o) + M.lossOf (.discrete t) o := by
  intro M o
  obtain ⟨hn, hF, hE⟩ := hx
  obtain ⟨v, hv, hinf, hmax⟩ := hsolve x.features.rows x.edges hn hE hne
    (augmentedU m t.get (GraphCRF.UN m.graph x.features w)) (GraphCRF.PW m.graph w)
  have ho : o = v := by
    change okD _ (LatentGraph.lossAugmentedInference (backend relaxed) m x t ⟨GraphCRF.sizeJointFeature m.graph, w⟩) = v
    unfold LatentGraph.lossAugmentedInference
    rw [GraphCRF.checkSizeW_ok (w := ⟨GraphCRF.sizeJointFeature m.graph, w⟩) rfl,
      GraphCRF.unary_ok (m := m.graph) (w := ⟨GraphCRF.sizeJointFeature m.graph, w⟩) hF rfl,
      GraphCRF.pairwise_ok (m := m.graph) (w := ⟨GraphCRF.sizeJointFeature m.graph, w⟩) hF rfl]
    simp only [bind, Except.bind]
    have := latent_augment_ok ht htv (GraphCRF.UN m.graph x.features w)
    change augment m ⟨x.features.rows, m.graph.nStates, GraphCRF.UN m.graph x.features w⟩ t = _ at this
    rw [this]
    simp only
    change okD _ (backend relaxed _ (.mat ⟨m.nStates, m.nStates, _⟩) _) = _
    rw [hinf]
    rfl
  have hl : ∀ v ∈ O x.features.rows x.edges, M.lossOf (.discrete t) v =
      otherMass m.nStatesPerLabel m.nStates x.features.rows t.get (nodeMarg m.nStates v) :=
    fun v hv => latent_lossOf_output hS ht htv (hO _ _ v hv)
  refine ⟨ho ▸ hv, hl, fun z hz => ?_⟩
  rw [ho, hl z hz, hl v hv]
  have e : ∀ v ∈ O x.features.rows x.edges, dot M.dim w (M.jointFeature x v) = _ :=
    fun v hv => value_output (m := m.graph) hF hE hS (hO _ _ v hv) w
  rw [e z hz, e v hv]
  have := hmax z hz
  unfold outputScore at this ⊢
  rw [marginalScore_augmented htv, marginalScore_augmented htv] at this
  exact this

/-! ### images -/

theorem relaxedImage_flat {h w S : ℕ} {edges : Edges} (hE : EdgesIn (h * w) edges) {z : ImageVal} (hz : IsRelaxedImage h w S edges z) :
    IsRelaxed (h * w) S edges (flatVal z) ∧
      ∀ i < h * w, ∀ s < S, nodeMarg S (flatVal z) i s = pixelMarg z (i / w) (i % w) s := by
  rcases hz with ⟨a, rfl, hr, hc, hv⟩ | ⟨u, p, rfl, h0, h1, h2, hp, hpoly⟩
  · subst hr hc
    refine ⟨.inl ⟨flat a, rfl, rfl, valid_flat hv⟩, fun i _ s _ => rfl⟩
  · have e : ∀ i < h * w, ∀ s < S, u.get (i / w) (i % w) s = nodeMarg S (flatVal (.relaxed u p)) i s := by
      intro i hi s hs
      obtain ⟨-, q, k⟩ := pixel_of hi
      change _ = u.ravel.get (i * S + s)
      have := ravel_pixel (t := u) h2 (r := i / w) (c := i % w) (by rw [h1]; exact q) hs
      rw [h1, k] at this
      exact this.symm
    refine ⟨.inr ⟨u.ravel, p, rfl, ?_, hp, LP.polytope_congr hE e (fun _ _ _ _ _ _ => rfl) hpoly⟩, fun i hi s hs => (e i hi s hs).symm⟩
    subst h0 h1 h2
    rfl

theorem reshape_relaxed {h w S : ℕ} {edges : Edges} (hE : EdgesIn (h * w) edges) {v : YVal} (hv : IsRelaxed (h * w) S edges v) :
    ∃ z, reshapeY S h w v = .ok z ∧ IsRelaxedImage h w S edges z ∧
      (∀ i < h * w, ∀ s < S, nodeMarg S v i s = nodeMarg S (flatVal z) i s) ∧
      ∀ e < edges.length, ∀ a < S, ∀ b < S, edgeMarg S edges v e a b = edgeMarg S edges (flatVal z) e a b := by
  rcases hv with ⟨y, rfl, hs, hv⟩ | ⟨u, p, rfl, hu, hp, hpoly⟩
  · have e : ∀ i < h * w, (flat ⟨h, w, fun r c => y.get (r * w + c)⟩).get i = y.get i := by
      intro i hi
      obtain ⟨-, -, k⟩ := pixel_of hi
      change y.get (i / w * w + i % w) = _
      rw [k]
    refine ⟨.discrete ⟨h, w, fun r c => y.get (r * w + c)⟩, reshapeY_ok hs,
      .inl ⟨_, rfl, rfl, rfl, fun r hr c hc => hv _ (pixel_lt hr hc)⟩, fun i hi s _ => ?_, fun k hk a _ b _ => ?_⟩
    · change (if s = y.get i then (1 : ℚ) else 0) = if s = (flat ⟨h, w, fun r c => y.get (r * w + c)⟩).get i then 1 else 0
      rw [e i hi]
    · have hm := hE _ (getD_mem hk)
      change (if a = y.get _ ∧ b = y.get _ then (1 : ℚ) else 0) = if a = (flat ⟨h, w, fun r c => y.get (r * w + c)⟩).get _ ∧
        b = (flat ⟨h, w, fun r c => y.get (r * w + c)⟩).get _ then 1 else 0
      rw [e _ hm.1, e _ hm.2]
  · have hres : reshapeY S h w (.relaxed u p) = .ok (.relaxed ⟨h, w, S, fun r c s => u.get ((r * w + c) * S + s)⟩ p) := by
      unfold reshapeY
      simp only
      rw [if_neg (not_not.mpr hu)]
    have e : ∀ i < h * w, ∀ s < S, nodeMarg S (.relaxed u p) i s = u.get ((i / w * w + i % w) * S + s) := by
      intro i hi s _
      obtain ⟨-, -, k⟩ := pixel_of hi
      rw [k]
      rfl
    have hz : IsRelaxedImage h w S edges (.relaxed ⟨h, w, S, fun r c s => u.get ((r * w + c) * S + s)⟩ p) :=
      .inr ⟨_, _, rfl, rfl, rfl, rfl, hp, LP.polytope_congr hE e (fun _ _ _ _ _ _ => rfl) hpoly⟩
    refine ⟨_, hres, hz, fun i hi s hs => ?_, fun _ _ _ _ _ _ => rfl⟩
    rw [(relaxedImage_flat hE hz).2 i hi s hs]
    exact e i hi s hs

/-- the mass on wrong states, pixel by pixel. -/
theorem pixelMass_flat {m : LatentGraph.Model} {h w : ℕ} {edges : Edges} (hE : EdgesIn (h * w) edges) {a : Grid.NMat}
    (hc : a.cols = w) {z : ImageVal} (hz : IsRelaxedImage h w m.nStates edges z) :
    pixelMass m.nStatesPerLabel m.nStates h w a.get z =
      otherMass m.nStatesPerLabel m.nStates (h * w) (flat a).get (nodeMarg m.nStates (flatVal z)) := by
  unfold pixelMass otherMass
  rw [sum_pixels]
  refine sum_congr rfl fun r hr => sum_congr rfl fun c hcc => sum_congr rfl fun s hs => ?_
  have hr := mem_range.mp hr
  have hcc := mem_range.mp hcc
  rw [flat_get hc hcc, (relaxedImage_flat hE hz).2 _ (pixel_lt hr hcc) s (mem_range.mp hs), flat_div hcc, flat_mod hcc]

/-- **C137 (images, loss).** The loss of an image of states or of marginals is the mass on states of wrong labels, summed over the
pixels. -/
theorem C137_image_loss (m : LatentGraph.Model) (h w : ℕ) (edges : Edges) (hE : EdgesIn (h * w) edges)
    (a : Grid.NMat) (hr : a.rows = h) (hc : a.cols = w) (ha : ValidImage h w m.nStates a.get) (z : ImageVal)
    (hz : IsRelaxedImage h w m.nStates edges z) :
    LatentGrid.loss m a z = .ok (pixelMass m.nStatesPerLabel m.nStates h w a.get z) := by
  subst hr hc
  rw [pixelMass_flat hE rfl hz]
  rcases id hz with ⟨b, rfl, br, bc, bv⟩ | ⟨u, p, rfl, h0, h1, h2, hp, hpoly⟩
  · rw [C129_loss m a b br bc ha bv, ← pixelMass_flat hE rfl hz]
    congr 1
    unfold wrongPixels pixelMass
    refine sum_congr rfl fun r hr => sum_congr rfl fun c hc => ?_
    rw [sum_eq_single (b.get r c)]
    · change (if SameLabel m.nStatesPerLabel (a.get r c) (b.get r c) then (0 : ℚ) else 1) = _
      simp [pixelMarg]
    · intro s _ hne
      simp [pixelMarg, hne]
    · intro hn
      exact absurd (mem_range.mpr (bv r (mem_range.mp hr) c (mem_range.mp hc))) hn
  · change LatentGrid.continuousLoss m a u = _
    unfold LatentGrid.continuousLoss
    rw [C137_other_mass m (flat a) (valid_flat ha) _ (by rw [h0, h1]; exact le_rfl) (le_of_eq h2.symm) (fun i hi => by
      rw [h1]; exact hpoly.normalised i hi)]
    congr 1
    refine otherMass_congr (fun _ _ => rfl) fun i hi s hs => ?_
    rw [(relaxedImage_flat hE hz).2 i hi s hs, h1]
    rfl

/-- the best flat output makes the best image. -/
theorem relaxed_image_best {m : LatentGraph.Model} {h w : ℕ} {edges : Edges} (hE : EdgesIn (h * w) edges) {a : Grid.NMat}
    (hr : a.rows = h) (hc : a.cols = w) (ha : ValidImage h w m.nStates a.get) {U : ℕ → ℕ → ℚ} {P : ℕ → ℕ → ℕ → ℚ} {v : YVal}
    (hv : IsRelaxed (h * w) m.nStates edges v)
    (hmax : ∀ v', IsRelaxed (h * w) m.nStates edges v' →
      edgeScore (h * w) m.nStates edges (augmentedU m (flat a).get U) P v' ≤
        edgeScore (h * w) m.nStates edges (augmentedU m (flat a).get U) P v) :
    ∃ z, reshapeY m.nStates h w v = .ok z ∧ IsRelaxedImage h w m.nStates edges z ∧ ∀ z', IsRelaxedImage h w m.nStates edges z' →
      edgeScore (h * w) m.nStates edges U P (flatVal z') + pixelMass m.nStatesPerLabel m.nStates h w a.get z' ≤
        edgeScore (h * w) m.nStates edges U P (flatVal z) + pixelMass m.nStatesPerLabel m.nStates h w a.get z := by
  obtain ⟨z, hz, hzr, hn, he⟩ := reshape_relaxed hE hv
  refine ⟨z, hz, hzr, fun z' hz' => ?_⟩
  have htv : Valid (h * w) m.nStates (flat a).get := by
    subst hr hc
    exact valid_flat ha
  have := hmax _ (relaxedImage_flat hE hz').1
  unfold edgeScore at this ⊢
  rw [marginalScore_congr (U := augmentedU m (flat a).get U) hn he, marginalScore_augmented htv, marginalScore_augmented htv] at this
  rw [pixelMass_flat hE hc hz', pixelMass_flat hE hc hzr]
  exact this

theorem relaxed_image_plain {S h w : ℕ} {edges : Edges} (hE : EdgesIn (h * w) edges) {U : ℕ → ℕ → ℚ} {P : ℕ → ℕ → ℕ → ℚ} {v : YVal}
    (hv : IsRelaxed (h * w) S edges v)
    (hmax : ∀ v', IsRelaxed (h * w) S edges v' → edgeScore (h * w) S edges U P v' ≤ edgeScore (h * w) S edges U P v) :
    ∃ z, reshapeY S h w v = .ok z ∧ IsRelaxedImage h w S edges z ∧ ∀ z', IsRelaxedImage h w S edges z' →
      edgeScore (h * w) S edges U P (flatVal z') ≤ edgeScore (h * w) S edges U P (flatVal z) := by
  obtain ⟨z, hz, hzr, hn, he⟩ := reshape_relaxed hE hv
  refine ⟨z, hz, hzr, fun z' hz' => ?_⟩
  have := hmax _ (relaxedImage_flat hE hz').1
  unfold edgeScore at this ⊢
  rw [marginalScore_congr (U := U) hn he] at this
  exact this

theorem relaxed_nonempty {S n : ℕ} (hS : 1 ≤ S) (edges : Edges) : (relaxedOutputs S n edges).Nonempty :=
  ⟨.discrete ⟨n, fun _ => 0⟩, .inl ⟨_, rfl, rfl, fun _ _ => hS⟩⟩

theorem grid_image_value {nb : ℕ} {m : LatentGraph.Model} (hS : 1 ≤ m.nStates) {t : Ten} {E : Edges}
    (hin : EdgesIn (t.d0 * t.d1) E) (hx : gridX nb m.nFeatures t = .ok ⟨imageFeatures m.nFeatures t, E⟩) (w : ℕ → ℚ) {z : ImageVal}
    (hz : IsRelaxedImage t.d0 t.d1 m.nStates E z) :
    dot (GraphCRF.sizeJointFeature m.graph) w (EdgeFeature.gridFeature nb m.graph t (flatVal z)) =
      edgeScore (t.d0 * t.d1) m.nStates E (GraphCRF.UN m.graph (imageFeatures m.nFeatures t) w) (fun _ => GraphCRF.PW m.graph w)
        (flatVal z) := by
  have hjf : EdgeFeature.gridFeature nb m.graph t (flatVal z) = graphFeature m.graph ⟨imageFeatures m.nFeatures t, E⟩ (flatVal z) := by
    unfold EdgeFeature.gridFeature graphFeature
    change (okD _ (do
      let x ← gridX nb m.nFeatures t
      GraphCRF.jointFeature m.graph x (flatVal z))).get = _
    rw [hx]
    rfl
  rw [hjf]
  exact value_output (m := m.graph) (x := ⟨imageFeatures m.nFeatures t, E⟩) rfl hin hS (relaxedImage_flat hin hz).1 w

/-- **C137 (LatentGridCRF, relaxed loss-augmented inference).** If inference finds the best point of the local polytope, the image of
marginals that comes back maximises weights times joint feature plus loss over all images of states and of marginals. -/
theorem C137_grid_loss_augmented (inf : Infer) (nb : ℕ) (hnb : nb = 4 ∨ nb = 8) (m : LatentGraph.Model) (hS : 1 ≤ m.nStates)
    (hinf : SolvesOver m.nStates (relaxedOutputs m.nStates) inf) (t : Ten) (ht : GridFits m.nFeatures t)
    (a : Grid.NMat) (hr : a.rows = t.d0) (hc : a.cols = t.d1) (ha : ValidImage t.d0 t.d1 m.nStates a.get) (w : Vec)
    (hw : w.size = GraphCRF.sizeJointFeature m.graph) :
    ∃ E z, Grid.gridEdges t.d0 t.d1 nb = .ok E ∧ LatentGrid.lossAugmentedInference inf nb m t a w = .ok z ∧
      IsRelaxedImage t.d0 t.d1 m.nStates E z ∧ ∀ z', IsRelaxedImage t.d0 t.d1 m.nStates E z' →
        dot w.size w.get (EdgeFeature.gridFeature nb m.graph t (flatVal z')) + okD 0 (LatentGrid.loss m a z') ≤
        dot w.size w.get (EdgeFeature.gridFeature nb m.graph t (flatVal z)) + okD 0 (LatentGrid.loss m a z) := by
  obtain ⟨E, hE, hin, hx⟩ := gridX_ok hnb ht
  have htv : Valid (t.d0 * t.d1) m.nStates (flat a).get := by
    have := valid_flat (a := a) (S := m.nStates) (by rw [hr, hc]; exact ha)
    rw [hr, hc] at this
    exact this
  obtain ⟨v, hv, h1, h2⟩ := hinf _ E (Nat.mul_pos ht.1 ht.2.1) hin (relaxed_nonempty hS E)
    (augmentedU m (flat a).get (GraphCRF.UN m.graph (imageFeatures m.nFeatures t) w.get)) (GraphCRF.PW m.graph w.get)
  obtain ⟨z, hz, hzr, hmax⟩ := relaxed_image_best hin hr hc ha (P := fun _ => GraphCRF.PW m.graph w.get) hv (fun v' hv' => h2 v' hv')
  refine ⟨E, z, hE, ?_, hzr, fun z' hz' => ?_⟩
  · unfold LatentGrid.lossAugmentedInference
    rw [hx]
    change (do
      let v ← LatentGraph.lossAugmentedInference inf m ⟨imageFeatures m.nFeatures t, E⟩ (flat a) w
      reshapeY m.nStates t.d0 t.d1 v) = _
    rw [lossAug_augmented (x := ⟨imageFeatures m.nFeatures t, E⟩) rfl hw]
    unfold augmentedCall
    have := latent_augment_ok (m := m) (t := flat a) (n := t.d0 * t.d1) (by rw [← hr, ← hc]; rfl) htv
      (GraphCRF.UN m.graph (imageFeatures m.nFeatures t) w.get)
    change (do
      let v ← (do
        let U ← augment m ⟨t.d0 * t.d1, m.nStates, GraphCRF.UN m.graph (imageFeatures m.nFeatures t) w.get⟩ (flat a)
        inf U (.mat ⟨m.nStates, m.nStates, GraphCRF.PW m.graph w.get⟩) E)
      reshapeY m.nStates t.d0 t.d1 v) = _
    rw [this]
    simp only [bind, Except.bind]
    rw [h1]
    exact hz
  · rw [hw, C137_image_loss m _ _ E hin a hr hc ha z' hz', C137_image_loss m _ _ E hin a hr hc ha z hzr,
      grid_image_value hS hin hx _ hz', grid_image_value hS hin hx _ hzr]
    exact hmax z' hz'

/-- **C137 (LatentGridCRF, relaxed inference).** -/
theorem C137_grid_inference (inf : Infer) (nb : ℕ) (hnb : nb = 4 ∨ nb = 8) (m : LatentGraph.Model) (hS : 1 ≤ m.nStates)
    (hinf : SolvesOver m.nStates (relaxedOutputs m.nStates) inf) (t : Ten) (ht : GridFits m.nFeatures t) (w : Vec)
    (hw : w.size = GraphCRF.sizeJointFeature m.graph) :
    ∃ E z, Grid.gridEdges t.d0 t.d1 nb = .ok E ∧ LatentGrid.inference inf nb m t w = .ok z ∧
      IsRelaxedImage t.d0 t.d1 m.nStates E z ∧ ∀ z', IsRelaxedImage t.d0 t.d1 m.nStates E z' →
        dot w.size w.get (EdgeFeature.gridFeature nb m.graph t (flatVal z')) ≤
        dot w.size w.get (EdgeFeature.gridFeature nb m.graph t (flatVal z)) := by
  obtain ⟨E, hE, hin, hx⟩ := gridX_ok hnb ht
  obtain ⟨v, hv, h1, h2⟩ := hinf _ E (Nat.mul_pos ht.1 ht.2.1) hin (relaxed_nonempty hS E)
    (GraphCRF.UN m.graph (imageFeatures m.nFeatures t) w.get) (GraphCRF.PW m.graph w.get)
  obtain ⟨z, hz, hzr, hmax⟩ := relaxed_image_plain hin (P := fun _ => GraphCRF.PW m.graph w.get) hv (fun v' hv' => h2 v' hv')
  refine ⟨E, z, hE, ?_, hzr, fun z' hz' => ?_⟩
  · unfold LatentGrid.inference
    rw [hx]
    change (do
      let v ← GraphCRF.inference inf m.graph ⟨imageFeatures m.nFeatures t, E⟩ w
      reshapeY m.nStates t.d0 t.d1 v) = _
    have hi : GraphCRF.inference inf m.graph ⟨imageFeatures m.nFeatures t, E⟩ w =
        inf ⟨t.d0 * t.d1, m.nStates, GraphCRF.UN m.graph (imageFeatures m.nFeatures t) w.get⟩
          (.mat ⟨m.nStates, m.nStates, GraphCRF.PW m.graph w.get⟩) E := by
      unfold GraphCRF.inference
      rw [GraphCRF.checkSizeW_ok hw, GraphCRF.unary_ok (m := m.graph) (x := ⟨imageFeatures m.nFeatures t, E⟩) rfl hw,
        GraphCRF.pairwise_ok (m := m.graph) (x := ⟨imageFeatures m.nFeatures t, E⟩) rfl hw]
      rfl
    rw [hi, h1]
    exact hz
  · rw [hw, grid_image_value hS hin hx _ hz', grid_image_value hS hin hx _ hzr]
    exact hmax z' hz'

/-! ### images with directed pairs -/

theorem directional_image_value {m : LatentGraph.Model} {t : Ten} (ht : GridFits m.nFeatures t) (w : ℕ → ℚ) {z : ImageVal}
    (hz : IsRelaxedImage t.d0 t.d1 m.nStates (Grid.right t.d0 t.d1 ++ Grid.down t.d0 t.d1) z) :
    dot (EdgeFeature.sizeJointFeature (directional 4 m)) w (EdgeFeature.directionalFeature 4 (directional 4 m) t (flatVal z)) =
      edgeScore (t.d0 * t.d1) m.nStates (Grid.right t.d0 t.d1 ++ Grid.down t.d0 t.d1)
        (EU (directional 4 m) (imageFeatures m.nFeatures t) w) (EP (directional 4 m) (imageDirections t) w) (flatVal z) := by
  have hfit := directionalView_fits (S := m.nStates) ht
  have hx := directionalX_view ht
  rw [directionalView_eq ht] at hfit hx
  change EdgeFits _ ⟨imageFeatures m.nFeatures t, Grid.right t.d0 t.d1 ++ Grid.down t.d0 t.d1, imageDirections t⟩ at hfit
  change directionalX 4 m.nFeatures t = .ok ⟨imageFeatures m.nFeatures t, Grid.right t.d0 t.d1 ++ Grid.down t.d0 t.d1,
    imageDirections t⟩ at hx
  have hmod : checkModel (directional 4 m) = .ok () := by
    unfold checkModel directional directionalModel
    simp
  obtain ⟨-, h2, -, h3, h4⟩ := id hfit
  have hjf : ∀ v, EdgeFeature.directionalFeature 4 (directional 4 m) t v = edgeFeature (directional 4 m) ⟨imageFeatures m.nFeatures t,
      Grid.right t.d0 t.d1 ++ Grid.down t.d0 t.d1, imageDirections t⟩ v := by
    intro v
    rw [directionalFeature_ok (m := directional 4 m) hx]
    unfold edgeFeature EdgeFeature.jointFeature
    rw [EdgeFeature.checkSizeX_ok (m := directional 4 m) h2 h3 h4, EdgeFeature.checkFeatures_ok (m := directional 4 m) h2]
  rw [hjf]
  refine (edge_value hmod (x := ⟨imageFeatures m.nFeatures t, Grid.right t.d0 t.d1 ++ Grid.down t.d0 t.d1, imageDirections t⟩) hfit
    (relaxedImage_flat (directional_edgesIn _ _) hz).1 w).trans ?_
  refine edgeScore_congr (fun _ _ _ _ => rfl) (fun e _ a ha b hb => symEP_eq ?_ _ e a b ha hb) _
  constructor
  · intro k hk
    cases hk
  · intro k hk
    cases hk

/-- **C137 (LatentDirectionalGridCRF, relaxed loss-augmented inference).** -/
theorem C137_directional_loss_augmented (inf : Infer) (m : LatentGraph.Model) (hS : 1 ≤ m.nStates)
    (hinf : SolvesEdges m.nStates (relaxedOutputs m.nStates) inf) (t : Ten) (ht : GridFits m.nFeatures t)
    (a : Grid.NMat) (hr : a.rows = t.d0) (hc : a.cols = t.d1) (ha : ValidImage t.d0 t.d1 m.nStates a.get) (w : Vec)
    (hw : w.size = EdgeFeature.sizeJointFeature (directional 4 m)) :
    ∃ E z, Grid.gridEdges t.d0 t.d1 4 = .ok E ∧ LatentGrid.directionalLossAug inf 4 m t a w = .ok z ∧
      IsRelaxedImage t.d0 t.d1 m.nStates E z ∧ ∀ z', IsRelaxedImage t.d0 t.d1 m.nStates E z' →
        dot w.size w.get (EdgeFeature.directionalFeature 4 (directional 4 m) t (flatVal z')) + okD 0 (LatentGrid.loss m a z') ≤
        dot w.size w.get (EdgeFeature.directionalFeature 4 (directional 4 m) t (flatVal z)) + okD 0 (LatentGrid.loss m a z) := by
  obtain ⟨P, hP, hPe⟩ := directional_pairwise ht hw
  have hin := directional_edgesIn t.d0 t.d1
  have hU := EdgeFeature.unary_ok (check := checkFeatures) (m := directional 4 m) (x := ⟨imageFeatures m.nFeatures t,
    Grid.right t.d0 t.d1 ++ Grid.down t.d0 t.d1, imageDirections t⟩) (checkFeatures_ok rfl) rfl hw
  have hx : directionalX 4 m.nFeatures t = .ok ⟨imageFeatures m.nFeatures t, Grid.right t.d0 t.d1 ++ Grid.down t.d0 t.d1,
    imageDirections t⟩ := directionalX_ok ht
  have htv : Valid (t.d0 * t.d1) m.nStates (flat a).get := by
    have := valid_flat (a := a) (S := m.nStates) (by rw [hr, hc]; exact ha)
    rw [hr, hc] at this
    exact this
  obtain ⟨v, hv, h1, h2⟩ := hinf _ _ (Nat.mul_pos ht.1 ht.2.1) hin (relaxed_nonempty hS _)
    (augmentedU m (flat a).get (EU (directional 4 m) (imageFeatures m.nFeatures t) w.get)) P
  obtain ⟨z, hz, hzr, hmax⟩ := relaxed_image_best hin hr hc ha (P := P) hv (fun v' hv' => h2 v' hv')
  refine ⟨_, z, gridEdges_four _ _, ?_, hzr, fun z' hz' => ?_⟩
  · unfold LatentGrid.directionalLossAug
    rw [hx]
    simp only [bind, Except.bind]
    rw [GraphCRF.checkSizeW_ok hw, hU, hP]
    simp only
    unfold augmentedCall
    have := latent_augment_ok (m := m) (t := flat a) (n := t.d0 * t.d1) (by rw [← hr, ← hc]; rfl) htv
      (EU (directional 4 m) (imageFeatures m.nFeatures t) w.get)
    change augment m ⟨(imageFeatures m.nFeatures t).rows, (directional 4 m).nStates, _⟩ _ = _ at this
    rw [this]
    simp only [bind, Except.bind]
    rw [h1]
    exact hz
  · rw [hw, C137_image_loss m _ _ _ hin a hr hc ha z' hz', C137_image_loss m _ _ _ hin a hr hc ha z hzr,
      directional_image_value ht _ hz', directional_image_value ht _ hzr]
    have := hmax z' hz'
    rw [edgeScore_congr (fun _ _ _ _ => rfl) hPe, edgeScore_congr (fun _ _ _ _ => rfl) hPe] at this
    exact this

/-- **C137 (LatentDirectionalGridCRF, relaxed inference).** -/
theorem C137_directional_inference (inf : Infer) (m : LatentGraph.Model) (hS : 1 ≤ m.nStates)
    (hinf : SolvesEdges m.nStates (relaxedOutputs m.nStates) inf) (t : Ten) (ht : GridFits m.nFeatures t) (w : Vec)
    (hw : w.size = EdgeFeature.sizeJointFeature (directional 4 m)) :
    ∃ E z, Grid.gridEdges t.d0 t.d1 4 = .ok E ∧ LatentGrid.directionalInference inf 4 m t w = .ok z ∧
      IsRelaxedImage t.d0 t.d1 m.nStates E z ∧ ∀ z', IsRelaxedImage t.d0 t.d1 m.nStates E z' →
        dot w.size w.get (EdgeFeature.directionalFeature 4 (directional 4 m) t (flatVal z')) ≤
        dot w.size w.get (EdgeFeature.directionalFeature 4 (directional 4 m) t (flatVal z)) := by
  obtain ⟨P, hP, hPe⟩ := directional_pairwise ht hw
  have hin := directional_edgesIn t.d0 t.d1
  have hU := EdgeFeature.unary_ok (check := checkFeatures) (m := directional 4 m) (x := ⟨imageFeatures m.nFeatures t,
    Grid.right t.d0 t.d1 ++ Grid.down t.d0 t.d1, imageDirections t⟩) (checkFeatures_ok rfl) rfl hw
  have hx : directionalX 4 m.nFeatures t = .ok ⟨imageFeatures m.nFeatures t, Grid.right t.d0 t.d1 ++ Grid.down t.d0 t.d1,
    imageDirections t⟩ := directionalX_ok ht
  obtain ⟨v, hv, h1, h2⟩ := hinf _ _ (Nat.mul_pos ht.1 ht.2.1) hin (relaxed_nonempty hS _)
    (EU (directional 4 m) (imageFeatures m.nFeatures t) w.get) P
  obtain ⟨z, hz, hzr, hmax⟩ := relaxed_image_plain hin (P := P) hv (fun v' hv' => h2 v' hv')
  refine ⟨_, z, gridEdges_four _ _, ?_, hzr, fun z' hz' => ?_⟩
  · unfold LatentGrid.directionalInference EdgeFeature.inference
    rw [hx]
    simp only [bind, Except.bind]
    rw [GraphCRF.checkSizeW_ok hw, hU, hP]
    simp only
    change inf ⟨(imageFeatures m.nFeatures t).rows, (directional 4 m).nStates, _⟩ _ _ = _ at h1
    rw [h1]
    exact hz
  · rw [hw, directional_image_value ht _ hz', directional_image_value ht _ hzr]
    have := hmax z' hz'
    rw [edgeScore_congr (fun _ _ _ _ => rfl) hPe, edgeScore_congr (fun _ _ _ _ => rfl) hPe] at this
    exact this

/-! ### hidden nodes -/

/-- **C137 (hidden nodes, continuous loss).** Only marginals of visible nodes count, with the weight of their true label: one minus
the mass on the true label. -/
theorem C137_node_continuous_loss (nv nh L S : ℕ) (cw : Vec) (h : Labels) (hcw : cw.size = L) (hh : h.size = nv + nh)
    (hl : Legal nv nh L S h.get) (yhat : Mat) (hr : nv ≤ yhat.rows) (hc : L ≤ yhat.cols) :
    LatentNode.continuousLoss L cw h yhat = .ok (∑ i ∈ range nv, cw.get (h.get i) * (1 - yhat.get i (h.get i))) := by
  obtain ⟨s1, g1⟩ := labelFromLatent_legal hh hl
  unfold LatentNode.continuousLoss
  simp only
  rw [continuousLoss_some_ok (by simp only; omega) (by
    simp only
    rw [s1]
    intro i hi
    rw [g1 i hi]
    have := hl.1 i hi
    omega) (by
    rw [s1]
    intro i hi
    rw [g1 i hi, hcw]
    exact hl.1 i hi), s1]
  congr 1
  refine sum_congr rfl fun i hi => ?_
  rw [g1 i (mem_range.mp hi)]

/-- **C137 (hidden nodes, loss augmentation).** On marginals of the visible nodes that sum to one, augmentation of the potentials adds
the continuous loss to the linear objective. -/
theorem C137_node_augment (nv nh L S : ℕ) (hLS : L ≤ S) (cw : Vec) (h : Labels) (hcw : cw.size = L) (hh : h.size = nv + nh)
    (hl : Legal nv nh L S h.get) (U : ℕ → ℕ → ℚ) (μ : ℕ → ℕ → ℚ) (hn : ∀ i < nv, ∑ s ∈ range S, μ i s = 1) :
    ∃ U' l, LatentNode.augment L S cw ⟨nv + nh, S, U⟩ h = .ok ⟨nv + nh, S, U'⟩ ∧
      LatentNode.continuousLoss L cw h ⟨nv + nh, S, μ⟩ = .ok l ∧
      ∑ i ∈ range (nv + nh), ∑ s ∈ range S, U' i s * μ i s = ∑ i ∈ range (nv + nh), ∑ s ∈ range S, U i s * μ i s + l := by
  refine ⟨_, _, augment_legal hcw hh hl (U := ⟨nv + nh, S, U⟩) rfl,
    C137_node_continuous_loss nv nh L S cw h hcw hh hl ⟨nv + nh, S, μ⟩ (Nat.le_add_right _ _) hLS, ?_⟩
  rw [sum_range_add, sum_range_add, add_right_comm]
  congr 1
  · rw [← sum_add_distrib]
    refine sum_congr rfl fun i hi => ?_
    have hi := mem_range.mp hi
    have ht : h.get i < S := lt_of_lt_of_le (hl.1 i hi) hLS
    have e : ∀ s ∈ range S, augmented S nv cw.get h.get U i s * μ i s =
        U i s * μ i s + cw.get (h.get i) * μ i s - cw.get (h.get i) * (if s = h.get i then μ i s else 0) := by
      intro s hs
      have hs := mem_range.mp hs
      unfold augmented
      by_cases heq : s = h.get i
      · simp [heq]
      · rw [if_pos ⟨hs, hi, fun H => heq H.symm⟩, if_neg heq]
        ring
    simp only
    rw [sum_congr rfl e, sum_sub_distrib, sum_add_distrib, ← mul_sum, ← mul_sum, hn i hi]
    have : ∑ s ∈ range S, (if s = h.get i then μ i s else 0) = μ i (h.get i) := by simp [ht]
    rw [this]
    ring
  · refine sum_congr rfl fun i _ => sum_congr rfl fun s _ => ?_
    simp only
    unfold augmented
    rw [if_neg (by omega)]

/-! ### instances -/

theorem latentImage_lp : SolvesOver 3 (relaxedOutputs 3) (backend idealPackages (.name "lp") true) ∧
    SolvesEdges 3 (relaxedOutputs 3) (backend idealPackages (.name "lp") true) :=
  ⟨relaxes_solves (by decide) (idealPackages_relaxes _ (by decide)), relaxes_solves_edges (by decide) (idealPackages_relaxes _ (by decide))⟩

/-- marginals with half of the mass on the second and half on the third state; the first two states share a label. -/
example : LatentGraph.continuousLoss latentImageModel ⟨2, fun i => 2 * i⟩ ⟨2, 3, fun _ s => if s = 0 then 0 else 1 / 2⟩ = .ok 1 := by
  rw [C137_other_mass latentImageModel ⟨2, fun i => 2 * i⟩ (show Valid 2 3 _ by unfold Valid; decide) _ (by decide) (by decide)
    (show ∀ i < 2, ∑ s ∈ range 3, _ = (1 : ℚ) by decide +kernel)]
  decide +kernel

/-- marginals that do not sum to one. -/
example : LatentGraph.continuousLoss latentImageModel ⟨2, fun i => 2 * i⟩ ⟨2, 3, fun _ _ => 1⟩ = .ok (-1) := by
  rw [C137_continuous_loss latentImageModel ⟨2, fun i => 2 * i⟩ (show Valid 2 3 _ by unfold Valid; decide) _ (by decide) (by decide)]
  decide +kernel

/-- two vertices and an edge: LP inference. -/
example : ∃ v, (latentGraphModel (backend idealPackages (.name "lp")) latentImageModel).lossAug
      ⟨⟨2, 1, fun i _ => i⟩, [(0, 1)]⟩ (.discrete ⟨2, fun i => 2 * i⟩) (fun k => k) true = v ∧
    IsRelaxed 2 3 [(0, 1)] v :=
  ⟨_, rfl, (C137_graph_loss_augmented (backend idealPackages (.name "lp")) true latentImageModel (by decide) (relaxedOutputs 3)
    (fun _ _ _ h => h) latentImage_lp.1 ⟨⟨2, 1, fun i _ => i⟩, [(0, 1)]⟩ (show Fits latentImageModel.graph _ from
      ⟨by decide, rfl, by unfold EdgesIn; decide⟩) (relaxed_nonempty (by decide) _) ⟨2, fun i => 2 * i⟩ rfl
    (show Valid 2 3 _ by unfold Valid; decide) (fun k => k)).1⟩

/-- uniform marginals of an image of two pixels. -/
theorem uniform_image : IsRelaxedImage 1 2 3 [(0, 1)]
    (.relaxed ⟨1, 2, 3, fun _ _ _ => 1 / 3⟩ ⟨9, fun _ => 1 / 9⟩) := by
  refine .inr ⟨_, _, rfl, rfl, rfl, rfl, rfl, ?_⟩
  constructor <;> decide +kernel

example : LatentGrid.loss latentImageModel ⟨1, 2, fun _ c => 2 * c⟩ (.relaxed ⟨1, 2, 3, fun _ _ _ => 1 / 3⟩ ⟨9, fun _ => 1 / 9⟩) =
    .ok 1 := by
  rw [C137_image_loss latentImageModel 1 2 [(0, 1)] (by unfold EdgesIn; decide) ⟨1, 2, fun _ c => 2 * c⟩ rfl rfl
    (show ValidImage 1 2 3 _ by unfold ValidImage; decide) _ uniform_image]
  decide +kernel

/-- LP inference on images. -/
example : (∃ E z, Grid.gridEdges 2 3 8 = .ok E ∧ LatentGrid.lossAugmentedInference (backend idealPackages (.name "lp") true) 8
      latentImageModel gridImage ⟨2, 3, fun r c => r + c / 2⟩ ⟨9, fun k => (k : ℚ)⟩ = .ok z ∧ IsRelaxedImage 2 3 3 E z) ∧
    (∃ E z, Grid.gridEdges 2 3 8 = .ok E ∧ LatentGrid.inference (backend idealPackages (.name "lp") true) 8
      latentImageModel gridImage ⟨9, fun k => (k : ℚ)⟩ = .ok z ∧ IsRelaxedImage 2 3 3 E z) ∧
    (∃ E z, Grid.gridEdges 2 3 4 = .ok E ∧ directionalLossAug (backend idealPackages (.name "lp") true) 4
      latentImageModel gridImage ⟨2, 3, fun r c => r + c / 2⟩ ⟨21, fun k => (k : ℚ)⟩ = .ok z ∧ IsRelaxedImage 2 3 3 E z) ∧
    ∃ E z, Grid.gridEdges 2 3 4 = .ok E ∧ directionalInference (backend idealPackages (.name "lp") true) 4
      latentImageModel gridImage ⟨21, fun k => (k : ℚ)⟩ = .ok z ∧ IsRelaxedImage 2 3 3 E z := by
  have hv : ValidImage 2 3 3 fun r c => r + c / 2 := by unfold ValidImage; decide
  refine ⟨?_, ?_, ?_, ?_⟩
  · obtain ⟨E, z, h1, h2, h3, -⟩ := C137_grid_loss_augmented _ 8 (.inr rfl) latentImageModel (by decide) latentImage_lp.1 gridImage
      latentImage_fits ⟨2, 3, fun r c => r + c / 2⟩ rfl rfl hv ⟨9, fun k => (k : ℚ)⟩ rfl
    exact ⟨E, z, h1, h2, h3⟩
  · obtain ⟨E, z, h1, h2, h3, -⟩ := C137_grid_inference _ 8 (.inr rfl) latentImageModel (by decide) latentImage_lp.1 gridImage
      latentImage_fits ⟨9, fun k => (k : ℚ)⟩ rfl
    exact ⟨E, z, h1, h2, h3⟩
  · obtain ⟨E, z, h1, h2, h3, -⟩ := C137_directional_loss_augmented _ latentImageModel (by decide) latentImage_lp.2 gridImage
      latentImage_fits ⟨2, 3, fun r c => r + c / 2⟩ rfl rfl hv ⟨21, fun k => (k : ℚ)⟩ rfl
    exact ⟨E, z, h1, h2, h3⟩
  · obtain ⟨E, z, h1, h2, h3, -⟩ := C137_directional_inference _ latentImageModel (by decide) latentImage_lp.2 gridImage
      latentImage_fits ⟨21, fun k => (k : ℚ)⟩ rfl
    exact ⟨E, z, h1, h2, h3⟩

/-- two visible nodes and one hidden one, half of the mass on the true label. -/
theorem nodePair_legal : Legal 2 1 2 4 (fun i => if i < 2 then i else 3) := by
  constructor
  · decide
  · intro i h1 h2
    have : i = 2 := by omega
    subst this
    decide

example : LatentNode.continuousLoss 2 ⟨2, fun c => c + 1⟩ ⟨3, fun i => if i < 2 then i else 3⟩ ⟨3, 4, fun _ _ => 1 / 4⟩ = .ok (9 / 4) := by
  rw [C137_node_continuous_loss 2 1 2 4 ⟨2, fun c => c + 1⟩ ⟨3, fun i => if i < 2 then i else 3⟩ rfl rfl nodePair_legal _ (by decide)
    (by decide)]
  decide +kernel

example : ∃ U' l, LatentNode.augment 2 4 ⟨2, fun c => c + 1⟩ ⟨3, 4, fun i s => i + s⟩ ⟨3, fun i => if i < 2 then i else 3⟩ =
      .ok ⟨3, 4, U'⟩ ∧
    LatentNode.continuousLoss 2 ⟨2, fun c => c + 1⟩ ⟨3, fun i => if i < 2 then i else 3⟩ ⟨3, 4, fun _ _ => 1 / 4⟩ = .ok l := by
  obtain ⟨U', l, h1, h2, -⟩ := C137_node_augment 2 1 2 4 (by decide) ⟨2, fun c => c + 1⟩ ⟨3, fun i => if i < 2 then i else 3⟩ rfl rfl
    nodePair_legal (fun i s => i + s) (fun _ _ => 1 / 4) (by decide +kernel)
  exact ⟨U', l, h1, h2⟩

end Verif.Props
