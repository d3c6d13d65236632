import Verif.Model.LatentNodeInstance
import Verif.Lemmas.HiddenNodes
import Verif.Props.C133

/-!
# `LatentNodeCRF` behind the interface of the latent learners
-/

namespace Verif.Props

open Finset Verif.Common Verif.Spec Verif.Learner Verif.LatentNode
open Verif.GraphCRF (Infer)

/-! ### losses and labels, for both classes -/

theorem node_loss_labels {a b L S : ℕ} {cw : Vec} {h h' : Labels} (hs : h.size = a + b) (hs' : h'.size = a + b)
    (hl : Legal a b L S h.get) (hl' : Legal a b L S h'.get) (hag : ∀ i < a, h.get i = h'.get i) (o : YVal) :
    nodeLoss L S cw (.discrete h) o = nodeLoss L S cw (.discrete h') o ∧
    nodeContinuousLoss L S cw (.discrete h) o = nodeContinuousLoss L S cw (.discrete h') o := by
  obtain ⟨s1, g1⟩ := labelFromLatent_legal hs hl
  obtain ⟨s2, g2⟩ := labelFromLatent_legal hs' hl'
  have e1 : (labelFromLatent L h).size = (labelFromLatent L h').size := s1.trans s2.symm
  have e2 : ∀ i < (labelFromLatent L h).size, (labelFromLatent L h).get i = (labelFromLatent L h').get i := by
    intro i hi
    rw [s1] at hi
    rw [g1 i hi, g2 i hi, hag i hi]
  have hc : ∀ M, LatentNode.continuousLoss L cw h M = LatentNode.continuousLoss L cw h' M := by
    intro M
    unfold LatentNode.continuousLoss
    simp only
    rw [← e1]
    exact continuousLoss_congr_left e1 e2
  cases o with
  | discrete g =>
    refine ⟨?_, rfl⟩
    change okD 0 (LatentNode.loss L cw h g) = okD 0 (LatentNode.loss L cw h' g)
    unfold LatentNode.loss
    rw [loss_congr_left e1 e2]
  | relaxed u p =>
    have : nodeContinuousLoss L S cw (.discrete h) (.relaxed u p) = nodeContinuousLoss L S cw (.discrete h') (.relaxed u p) := by
      change okD 0 (LatentNode.continuousLoss L cw h _) = okD 0 (LatentNode.continuousLoss L cw h' _)
      rw [hc]
    exact ⟨this, this⟩

theorem node_loss_ok {a b L S : ℕ} {cw : Vec} (hcw : cw.size = L) {h g : Labels} (hs : h.size = a + b) (gs : g.size = a + b)
    (hl : Legal a b L S h.get) (gl : Legal a b L S g.get) :
    nodeLoss L S cw (.discrete h) (.discrete g) = weightedHamming a cw.get h.get g.get := by
  change okD 0 (LatentNode.loss L cw h g) = _
  rw [C24_latent_node_loss a b L S cw h g hcw hs gs hl gl]
  rfl

theorem augment_legal {a b L S : ℕ} {cw : Vec} (hcw : cw.size = L) {t : Labels} (ts : t.size = a + b) (tl : Legal a b L S t.get)
    {U : Mat} (hU : U.rows = a + b) :
    LatentNode.augment L S cw U t = .ok ⟨U.rows, U.cols, augmented S a cw.get t.get U.get⟩ := by
  obtain ⟨s1, g1⟩ := labelFromLatent_legal ts tl
  unfold LatentNode.augment
  simp only
  rw [if_neg (not_not.mpr (by rw [s1]; intro i hi; rw [g1 i hi, hcw]; exact tl.1 i hi)), if_neg (by omega)]
  congr 2
  funext i s
  rw [latent_augment_fold, s1]
  unfold augmented
  by_cases hi : i < a
  · rw [g1 i hi]
  · simp [hi]

theorem le_rewardMax (U : Mat) : ∀ i < U.rows, ∀ s < U.cols, U.get i s ≤ max (LatentGraph.matMax U) 1 := by
  intro i hi s hs
  refine le_trans ?_ (le_max_left _ _)
  have := le_maxN (fun k => U.get (k / U.cols) (k % U.cols)) (flat_lt hi hs)
  simp only [flat_div hs, flat_mod hs] at this
  exact this

/-- weights in the ball of radius `ρ`. -/
theorem InBall.abs_le {dim : ℕ} {ρ : ℚ} (hρ : 0 ≤ ρ) {w : W} (h : InBall dim (ρ ^ 2) w) {k : ℕ} (hk : k < dim) : |w k| ≤ ρ := by
  refine abs_le_of_sq_le_sq ?_ hρ
  refine le_trans ?_ h
  rw [pow_two]
  exact single_le_sum (f := fun k => w k * w k) (fun k _ => mul_self_nonneg _) (mem_range.mpr hk)

/-- The initial completions of samples with hidden nodes. -/
theorem node_init {X : Type} {L k : ℕ} {lf : Bool} {nv nh : X → ℕ} {data : List (X × Labels)} {sample : X → Labels → Sample}
    (hy : ∀ x y, (sample x y).y = y) (hnh : ∀ x y, (sample x y).nHidden = nh x) {km : KMeans} (hkm : KMeansOk km L k)
    {H : List Labels} (hH : LatentNode.initLatent km L k lf (data.map fun d => sample d.1 d.2) = .ok H)
    (hpos : ∀ d ∈ data, 0 < nh d.1) (hsz : ∀ d ∈ data, d.2.size = nv d.1) :
    List.Forall₂ (fun s h => h ∈ legalCompletions L (k + L) nv nh data s.1 s.2) data (H.map .discrete) := by
  obtain ⟨h1, _, -, h2⟩ := C133_states_partial km L k hkm lf _ H hH
  obtain ⟨-, hacc, -⟩ := (C133_returns km L k lf _).mp ⟨H, hH⟩
  rw [List.length_map] at h1
  refine List.forall₂_iff_get.mpr ⟨by simp [h1], fun q hq hq' => ?_⟩
  have hqd : data[q] ∈ data := List.getElem_mem hq
  have hqH : q < H.length := by omega
  obtain ⟨V, hV⟩ := hacc (sample data[q].1 data[q].2) (List.mem_map.mpr ⟨_, hqd, rfl⟩)
  obtain ⟨c1, c2, c3, c4, -⟩ := h2 q (sample data[q].1 data[q].2) H[q] (by
    rw [List.getElem?_map, List.getElem?_eq_getElem hq]; rfl) (List.getElem?_eq_getElem hqH)
    (by rw [hnh]; exact hpos _ hqd) V hV
  rw [hy, hnh, hsz _ hqd] at c1 c2
  rw [hy, hsz _ hqd] at c3 c4
  obtain ⟨-, g1⟩ := labelFromLatent_legal c1 c2
  simp only [List.get_eq_getElem, List.getElem_map]
  exact ⟨hqd, H[q], rfl, c1, c2, fun i hi => by rw [← g1 i hi, c4 i hi]⟩

/-! ### `LatentNodeCRF` -/

/-- Number of visible nodes. -/
def visibleNodes (lf : Bool) (rows nHidden : ℕ) : ℕ := if lf then rows - nHidden else rows

/-- The instance is well formed for the label array: features of the right size, edges between its nodes. -/
def NodeFits (m : LatentNode.Model) (x : LatentNode.X) (y : Labels) : Prop :=
  1 ≤ y.size ∧ x.features.cols = m.nFeatures ∧ x.features.rows = (if m.latentFeatures then y.size + x.nHidden else y.size) ∧
    EdgesIn (y.size + x.nHidden) x.edges ∧ ∀ i < y.size, y.get i < m.nLabels

/-- number of visible nodes of an instance of a `LatentNodeCRF`. -/
def xVisible (m : LatentNode.Model) (x : LatentNode.X) : ℕ := visibleNodes m.latentFeatures x.features.rows x.nHidden

theorem visibleNodes_eq {lf : Bool} {rows n nh : ℕ} (h : rows = if lf then n + nh else n) : visibleNodes lf rows nh = n := by
  unfold visibleNodes
  cases lf <;> simp_all

theorem NodeFits.visible {m : LatentNode.Model} {x : LatentNode.X} {y : Labels} (h : NodeFits m x y) : xVisible m x = y.size :=
  visibleNodes_eq h.2.2.1

theorem node_feature {m : LatentNode.Model} {x : LatentNode.X} {a : ℕ} (hF : x.features.cols = m.nFeatures)
    (hr : x.features.rows = if m.latentFeatures then a + x.nHidden else a) {h : Labels} (hs : h.size = a + x.nHidden)
    (hl : Legal a x.nHidden m.nLabels m.nStates h.get) (hE : EdgesIn (a + x.nHidden) x.edges) :
    LatentNode.jointFeature m x (.discrete h) = .ok
      ((Mat.ravel ⟨m.nInput, x.features.cols, fun s f => ∑ i ∈ range x.features.rows,
        (if s = h.get i then 1 else 0) * x.features.get i f⟩).append
      ⟨Sym.tri m.nStates, fun k => Sym.mkSym (GraphCRF.hotPair x.edges h.get) (Sym.triRow k) (Sym.triCol k)⟩) := by
  have hv := hl.valid (nLabels_le m)
  have hrows : x.features.rows ≤ a + x.nHidden := by rw [hr]; split <;> omega
  unfold LatentNode.jointFeature
  rw [LatentNode.checkSizeX_ok hF, LatentNode.marginals_ok (by rw [hs]; exact hv) (by rw [hs]; exact hE)]
  simp only [bind, Except.bind]
  rw [accumulate_ok (by simp only [hs]; exact hrows) (nInput_le m)]
  simp only
  rw [Sym.compressSym_ok _ m.nStates rfl rfl]
  rfl

/-- scores of legal labellings. -/
theorem node_value {backend : Bool → Infer} {cw : Vec} {m : LatentNode.Model} {outputs : LatentNode.X → Set YVal}
    {x : LatentNode.X} {a : ℕ} (hF : x.features.cols = m.nFeatures)
    (hr : x.features.rows = if m.latentFeatures then a + x.nHidden else a) (ha : 1 ≤ a) {h : Labels} (hs : h.size = a + x.nHidden)
    (hl : Legal a x.nHidden m.nLabels m.nStates h.get) (hE : EdgesIn (a + x.nHidden) x.edges) (y : YVal) (w : ℕ → ℚ) {U : Mat} {M : ℚ}
    (hU : UnarySpec m x.features w a x.nHidden U M) :
    (problemOf (latentNodeModel backend cw m) outputs).value w x y (.discrete h) =
      Spec.score (a + x.nHidden) x.edges U.get (fun _ => LP m w) h.get := by
  obtain ⟨-, -, ψ, -, -, h3, h4, -, h6⟩ := C20_latent_node_energy m x ⟨sizeJointFeature m, w⟩ h a hF hr (by omega) rfl hs hl hE
  have e : (problemOf (latentNodeModel backend cw m) outputs).value w x y (.discrete h) = dot (sizeJointFeature m) w ψ.get := by
    change dot (sizeJointFeature m) w (okD _ (LatentNode.jointFeature m x (.discrete h))).get = _
    rw [h3]
    rfl
  unfold Vec.dot at h6
  rw [if_pos h4.symm] at h6
  simp only [Except.ok.injEq] at h6
  rw [e, h6]
  unfold Spec.score latentNodeScore
  rw [unary_sum hU hl]
  congr 1
  exact sum_congr rfl fun e _ => (LP_eq m w _ _).symm

theorem node_pairwise_le {m : LatentNode.Model} {ρ : ℚ} (hρ : 0 ≤ ρ) {w : W} (hw : InBall (sizeJointFeature m) (ρ ^ 2) w) {a b : ℕ}
    (ha : a < m.nStates) (hb : b < m.nStates) : |LP m w a b| ≤ ρ := by
  rw [LP_eq]
  refine hw.abs_le hρ ?_
  have h1 := Sym.tri_add_lt (n := m.nStates) (min_le_max (a := a) (b := b)) (max_lt ha hb)
  unfold sizeJointFeature LatentNode.Model.nInput
  unfold Sym.tri at h1
  exact Nat.add_lt_add_left h1 _

/-- The features of the instance are so small that weights of norm at most `ρ` cannot outweigh a penalty of 99 together with class
weights up to `κ`. -/
def NodeSmall (ρ κ : ℚ) (n : ℕ) (x : LatentNode.X) : Prop :=
  ∀ i < n, ρ * (featureMass x.features i + 2 * degree x.edges i) + κ < 99

theorem featureMass_nonneg (x : Mat) (i : ℕ) : 0 ≤ featureMass x i := by
  unfold featureMass
  split
  · exact sum_nonneg fun _ _ => abs_nonneg _
  · exact le_rfl

/-- For short weights, loss-augmented inference is exact. -/
theorem node_exact {backend : Bool → Infer} {cw : Vec} {m : LatentNode.Model} {A : ℕ → Edges → Prop}
    {data : List (LatentNode.X × Labels)}
    (hsolve : SolvesOver m.nStates (AllOrNone m.nStates A) (backend true)) (hcw : cw.size = m.nLabels) {κ : ℚ} (hκ0 : 0 ≤ κ)
    (hκ : ∀ l : ℕ, l < m.nLabels → cw.get l ≤ κ) (hd : ∀ d ∈ data, NodeFits m d.1 d.2)
    (hA : ∀ d ∈ data, A (d.2.size + d.1.nHidden) d.1.edges) {ρ : ℚ} (hρ : 0 ≤ ρ)
    (hsmall : ∀ d ∈ data, NodeSmall ρ κ (d.2.size + d.1.nHidden) d.1) (x : LatentNode.X) (y : YVal) (w : W)
    (hy : y ∈ legalOutputs m.nLabels m.nStates (xVisible m) LatentNode.X.nHidden data x)
    (hw : InBall (sizeJointFeature m) (ρ ^ 2) w) :
    (latentNodeModel backend cw m).lossAug x y w true ∈ legalOutputs m.nLabels m.nStates (xVisible m) LatentNode.X.nHidden data x ∧
    ∀ z ∈ legalOutputs m.nLabels m.nStates (xVisible m) LatentNode.X.nHidden data x,
      (problemOf (latentNodeModel backend cw m) (legalOutputs m.nLabels m.nStates (xVisible m) LatentNode.X.nHidden data)).violation
        w x y z ≤
      (problemOf (latentNodeModel backend cw m) (legalOutputs m.nLabels m.nStates (xVisible m) LatentNode.X.nHidden data)).violation
        w x y ((latentNodeModel backend cw m).lossAug x y w true) := by
  obtain ⟨⟨l, hl⟩, t, rfl, ts, tl⟩ := hy
  have hfit := hd _ hl
  have hAd := hA _ hl
  have hsm := hsmall _ hl
  have hvis := hfit.visible
  simp only at hfit hAd hsm hvis
  rw [hvis] at ts tl
  obtain ⟨ha, hF, hr, hE, -⟩ := hfit
  generalize l.size = a at *
  have hLS := nLabels_le m
  have hn : 0 < a + x.nHidden := by omega
  have hS := states_pos tl hn
  obtain ⟨U, M, hU, hs⟩ := LatentNode.unary_ok (w := ⟨sizeJointFeature m, w⟩) hF hr hn hS rfl
  have htv := tl.valid hLS
  obtain ⟨v, ⟨-, g, rfl, gs, gv⟩, hinf, hmax⟩ := hsolve (a + x.nHidden) x.edges hn hE ⟨_, hAd, t, rfl, ts, htv⟩
    (augmented m.nStates a cw.get t.get U.get) (LP m w)
  have hbest : ∀ z : ℕ → ℕ, Valid (a + x.nHidden) m.nStates z →
      Spec.score (a + x.nHidden) x.edges (augmented m.nStates a cw.get t.get U.get) (fun _ => LP m w) z ≤
      Spec.score (a + x.nHidden) x.edges (augmented m.nStates a cw.get t.get U.get) (fun _ => LP m w) g.get := by
    intro z hz
    have := hmax (.discrete ⟨a + x.nHidden, z⟩) ⟨hAd, _, rfl, rfl, hz⟩
    rw [outputScore_labelling hE (y := ⟨a + x.nHidden, z⟩) hz, outputScore_labelling hE gv] at this
    exact this
  obtain ⟨hv1, hv2⟩ := node_unary_ge hs hF hr (ρ := ρ) (fun k hk => hw.abs_le hρ (lt_of_lt_of_le hk (LatentNode.size_ge m)))
  have gl := visible_augmented_legal hs hE (P := fun _ => LP m w) (q := fun _ => ρ)
    (fun _ _ _ ha _ hb => node_pairwise_le hρ hw ha hb) hv1 hv2 hκ0 hκ tl (by
      intro i hi
      have := hsm i hi
      rw [load_const]
      linarith) gv hbest
  have hla : (latentNodeModel backend cw m).lossAug x (.discrete t) w true = .discrete g := by
    change okD _ (LatentNode.lossAugmentedInference (backend true) cw m x t ⟨sizeJointFeature m, w⟩) = _
    unfold LatentNode.lossAugmentedInference
    rw [GraphCRF.checkSizeW_ok (w := ⟨sizeJointFeature m, w⟩) rfl, hU,
      LatentNode.pairwise_ok (w := ⟨sizeJointFeature m, w⟩) hF rfl]
    simp only [bind, Except.bind]
    rw [augment_legal hcw ts tl hs.rows]
    simp only
    rw [hs.rows, hs.cols, hinf]
    rfl
  simp only [hla]
  refine ⟨⟨⟨l, hl⟩, g, rfl, by rw [hvis]; exact gs, by rw [hvis]; exact gl⟩, ?_⟩
  rintro z ⟨-, z, rfl, zs, zl⟩
  rw [hvis] at zs zl
  have h1 := hbest z.get (zl.valid hLS)
  rw [visible_augmented_score hLS zl, visible_augmented_score hLS gl] at h1
  unfold Problem.violation
  rw [node_value hF hr ha zs zl hE _ w hs, node_value hF hr ha gs gl hE _ w hs]
  have l1 : (problemOf (latentNodeModel backend cw m) (legalOutputs m.nLabels m.nStates (xVisible m) LatentNode.X.nHidden data)).loss
      (.discrete t) (.discrete z) = _ := node_loss_ok (S := m.nStates) hcw ts zs tl zl
  have l2 : (problemOf (latentNodeModel backend cw m) (legalOutputs m.nLabels m.nStates (xVisible m) LatentNode.X.nHidden data)).loss
      (.discrete t) (.discrete g) = _ := node_loss_ok (S := m.nStates) hcw ts gs tl gl
  rw [l1, l2]
  linarith

/-- For short weights, `latent` returns a completion of maximal score. -/
theorem node_completion {backend : Bool → Infer} {cw : Vec} {m : LatentNode.Model} {km : KMeans} {A : ℕ → Edges → Prop}
    {data : List (LatentNode.X × Labels)} (hhid : 0 < m.nHiddenStates)
    (hsolve : SolvesOver m.nStates (AllOrNone m.nStates A) (backend false)) (hd : ∀ d ∈ data, NodeFits m d.1 d.2)
    (hA : ∀ d ∈ data, A (d.2.size + d.1.nHidden) d.1.edges) {ρ κ : ℚ} (hρ : 0 ≤ ρ) (hκ0 : 0 ≤ κ)
    (hsmall : ∀ d ∈ data, NodeSmall ρ κ (d.2.size + d.1.nHidden) d.1) (w : W) (hw : InBall (sizeJointFeature m) (ρ ^ 2) w) :
    (problemOf (latentNodeModel backend cw m) (legalOutputs m.nLabels m.nStates (xVisible m) LatentNode.X.nHidden data)).ExactCompletionAt
      (legalCompletions m.nLabels m.nStates (xVisible m) LatentNode.X.nHidden data) (latentNode backend cw m km).latent data w := by
  rintro ⟨x, y⟩ hdm
  have hfit := hd _ hdm
  have hAd := hA _ hdm
  have hsm := hsmall _ hdm
  have hvis := hfit.visible
  simp only at hfit hAd hsm hvis
  obtain ⟨ha, hF, hr, hE, hyl⟩ := hfit
  have hLS := nLabels_le m
  have hn : 0 < y.size + x.nHidden := by omega
  have hS : 0 < m.nStates := by unfold LatentNode.Model.nStates; omega
  obtain ⟨U, M, hU, hs⟩ := LatentNode.unary_ok (w := ⟨sizeJointFeature m, w⟩) hF hr hn hS rfl
  set M' := max (LatentGraph.matMax U) 1 with hM'
  obtain ⟨v, ⟨-, g, rfl, gs, gv⟩, hinf, hmax⟩ := hsolve (y.size + x.nHidden) x.edges hn hE
    ⟨.discrete ⟨y.size + x.nHidden, fun _ => 0⟩, hAd, _, rfl, rfl, fun _ _ => hS⟩ (rewarded y.size y.get M' U.get) (LP m w)
  have hbest : ∀ z : ℕ → ℕ, Valid (y.size + x.nHidden) m.nStates z →
      Spec.score (y.size + x.nHidden) x.edges (rewarded y.size y.get M' U.get) (fun _ => LP m w) z ≤
      Spec.score (y.size + x.nHidden) x.edges (rewarded y.size y.get M' U.get) (fun _ => LP m w) g.get := by
    intro z hz
    have := hmax (.discrete ⟨y.size + x.nHidden, z⟩) ⟨hAd, _, rfl, rfl, hz⟩
    rw [outputScore_labelling hE (y := ⟨y.size + x.nHidden, z⟩) hz, outputScore_labelling hE gv] at this
    exact this
  obtain ⟨-, hv2⟩ := node_unary_ge hs hF hr (ρ := ρ) (fun k hk => hw.abs_le hρ (lt_of_lt_of_le hk (LatentNode.size_ge m)))
  obtain ⟨gl, gy⟩ := clamped_legal hs hE (P := fun _ => LP m w) (q := fun _ => ρ)
    (fun _ _ _ ha _ hb => node_pairwise_le hρ hw ha hb)
    (fun i _ => mul_nonneg hρ (featureMass_nonneg _ _)) hv2
    (fun _ => by unfold LatentNode.Model.nStates; omega) hyl (by
      intro i hi
      have := hsm i hi
      rw [load_const]
      linarith) (le_max_right _ _ : 1 ≤ M') (by
      have := le_rewardMax U
      rw [hs.rows, hs.cols] at this
      exact this) gv hbest
  have hlat : (latentNode backend cw m km).latent x y w = .discrete g := by
    change YVal.discrete (okD _ (LatentNode.latent (backend false) m x y ⟨sizeJointFeature m, w⟩)) = _
    unfold LatentNode.latent
    rw [hU]
    simp only [bind, Except.bind]
    rw [clamp_ok (by rw [hs.rows, hs.cols]; exact Nat.mul_pos hn hS) (by rw [hs.rows]; omega)
      (by intro i hi; rw [hs.cols]; exact lt_of_lt_of_le (hyl i hi) hLS)]
    simp only
    rw [LatentNode.pairwise_ok (w := ⟨sizeJointFeature m, w⟩) hF rfl]
    simp only
    rw [hs.rows, hs.cols]
    have e2 : backend false ⟨y.size + x.nHidden, m.nStates, fun i s => if i < y.size ∧ s = y.get i then
        100 * max (LatentGraph.matMax U) 1 else U.get i s⟩ (.mat ⟨m.nStates, m.nStates, LP m w⟩) x.edges = .ok (.discrete g) := hinf
    rw [e2]
    simp only
    have h1 : ¬ g.size < y.size := by omega
    have h2 : ¬ LatentNode.Inconsistent y g := by
      rintro ⟨i, hi, hne⟩
      exact hne (gy i hi)
    rw [if_neg h1, if_neg h2]
    rfl
  simp only [hlat]
  refine ⟨⟨hdm, g, rfl, by rw [hvis]; exact gs, by rw [hvis]; exact gl, by rw [hvis]; exact gy⟩, ?_⟩
  rintro _ ⟨-, z, rfl, zs, zl, zy⟩
  rw [hvis] at zs zl zy
  rw [node_value hF hr ha zs zl hE _ w hs, node_value hF hr ha gs gl hE _ w hs]
  have h1 := hbest z.get (zl.valid hLS)
  have h2 := clamped_score (b := x.nHidden) (M := M') (U := U.get) (edges := x.edges) (P := fun _ => LP m w) zy gy
  linarith

/-- Bound on the squared distance between joint features of two legal labellings. -/
def nodeBound (m : LatentNode.Model) (x : LatentNode.X) : ℚ :=
  ∑ k ∈ range (sizeJointFeature m),
    (if k < m.nInput * m.nFeatures then ∑ i ∈ range x.features.rows, |x.features.get i (k % m.nFeatures)|
      else 2 * x.edges.length) ^ 2

theorem hotPair_range (edges : Edges) (y : ℕ → ℕ) (a b : ℕ) :
    0 ≤ GraphCRF.hotPair edges y a b ∧ GraphCRF.hotPair edges y a b ≤ edges.length := by
  unfold GraphCRF.hotPair
  refine ⟨sum_nonneg fun e _ => by split <;> split <;> norm_num, ?_⟩
  have : ∀ e ∈ range edges.length, (if a = y (edge edges e).1 then (1 : ℚ) else 0) * (if b = y (edge edges e).2 then 1 else 0) ≤ 1 :=
    fun e _ => by split <;> split <;> norm_num
  refine (sum_le_sum this).trans ?_
  simp

theorem hotPair_congr {n : ℕ} {edges : Edges} (hE : EdgesIn n edges) {y y' : ℕ → ℕ} (h : ∀ i < n, y i = y' i) :
    GraphCRF.hotPair edges y = GraphCRF.hotPair edges y' := by
  funext a b
  unfold GraphCRF.hotPair
  refine sum_congr rfl fun e he => ?_
  have := hE _ (getD_mem (mem_range.mp he))
  unfold edge
  rw [h _ this.1, h _ this.2]

theorem mkSym_dist {edges : Edges} {y y' : ℕ → ℕ} (a b : ℕ) :
    |Sym.mkSym (GraphCRF.hotPair edges y) a b - Sym.mkSym (GraphCRF.hotPair edges y') a b| ≤ 2 * edges.length := by
  have h1 := hotPair_range edges y a b
  have h2 := hotPair_range edges y b a
  have h3 := hotPair_range edges y' a b
  have h4 := hotPair_range edges y' b a
  unfold Sym.mkSym
  split
  · rename_i heq
    rw [heq] at h1 h3 ⊢
    rw [abs_le]
    constructor <;> linarith
  · rw [abs_le]
    constructor <;> linarith

theorem node_range {m : LatentNode.Model} {x : LatentNode.X} {a : ℕ} (hF : x.features.cols = m.nFeatures)
    (hr : x.features.rows = if m.latentFeatures then a + x.nHidden else a) {h g : Labels} (hs : h.size = a + x.nHidden)
    (hl : Legal a x.nHidden m.nLabels m.nStates h.get) (gs : g.size = a + x.nHidden)
    (gl : Legal a x.nHidden m.nLabels m.nStates g.get) (hE : EdgesIn (a + x.nHidden) x.edges) :
    ∑ k ∈ range (sizeJointFeature m), ((okD ⟨0, fun _ => 0⟩ (LatentNode.jointFeature m x (.discrete h))).get k -
      (okD ⟨0, fun _ => 0⟩ (LatentNode.jointFeature m x (.discrete g))).get k) ^ 2 ≤ nodeBound m x := by
  unfold nodeBound
  refine sum_le_sum fun k _ => ?_
  rw [← sq_abs]
  refine pow_le_pow_left₀ (abs_nonneg _) ?_ 2
  rw [node_feature hF hr hs hl hE, node_feature hF hr gs gl hE]
  unfold okD Vec.append Mat.ravel
  simp only [hF]
  by_cases hlt : k < m.nInput * m.nFeatures
  · simp only [if_pos hlt]
    rw [← sum_sub_distrib]
    refine (abs_sum_le_sum_abs _ _).trans (sum_le_sum fun i hi => ?_)
    rw [← sub_mul, abs_mul]
    refine mul_le_of_le_one_left (abs_nonneg _) ?_
    split <;> split <;> norm_num
  · simp only [if_neg hlt]
    exact mkSym_dist _ _

theorem node_feature_congr {m : LatentNode.Model} {x : LatentNode.X} {a : ℕ} (hF : x.features.cols = m.nFeatures)
    (hr : x.features.rows = if m.latentFeatures then a + x.nHidden else a) {h g : Labels} (hs : h.size = a + x.nHidden)
    (hl : Legal a x.nHidden m.nLabels m.nStates h.get) (gs : g.size = a + x.nHidden)
    (gl : Legal a x.nHidden m.nLabels m.nStates g.get) (hE : EdgesIn (a + x.nHidden) x.edges)
    (hag : ∀ i < a + x.nHidden, h.get i = g.get i) :
    LatentNode.jointFeature m x (.discrete h) = LatentNode.jointFeature m x (.discrete g) := by
  rw [node_feature hF hr hs hl hE, node_feature hF hr gs gl hE, hotPair_congr hE hag]
  have hrows : x.features.rows ≤ a + x.nHidden := by rw [hr]; split <;> omega
  congr 4
  funext s f
  exact sum_congr rfl fun i hi => by rw [hag i (lt_of_lt_of_le (mem_range.mp hi) hrows)]

/-- A `LatentNodeCRF` with its training data is a model with hidden nodes. -/
theorem node_hidden {backend : Bool → Infer} {cw : Vec} {m : LatentNode.Model} {data : List (LatentNode.X × Labels)} {R : ℚ}
    (hL : 2 ≤ m.nLabels) (hhid : 0 < m.nHiddenStates) (hcw : cw.size = m.nLabels) (hpos : ∀ c : ℕ, c < m.nLabels → 0 < cw.get c)
    (hne : data ≠ []) (hd : ∀ d ∈ data, NodeFits m d.1 d.2) (hR : ∀ d ∈ data, nodeBound m d.1 ≤ R) :
    HiddenNodes (latentNodeModel backend cw m) m.nLabels m.nStates cw (xVisible m) LatentNode.X.nHidden data R where
  plain := rfl
  labels := hL
  weights := hpos
  ne := hne
  samples := by
    intro d hdm
    obtain ⟨h1, -, -, -, h2⟩ := hd d hdm
    rw [(hd d hdm).visible]
    exact ⟨h1, rfl, h2⟩
  hidden := by
    intro _ _ _
    unfold LatentNode.Model.nStates
    omega
  loss := fun a b h g hs gs hl gl => node_loss_ok hcw hs gs hl gl
  loss_labels := by
    intro a b h h' hs hs' hl hl' hag o
    obtain ⟨h1, h2⟩ := node_loss_labels (cw := cw) hs hs' hl hl' hag o
    unfold SModel.lossOf
    change (if _ then nodeContinuousLoss _ _ _ _ _ else nodeLoss _ _ _ _ _) = (if _ then nodeContinuousLoss _ _ _ _ _ else nodeLoss _ _ _ _ _)
    rw [h1, h2]
  feature := by
    intro d hdm a b as bs al bl hag k _
    obtain ⟨-, hF, hr, hE, -⟩ := hd d hdm
    rw [(hd d hdm).visible] at as bs al bl hag
    change (okD _ (LatentNode.jointFeature m d.1 (.discrete a))).get k = (okD _ (LatentNode.jointFeature m d.1 (.discrete b))).get k
    rw [node_feature_congr hF hr as al bs bl hE hag]
  range := by
    intro d hdm a b as bs al bl
    obtain ⟨-, hF, hr, hE, -⟩ := hd d hdm
    rw [(hd d hdm).visible] at as bs al bl
    exact (node_range hF hr as al bs bl hE).trans (hR d hdm)

end Verif.Props
