import Verif.Model.LatentInstance
import Verif.Spec.LatentGraphs
import Verif.Spec.Latent
import Verif.Lemmas.GraphOutputs
import Verif.Props.C33
import Verif.Props.C34
import Verif.Props.C94
import Verif.Props.C110

/-!
# `LatentGraphCRF` behind the interface of the latent learners
-/

namespace Verif.Props

open Finset Verif.Common Verif.Spec Verif.Learner Verif.LatentGraph
open Verif.GraphCRF (Infer UN PW sizeJointFeature)

/-- label of a state. -/
def labelOf (m : LatentGraph.Model) (s : ℕ) : ℕ := (statesMap m.nStatesPerLabel).get s

theorem labelOf_spec {m : LatentGraph.Model} {s : ℕ} (hs : s < m.nStates) :
    labelOf m s < m.nLabels ∧ OwnsState m.nStatesPerLabel (labelOf m s) s := by
  obtain ⟨l, hl, h1⟩ := exists_block m.nStatesPerLabel hs
  have h2 : Owns m.nStatesPerLabel l s := (owns_iff _ _ _).mpr h1
  have h3 : labelOf m s = l := statesMap_of_owns _ hl h2
  rw [h3]
  exact ⟨hl, h2⟩

theorem labelOf_owns {m : LatentGraph.Model} {l s : ℕ} (hl : l < m.nLabels) (h : OwnsState m.nStatesPerLabel l s) :
    labelOf m s = l ∧ s < m.nStates := by
  refine ⟨statesMap_of_owns _ hl h, ?_⟩
  have h2 := ((owns_iff _ _ _).mp (show Owns m.nStatesPerLabel l s from h)).2
  exact lt_of_lt_of_le h2 (take_sum_le _ _)

theorem labelFromLatent_ok {m : LatentGraph.Model} {n : ℕ} {h : Labels} (hs : h.size = n) (hv : Valid n m.nStates h.get) :
    labelFromLatent m h = .ok ⟨h.size, fun i => labelOf m (h.get i)⟩ := by
  unfold labelFromLatent
  rw [if_neg (not_not.mpr fun i hi => hv i (by omega))]
  rfl

theorem completes_labels {m : LatentGraph.Model} {n : ℕ} {y h : Labels}
    (hc : Completes m.nStatesPerLabel n y (.discrete h)) :
    h.size = n ∧ Valid n m.nStates h.get ∧ ∀ i < n, labelOf m (h.get i) = y.get i := by
  obtain ⟨h', e, h1, h2⟩ := hc
  cases e
  exact ⟨h1, fun i hi => (labelOf_owns (h2 i hi).1 (h2 i hi).2).2, fun i hi => (labelOf_owns (h2 i hi).1 (h2 i hi).2).1⟩

/-! ### the loss -/

theorem loss_congr_left {cw : Option Vec} {a a' b : Labels} (hs : a.size = a'.size) (h : ∀ i < a.size, a.get i = a'.get i) :
    Loss.loss cw a b = Loss.loss cw a' b := by
  obtain ⟨n, f⟩ := a
  obtain ⟨n', g⟩ := a'
  simp only at hs h
  subst hs
  unfold Loss.loss
  simp only
  split
  · rfl
  · cases cw with
    | none =>
      simp only
      congr 1
      exact sum_congr rfl fun i hi => by simp only [h i (mem_range.mp hi)]
    | some c =>
      simp only
      have e : (∀ i < n, f i < c.size) ↔ ∀ i < n, g i < c.size :=
        ⟨fun H i hi => by rw [← h i hi]; exact H i hi, fun H i hi => by rw [h i hi]; exact H i hi⟩
      by_cases hc : ∀ i < n, f i < c.size
      · rw [if_pos hc, if_pos (e.mp hc)]
        congr 1
        exact sum_congr rfl fun i hi => by simp only [h i (mem_range.mp hi)]
      · rw [if_neg hc, if_neg (fun H => hc (e.mpr H))]

theorem continuousLoss_congr_left {cw : Option Vec} {a a' : Labels} {M : Mat} (hs : a.size = a'.size)
    (h : ∀ i < a.size, a.get i = a'.get i) : Loss.continuousLoss cw a M = Loss.continuousLoss cw a' M := by
  obtain ⟨n, f⟩ := a
  obtain ⟨n', g⟩ := a'
  simp only at hs h
  subst hs
  unfold Loss.continuousLoss
  simp only
  have e : ∀ k, (∀ i < n, f i < k) ↔ ∀ i < n, g i < k := fun k =>
    ⟨fun H i hi => by rw [← h i hi]; exact H i hi, fun H i hi => by rw [h i hi]; exact H i hi⟩
  split
  · rfl
  · by_cases hm : ∀ i < n, f i < M.cols
    · rw [if_neg (not_not.mpr hm), if_neg (not_not.mpr ((e _).mp hm))]
      cases cw with
      | none =>
        simp only
        congr 1
        exact sum_congr rfl fun i hi => by rw [h i (mem_range.mp hi)]
      | some c =>
        simp only
        by_cases hc : ∀ i < n, f i < c.size
        · rw [if_pos hc, if_pos ((e _).mp hc)]
          congr 1
          exact sum_congr rfl fun i hi => by rw [h i (mem_range.mp hi)]
        · rw [if_neg hc, if_neg (fun H => hc ((e _).mpr H))]
    · rw [if_pos hm, if_pos (fun H => hm ((e _).mpr H))]

/-- the loss of two latent labellings. -/
theorem latent_loss_ok {backend : Bool → Infer} {m : LatentGraph.Model} {n : ℕ} {h g : Labels} (hs : h.size = n)
    (hv : Valid n m.nStates h.get) (gs : g.size = n) (gv : Valid n m.nStates g.get) :
    (latentGraphModel backend m).lossOf (.discrete h) (.discrete g) =
      ∑ i ∈ range n, if labelOf m (h.get i) = labelOf m (g.get i) then 0 else 1 := by
  change okD 0 (LatentGraph.loss m h g) = _
  unfold LatentGraph.loss
  rw [labelFromLatent_ok hs hv, labelFromLatent_ok gs gv]
  simp only [bind, Except.bind]
  rw [loss_some_ok (n := n) (c := ⟨m.nLabels, fun _ => 1⟩) (y := ⟨h.size, fun i => labelOf m (h.get i)⟩)
    (yhat := ⟨g.size, fun i => labelOf m (g.get i)⟩) hs gs (fun i hi => (labelOf_spec (hv i hi)).1)]
  change weightedHamming _ _ _ _ = _
  unfold weightedHamming
  exact sum_congr rfl fun i _ => by simp

/-- the loss depends on the labels of the first argument only. -/
theorem latent_loss_labels {backend : Bool → Infer} {m : LatentGraph.Model} {n : ℕ} {y h h' : Labels}
    (hh : Completes m.nStatesPerLabel n y (.discrete h)) (hh' : Completes m.nStatesPerLabel n y (.discrete h')) (o : YVal) :
    (latentGraphModel backend m).lossOf (.discrete h) o = (latentGraphModel backend m).lossOf (.discrete h') o := by
  obtain ⟨hs, hv, hl⟩ := completes_labels hh
  obtain ⟨hs', hv', hl'⟩ := completes_labels hh'
  cases o with
  | discrete g =>
    change okD 0 (LatentGraph.loss m h g) = okD 0 (LatentGraph.loss m h' g)
    unfold LatentGraph.loss
    rw [labelFromLatent_ok hs hv, labelFromLatent_ok hs' hv']
    simp only [bind, Except.bind]
    cases labelFromLatent m g with
    | error e => rfl
    | ok b =>
      simp only
      rw [loss_congr_left (a := ⟨h.size, fun i => labelOf m (h.get i)⟩) (a' := ⟨h'.size, fun i => labelOf m (h'.get i)⟩)
        (hs.trans hs'.symm)]
      intro i hi
      have hi : i < n := by have : i < h.size := hi; omega
      exact (hl i hi).trans (hl' i hi).symm
  | relaxed u p =>
    change okD 0 (LatentGraph.continuousLoss m h _) = okD 0 (LatentGraph.continuousLoss m h' _)
    unfold LatentGraph.continuousLoss
    rw [labelFromLatent_ok hs hv, labelFromLatent_ok hs' hv']
    simp only [bind, Except.bind]
    rw [continuousLoss_congr_left (a := ⟨h.size, fun i => labelOf m (h.get i)⟩)
      (a' := ⟨h'.size, fun i => labelOf m (h'.get i)⟩) (hs.trans hs'.symm)]
    intro i hi
    have hi : i < n := by have : i < h.size := hi; omega
    exact (hl i hi).trans (hl' i hi).symm

/-! ### loss-augmented inference -/

theorem latent_value {backend : Bool → Infer} {m : LatentGraph.Model} {outputs : GraphCRF.X → Set YVal} {x : GraphCRF.X}
    (hx : Fits m.graph x) (hS : 1 ≤ m.nStates) {h : Labels} (hs : h.size = x.features.rows)
    (hv : Valid x.features.rows m.nStates h.get) (y : YVal) (w : ℕ → ℚ) :
    (problemOf (latentGraphModel backend m) outputs).value w x y (.discrete h) =
      Spec.score x.features.rows x.edges (UN m.graph x.features w) (fun _ => PW m.graph w) h.get := by
  rw [← outputScore_labelling hx.2.2 hv]
  exact value_output (m := m.graph) hx.2.1 hx.2.2 hS (.inl ⟨h, rfl, hs, hv⟩) w

/-- Families of outputs that contain all labellings of a graph or none. -/
def AllOrNone (S : ℕ) (A : ℕ → Edges → Prop) (n : ℕ) (edges : Edges) : Set YVal := {v | A n edges ∧ IsLabelling n S v}

theorem latent_exact {backend : Bool → Infer} {m : LatentGraph.Model} (hS : 1 ≤ m.nStates) {A : ℕ → Edges → Prop}
    (hsolve : SolvesOver m.nStates (AllOrNone m.nStates A) (backend true)) :
    (problemOf (latentGraphModel backend m) (outputsOver m.graph (AllOrNone m.nStates A))).ExactLossAug
      (fun x y w => (latentGraphModel backend m).lossAug x y w true) := by
  intro x y w hy h0
  obtain ⟨hx, hA, t, rfl, ht, htv⟩ := hy
  obtain ⟨hn, hF, hE⟩ := hx
  have haug : ∀ U : ℕ → ℕ → ℚ, augment m ⟨x.features.rows, m.nStates, U⟩ t = .ok ⟨x.features.rows, m.nStates, fun i s =>
      if s < m.nStates ∧ labelOf m (t.get i) ≠ labelOf m s then U i s + 1 else U i s⟩ := by
    intro U
    unfold augment
    rw [labelFromLatent_ok ht htv]
    simp only
    rw [if_neg (by omega)]
    congr 2
    funext i s
    exact augment_fold _ _ _ _ _ _
  obtain ⟨v, ⟨-, g, rfl, gs, gv⟩, hinf, hmax⟩ := hsolve x.features.rows x.edges hn hE ⟨_, hA, t, rfl, ht, htv⟩
    (fun i s => if s < m.nStates ∧ labelOf m (t.get i) ≠ labelOf m s then UN m.graph x.features w i s + 1
      else UN m.graph x.features w i s) (PW m.graph w)
  have hla : (latentGraphModel backend m).lossAug x (.discrete t) w true = .discrete g := by
    change okD _ (LatentGraph.lossAugmentedInference (backend true) m x t ⟨sizeJointFeature m.graph, w⟩) = _
    unfold LatentGraph.lossAugmentedInference
    rw [GraphCRF.checkSizeW_ok (w := ⟨sizeJointFeature m.graph, w⟩) rfl,
      GraphCRF.unary_ok (m := m.graph) (w := ⟨sizeJointFeature m.graph, w⟩) hF rfl,
      GraphCRF.pairwise_ok (m := m.graph) (w := ⟨sizeJointFeature m.graph, w⟩) hF rfl]
    simp only [bind, Except.bind]
    have := haug (UN m.graph x.features w)
    change augment m ⟨x.features.rows, m.graph.nStates, UN m.graph x.features w⟩ t = _ at this
    rw [this]
    simp only
    change okD _ (backend true _ (.mat ⟨m.nStates, m.nStates, _⟩) _) = _
    rw [hinf]
    rfl
  have hscore : ∀ z : Labels, Valid x.features.rows m.nStates z.get →
      Spec.score x.features.rows x.edges (fun i s => if s < m.nStates ∧ labelOf m (t.get i) ≠ labelOf m s then
        UN m.graph x.features w i s + 1 else UN m.graph x.features w i s) (fun _ => PW m.graph w) z.get =
      Spec.score x.features.rows x.edges (UN m.graph x.features w) (fun _ => PW m.graph w) z.get +
        ∑ i ∈ range x.features.rows, if labelOf m (t.get i) = labelOf m (z.get i) then (0 : ℚ) else 1 := by
    intro z hz
    unfold Spec.score
    rw [add_right_comm, ← sum_add_distrib]
    congr 1
    refine sum_congr rfl fun i hi => ?_
    have := hz i (mem_range.mp hi)
    by_cases hc : labelOf m (t.get i) = labelOf m (z.get i) <;> simp [this, hc]
  simp only [hla]
  refine ⟨⟨⟨hn, hF, hE⟩, hA, g, rfl, gs, gv⟩, ?_⟩
  rintro z ⟨-, -, z, rfl, zs, zv⟩
  have h1 := hmax (.discrete z) ⟨hA, z, rfl, zs, zv⟩
  rw [outputScore_labelling hE zv, outputScore_labelling hE gv, hscore z zv, hscore g gv] at h1
  unfold Problem.violation
  rw [latent_value ⟨hn, hF, hE⟩ hS zs zv, latent_value ⟨hn, hF, hE⟩ hS gs gv]
  have l1 : (problemOf (latentGraphModel backend m) (outputsOver m.graph (AllOrNone m.nStates A))).loss (.discrete t)
      (.discrete z) = _ := latent_loss_ok (backend := backend) ht htv zs zv
  have l2 : (problemOf (latentGraphModel backend m) (outputsOver m.graph (AllOrNone m.nStates A))).loss (.discrete t)
      (.discrete g) = _ := latent_loss_ok (backend := backend) ht htv gs gv
  rw [l1, l2]
  linarith

/-! ### completions -/

/-- The completions of a label array that compete for an instance. -/
def latentCompletions (m : LatentGraph.Model) (A : ℕ → Edges → Prop) (x : GraphCRF.X) (y : Labels) : Set YVal :=
  {v | Fits m.graph x ∧ A x.features.rows x.edges ∧ y.size = x.features.rows ∧
    Completes m.nStatesPerLabel x.features.rows y v}

theorem latent_labelOnly {backend : Bool → Infer} {m : LatentGraph.Model} {A : ℕ → Edges → Prop}
    (samples : List (GraphCRF.X × Labels)) :
    (problemOf (latentGraphModel backend m) (outputsOver m.graph (AllOrNone m.nStates A))).LabelOnly
      (latentCompletions m A) samples := by
  rintro s - h ⟨hx, hA, -, hc⟩
  obtain ⟨t, rfl, -⟩ := id hc
  obtain ⟨ts, tv, tl⟩ := completes_labels hc
  refine ⟨⟨⟨hx, hA, t, rfl, ts, tv⟩, ?_⟩, ?_⟩
  · change (latentGraphModel backend m).lossOf (.discrete t) (.discrete t) = 0
    rw [latent_loss_ok ts tv ts tv]
    simp
  · rintro h' ⟨-, -, -, hc'⟩ o
    obtain ⟨t', rfl, -⟩ := id hc'
    exact ⟨latent_loss_labels hc hc' o, fun k => rfl⟩

/-- weights of norm at most `ρ`. -/
def Short (m : LatentGraph.Model) (ρ : ℚ) (w : ℕ → ℚ) : Prop :=
  ∑ k ∈ range (sizeJointFeature m.graph), w k * w k ≤ ρ ^ 2

theorem Short.abs_le {m : LatentGraph.Model} {ρ : ℚ} (hρ : 0 ≤ ρ) {w : ℕ → ℚ} (h : Short m ρ w) {k : ℕ}
    (hk : k < sizeJointFeature m.graph) : |w k| ≤ ρ := by
  refine abs_le_of_sq_le_sq ?_ hρ
  refine le_trans ?_ h
  rw [pow_two]
  exact single_le_sum (f := fun k => w k * w k) (fun k _ => mul_self_nonneg _) (mem_range.mpr hk)

theorem Short.unary {m : LatentGraph.Model} {ρ : ℚ} (hρ : 0 ≤ ρ) {w : ℕ → ℚ} (h : Short m ρ w) (x : Mat) (i : ℕ) {s : ℕ}
    (hs : s < m.nStates) : -(ρ * ∑ f ∈ range m.nFeatures, |x.get i f|) ≤ UN m.graph x w i s := by
  unfold UN
  rw [mul_sum, ← sum_neg_distrib]
  refine sum_le_sum fun f hf => ?_
  have hf : f < m.nFeatures := mem_range.mp hf
  have hk : s * m.nFeatures + f < sizeJointFeature m.graph := by
    have h1 : s * m.nFeatures + f < m.nStates * m.nFeatures := flat_lt hs hf
    have h2 : m.nStates * m.nFeatures ≤ sizeJointFeature m.graph := by
      unfold sizeJointFeature Model.graph
      simp only
      split <;> omega
    omega
  have h1 := h.abs_le hρ hk
  have h2 := mul_le_mul_of_nonneg_right h1 (abs_nonneg (x.get i f))
  rw [← abs_mul, mul_comm (w _)] at h2
  have h3 := neg_abs_le (x.get i f * w (s * m.nFeatures + f))
  change -(ρ * |x.get i f|) ≤ x.get i f * w (s * m.nFeatures + f)
  linarith

theorem Short.pairwise {m : LatentGraph.Model} {ρ : ℚ} (hρ : 0 ≤ ρ) {w : ℕ → ℚ} (h : Short m ρ w) {a b : ℕ}
    (ha : a < m.nStates) (hb : b < m.nStates) : |PW m.graph w a b| ≤ ρ := by
  rw [PW_eq]
  have hsz : sizeJointFeature m.graph = if m.directed then m.nStates * m.nFeatures + m.nStates ^ 2
      else m.nStates * m.nFeatures + Sym.tri m.nStates := rfl
  by_cases hd : m.directed
  · rw [if_pos hd] at hsz
    rw [if_pos (show m.graph.directed = true from hd)]
    refine h.abs_le hρ ?_
    rw [hsz, pow_two]
    exact Nat.add_lt_add_left (flat_lt ha hb) _
  · rw [if_neg hd] at hsz
    rw [if_neg (show ¬ m.graph.directed = true from hd)]
    refine h.abs_le hρ ?_
    rw [hsz]
    exact Nat.add_lt_add_left (Sym.tri_add_lt (min_le_max) (max_lt ha hb)) _

/-- changing one vertex changes only the couplings at this vertex. -/
theorem score_switch {n S : ℕ} {edges : Edges} (hE : EdgesIn n edges) (U : ℕ → ℕ → ℚ) (P : ℕ → ℕ → ℚ) {ρ : ℚ}
    (hP : ∀ a < S, ∀ b < S, |P a b| ≤ ρ) {h : ℕ → ℕ} (hv : Valid n S h) {i s : ℕ} (hi : i < n) (hs : s < S) :
    Spec.score n edges U (fun _ => P) h + U i s - U i (h i) - degree edges i * (2 * ρ) ≤
      Spec.score n edges U (fun _ => P) (setState h i s) := by
  have hv' : Valid n S (setState h i s) := by
    intro j hj
    unfold setState
    split
    · exact hs
    · exact hv j hj
  unfold Spec.score
  have hu : ∑ j ∈ range n, U j (setState h i s j) = ∑ j ∈ range n, U j (h j) + U i s - U i (h i) := by
    have h1 := Finset.add_sum_erase (range n) (fun j => U j (setState h i s j)) (mem_range.mpr hi)
    have h2 := Finset.add_sum_erase (range n) (fun j => U j (h j)) (mem_range.mpr hi)
    have h3 : ∑ j ∈ (range n).erase i, U j (setState h i s j) = ∑ j ∈ (range n).erase i, U j (h j) := by
      apply sum_congr rfl; intro j hj
      unfold setState
      rw [if_neg (Finset.ne_of_mem_erase hj)]
    have h4 : setState h i s i = s := by unfold setState; simp
    simp only [h4] at h1
    rw [← h1, ← h2, h3]; ring
  have hp : ∑ e ∈ range edges.length, P (h (edges.getD e (0, 0)).1) (h (edges.getD e (0, 0)).2) -
      degree edges i * (2 * ρ) ≤ ∑ e ∈ range edges.length,
        P (setState h i s (edges.getD e (0, 0)).1) (setState h i s (edges.getD e (0, 0)).2) := by
    have h5 : (degree edges i : ℚ) * (2 * ρ) = ∑ e ∈ range edges.length,
        if (edges.getD e (0, 0)).1 = i ∨ (edges.getD e (0, 0)).2 = i then 2 * ρ else 0 := by
      unfold degree
      rw [← sum_filter, sum_const, nsmul_eq_mul]
    rw [h5, ← sum_sub_distrib]
    apply sum_le_sum; intro e he
    have hr := hE _ (getD_mem (mem_range.mp he))
    generalize edges.getD e (0, 0) = q at hr ⊢
    by_cases hq : q.1 = i ∨ q.2 = i
    · rw [if_pos hq]
      have h6 := abs_le.mp (hP _ (hv _ hr.1) _ (hv _ hr.2))
      have h7 := abs_le.mp (hP _ (hv' _ hr.1) _ (hv' _ hr.2))
      linarith [h6.2, h7.1]
    · rw [if_neg hq]
      have h1 : setState h i s q.1 = h q.1 := by unfold setState; rw [if_neg fun e => hq (.inl e)]
      have h2 : setState h i s q.2 = h q.2 := by unfold setState; rw [if_neg fun e => hq (.inr e)]
      rw [h1, h2]
      linarith
  rw [hu]; linarith

/-- For short weights, `latent` returns a completion of the label array of maximal score. -/
theorem latent_completion {backend : Bool → Infer} {m : LatentGraph.Model}
    (pred : List (GraphCRF.X × Labels) → ℕ → ℕ → ℕ → ℕ) (hpos : ∀ l < m.nLabels, 0 < m.nStatesPerLabel.getD l 0)
    (hL : 1 ≤ m.nLabels) {A : ℕ → Edges → Prop}
    (hsolve : SolvesOver m.nStates (AllOrNone m.nStates A) (backend false)) (data : List (GraphCRF.X × Labels))
    (hd : LatentData m.nStatesPerLabel m.nFeatures data) (hA : ∀ d ∈ data, A d.1.features.rows d.1.edges) {ρ : ℚ} (hρ : 0 ≤ ρ)
    (hsmall : ∀ d ∈ data, ∀ i < d.1.features.rows,
      ρ * (∑ f ∈ range m.nFeatures, |d.1.features.get i f| + 2 * degree d.1.edges i) < 100) (w : ℕ → ℚ) (hw : Short m ρ w) :
    (problemOf (latentGraphModel backend m) (outputsOver m.graph (AllOrNone m.nStates A))).ExactCompletionAt
      (latentCompletions m A) (latentGraph backend m pred).latent data w := by
  rintro ⟨x, y⟩ hdm
  obtain ⟨hn, hF, hE, hys, hyl⟩ := hd _ hdm
  have hAd := hA _ hdm
  have hsm := hsmall _ hdm
  simp only at hn hF hE hys hyl hAd hsm
  have hfirst : ∀ l < m.nLabels, OwnsState m.nStatesPerLabel l (m.nStatesPerLabel.take l).sum := fun l hl =>
    ⟨le_rfl, by have := hpos l hl; omega⟩
  have hS : 1 ≤ m.nStates := by
    have := (labelOf_owns (by omega) (hfirst 0 (by omega))).2
    omega
  have hfits : Fits m.graph x := ⟨hn, hF, hE⟩
  set U := UN m.graph x.features w with hU
  set P := PW m.graph w with hP
  set M := max (matMax ⟨x.features.rows, m.nStates, U⟩) 1 with hM
  set Um : ℕ → ℕ → ℚ := fun i s => if labelOf m s ≠ y.get i then -100 * M else U i s with hUm
  have hmask : maskedUnaries m ⟨x.features.rows, m.nStates, U⟩ y = .ok ⟨x.features.rows, m.nStates, Um⟩ := by
    unfold maskedUnaries
    rw [if_neg (Nat.mul_pos hn hS).ne', if_neg (by rw [hys]; simp)]
    rfl
  obtain ⟨v, ⟨-, h, rfl, hs, hv⟩, hinf, hmax⟩ := hsolve x.features.rows x.edges hn hE
    ⟨.discrete ⟨x.features.rows, fun _ => 0⟩, hAd, _, rfl, rfl, fun _ _ => hS⟩ Um P
  have hbest : ∀ z : ℕ → ℕ, Valid x.features.rows m.nStates z →
      Spec.score x.features.rows x.edges Um (fun _ => P) z ≤ Spec.score x.features.rows x.edges Um (fun _ => P) h.get := by
    intro z hz
    have := hmax (.discrete ⟨x.features.rows, z⟩) ⟨hAd, _, rfl, rfl, hz⟩
    rw [outputScore_labelling hE (y := ⟨x.features.rows, z⟩) hz, outputScore_labelling hE hv] at this
    exact this
  have hlabs : ∀ i < x.features.rows, labelOf m (h.get i) = y.get i := by
    intro i hi
    by_contra hne
    obtain ⟨o1, o2⟩ := labelOf_owns (hyl i hi) (hfirst _ (hyl i hi))
    have h1 := score_switch hE Um P (fun a ha b hb => hw.pairwise hρ ha hb) hv hi o2
    have h2 := hbest (setState h.get i (m.nStatesPerLabel.take (y.get i)).sum) (by
      intro j hj
      unfold setState
      split
      · exact o2
      · exact hv j hj)
    have h3 : Um i (m.nStatesPerLabel.take (y.get i)).sum = U i (m.nStatesPerLabel.take (y.get i)).sum := by
      rw [hUm]
      simp only
      rw [if_neg (not_not.mpr o1)]
    have h4 : Um i (h.get i) = -100 * M := by
      rw [hUm]
      simp only
      rw [if_pos hne]
    have h5 := hw.unary hρ x.features i o2
    have h6 := hsm i hi
    have h7 : 1 ≤ M := le_max_right _ _
    rw [h3, h4] at h1
    rw [mul_add] at h6
    rw [← hU] at h5
    linarith
  have hlat : (latentGraph backend m pred).latent x y w = .discrete h := by
    change YVal.discrete (okD _ (LatentGraph.latent (backend false) m x y ⟨sizeJointFeature m.graph, w⟩)) = _
    unfold LatentGraph.latent
    rw [GraphCRF.unary_ok (m := m.graph) (w := ⟨sizeJointFeature m.graph, w⟩) hF rfl,
      GraphCRF.pairwise_ok (m := m.graph) (w := ⟨sizeJointFeature m.graph, w⟩) hF rfl]
    simp only [bind, Except.bind]
    have e1 : maskedUnaries m ⟨x.features.rows, m.graph.nStates, UN m.graph x.features w⟩ y =
      .ok ⟨x.features.rows, m.nStates, Um⟩ := hmask
    rw [e1]
    simp only
    have e2 : backend false ⟨x.features.rows, m.nStates, Um⟩ (.mat ⟨m.graph.nStates, m.graph.nStates, PW m.graph w⟩) x.edges =
      .ok (.discrete h) := hinf
    rw [e2]
    simp only
    rw [labelFromLatent_ok hs hv]
    simp only
    rw [if_neg (by rw [hs, hys]; simp), if_neg]
    · rfl
    · rintro ⟨i, hi, hne⟩
      exact hne (hlabs i (by omega))
  have hcomp : Completes m.nStatesPerLabel x.features.rows y (.discrete h) :=
    ⟨h, rfl, hs, fun i hi => ⟨hyl i hi, by
      rw [← hlabs i hi]
      exact (labelOf_spec (hv i hi)).2⟩⟩
  simp only [hlat]
  refine ⟨⟨hfits, hAd, hys, hcomp⟩, ?_⟩
  rintro z ⟨-, -, -, hz⟩
  obtain ⟨z, rfl, -⟩ := id hz
  obtain ⟨zs, zv, zl⟩ := completes_labels hz
  rw [latent_value hfits hS zs zv, latent_value hfits hS hs hv]
  have hsame : ∀ z : ℕ → ℕ, (∀ i < x.features.rows, labelOf m (z i) = y.get i) →
      Spec.score x.features.rows x.edges Um (fun _ => P) z = Spec.score x.features.rows x.edges U (fun _ => P) z := by
    intro z hz
    unfold Spec.score
    congr 1
    refine sum_congr rfl fun i hi => ?_
    rw [hUm]
    simp only
    rw [if_neg (not_not.mpr (hz i (mem_range.mp hi)))]
  have := hbest z.get zv
  rw [hsame _ zl, hsame _ hlabs] at this
  exact this

/-! ### training data -/

/-- Number of vertices of all graphs. -/
def nodeCount (data : List (GraphCRF.X × Labels)) : ℚ := (data.map fun d => (d.1.features.rows : ℚ)).sum

/-- completions of the labels of all samples. -/
def CompletedBy (m : LatentGraph.Model) (A : ℕ → Edges → Prop) (data : List (GraphCRF.X × Labels)) (hs : List YVal) : Prop :=
  List.Forall₂ (fun s h => h ∈ latentCompletions m A s.1 s.2) data hs

theorem completed_mem {m : LatentGraph.Model} {A : ℕ → Edges → Prop} {data : List (GraphCRF.X × Labels)} {hs : List YVal}
    (hc : CompletedBy m A data hs) {s : GraphCRF.X × YVal} (h : s ∈ (data.map Prod.fst).zip hs) :
    ∃ d ∈ data, s.1 = d.1 ∧ s.2 ∈ latentCompletions m A d.1 d.2 := by
  unfold CompletedBy at hc
  induction hc with
  | nil => simp at h
  | @cons d h0 data hs hh _ ih =>
    rw [List.map_cons, List.zip_cons_cons, List.mem_cons] at h
    rcases h with rfl | h
    · exact ⟨d, by simp, rfl, hh⟩
    · obtain ⟨d', h1, h2⟩ := ih h
      exact ⟨d', by simp [h1], h2⟩

theorem first_state {m : LatentGraph.Model} (hpos : ∀ l < m.nLabels, 0 < m.nStatesPerLabel.getD l 0) {l : ℕ}
    (hl : l < m.nLabels) : OwnsState m.nStatesPerLabel l (m.nStatesPerLabel.take l).sum ∧
      labelOf m (m.nStatesPerLabel.take l).sum = l ∧ (m.nStatesPerLabel.take l).sum < m.nStates := by
  have h : OwnsState m.nStatesPerLabel l (m.nStatesPerLabel.take l).sum := ⟨le_rfl, by have := hpos l hl; omega⟩
  exact ⟨h, (labelOf_owns hl h).1, (labelOf_owns hl h).2⟩

/-- a latent labelling with one wrong label. -/
theorem latent_confusable {backend : Bool → Infer} {m : LatentGraph.Model} {A : ℕ → Edges → Prop}
    (hpos : ∀ l < m.nLabels, 0 < m.nStatesPerLabel.getD l 0) (hL : 2 ≤ m.nLabels) {x : GraphCRF.X} {y : Labels} {h : YVal}
    (hh : h ∈ latentCompletions m A x y) :
    ∃ z ∈ outputsOver m.graph (AllOrNone m.nStates A) x, 1 ≤ (latentGraphModel backend m).lossOf h z := by
  obtain ⟨hx, hA, -, hc⟩ := hh
  obtain ⟨t, rfl, -⟩ := id hc
  obtain ⟨ts, tv, tl⟩ := completes_labels hc
  have hn : 0 < x.features.rows := hx.1
  obtain ⟨l, hl, hne⟩ : ∃ l < m.nLabels, l ≠ labelOf m (t.get 0) := by
    by_cases h : labelOf m (t.get 0) = 0
    · exact ⟨1, by omega, by omega⟩
    · exact ⟨0, by omega, by omega⟩
  obtain ⟨-, o1, o2⟩ := first_state hpos hl
  have zv : Valid x.features.rows m.nStates (setState t.get 0 (m.nStatesPerLabel.take l).sum) := by
    intro j hj
    unfold setState
    split
    · exact o2
    · exact tv j hj
  refine ⟨.discrete ⟨x.features.rows, setState t.get 0 (m.nStatesPerLabel.take l).sum⟩, ⟨hx, hA, _, rfl, rfl, zv⟩, ?_⟩
  rw [latent_loss_ok (g := ⟨x.features.rows, setState t.get 0 (m.nStatesPerLabel.take l).sum⟩) ts tv rfl zv]
  refine le_trans (le_of_eq ?_) (single_le_sum (f := fun i => if labelOf m (t.get i) =
    labelOf m (setState t.get 0 (m.nStatesPerLabel.take l).sum i) then (0 : ℚ) else 1)
    (fun i _ => by split <;> norm_num) (mem_range.mpr hn))
  have e : setState t.get 0 (m.nStatesPerLabel.take l).sum 0 = (m.nStatesPerLabel.take l).sum := by
    unfold setState
    simp
  rw [e, o1, if_neg (fun h => hne h.symm)]

theorem latent_trainable {backend : Bool → Infer} {m : LatentGraph.Model} {A : ℕ → Edges → Prop}
    (hpos : ∀ l < m.nLabels, 0 < m.nStatesPerLabel.getD l 0) (hL : 2 ≤ m.nLabels)
    (hsolve : SolvesOver m.nStates (AllOrNone m.nStates A) (backend true)) (data : List (GraphCRF.X × Labels))
    (hne : data ≠ []) (R : ℚ) (hR : ∀ d ∈ data, featureBound m.graph d.1 ≤ R) {hs : List YVal} (hc : CompletedBy m A data hs) :
    Trainable (latentGraphModel backend m) (outputsOver m.graph (AllOrNone m.nStates A)) ((data.map Prod.fst).zip hs) R
      (nodeCount data) := by
  have hlab : 0 < m.nLabels := by omega
  have hS : 1 ≤ m.nStates := by
    have := (first_state hpos hlab).2.2
    omega
  have hlen := List.Forall₂.length_eq hc
  have hmem := fun s h => completed_mem hc (s := s) h
  have hfirst : ∃ s, s ∈ (data.map Prod.fst).zip hs := by
    refine List.exists_mem_of_ne_nil _ fun h0 => hne ?_
    have h1 := congrArg List.length h0
    rw [List.length_zip, List.length_map, ← hlen, min_self] at h1
    exact List.length_eq_zero_iff.mp h1
  have hval : ∀ s ∈ (data.map Prod.fst).zip hs, ∃ t : Labels, s.2 = .discrete t ∧ t.size = s.1.features.rows ∧
      Valid s.1.features.rows m.nStates t.get ∧ Fits m.graph s.1 ∧ A s.1.features.rows s.1.edges := by
    intro s h
    obtain ⟨d, -, e, hx, hA, -, hcm⟩ := hmem s h
    rw [← e] at hx hA hcm
    obtain ⟨t, et, -⟩ := id hcm
    rw [et] at hcm
    obtain ⟨ts, tv, -⟩ := completes_labels hcm
    exact ⟨t, et, ts, tv, hx, hA⟩
  exact {
    ne := by
      obtain ⟨s, h⟩ := hfirst
      exact List.ne_nil_of_mem h
    plain := rfl
    exact_lossAug := latent_exact hS hsolve
    labelled := by
      intro s h
      obtain ⟨t, et, ts, tv, hx, hA⟩ := hval s h
      refine ⟨⟨hx, hA, t, et, ts, tv⟩, ?_⟩
      change (latentGraphModel backend m).lossOf s.2 s.2 = 0
      rw [et, latent_loss_ok ts tv ts tv]
      simp
    range_nonneg := by
      obtain ⟨d, hd⟩ := List.exists_mem_of_ne_nil _ hne
      refine le_trans ?_ (hR d hd)
      exact sum_nonneg fun _ _ => sq_nonneg _
    range := by
      have := graph_range (backend := backend) (cw := ⟨0, fun _ => 0⟩) (m := m.graph) hS (O := AllOrNone m.nStates A)
        (fun n e v hv => .inl hv.2) ((data.map Prod.fst).zip hs) R (by
          intro s h
          obtain ⟨d, hd, e, -⟩ := hmem s h
          rw [e]
          exact hR d hd)
      exact this
    cost := by
      refine ⟨fun s => s.1.features.rows, ?_, ?_⟩
      · rintro s h z ⟨-, -, z, rfl, zs, zv⟩
        obtain ⟨t, et, ts, tv, -, -⟩ := hval s h
        change (latentGraphModel backend m).lossOf s.2 (.discrete z) ≤ _
        rw [et, latent_loss_ok ts tv zs zv]
        refine (sum_le_sum (g := fun _ => (1 : ℚ)) fun i _ => ?_).trans (by simp)
        split <;> norm_num
      · have e : ((data.map Prod.fst).zip hs).map (fun s => (s.1.features.rows : ℚ)) =
            (((data.map Prod.fst).zip hs).map Prod.fst).map fun x => (x.features.rows : ℚ) := by
          rw [List.map_map]
          rfl
        rw [e, List.map_fst_zip (by simp [hlen]), List.map_map]
        exact le_rfl
    confusable := by
      obtain ⟨s, h⟩ := hfirst
      obtain ⟨d, -, e, hcm⟩ := hmem s h
      obtain ⟨z, hz, h1⟩ := latent_confusable (backend := backend) hpos hL hcm
      rw [← e] at hz
      exact ⟨s, h, z, hz, lt_of_lt_of_le one_pos h1⟩ }

/-- weights whose norm is near the optimum are short. -/
theorem latent_short {backend : Bool → Infer} {m : LatentGraph.Model} {A : ℕ → Edges → Prop} {samples : List (GraphCRF.X × YVal)}
    {R N C ε ρ : ℚ} (h : Trainable (latentGraphModel backend m) (outputsOver m.graph (AllOrNone m.nStates A)) samples R N)
    (hC : 0 ≤ C) (hρ : 2 * (C * N + ε) ≤ ρ ^ 2) {w : ℕ → ℚ}
    (hw : (problemOf (latentGraphModel backend m) (outputsOver m.graph (AllOrNone m.nStates A))).NormNear C samples ε w) :
    Short m ρ w := by
  obtain ⟨B, hB, hle⟩ := h.zero hC
  have h1 := hw _ _ hB
  change (∑ k ∈ range (sizeJointFeature m.graph), w k * w k) / 2 ≤ B + ε at h1
  unfold Short
  linarith

/-- the initial completions. -/
theorem latent_init {backend : Bool → Infer} {m : LatentGraph.Model} {A : ℕ → Edges → Prop}
    {pred : List (GraphCRF.X × Labels) → ℕ → ℕ → ℕ → ℕ} {data : List (GraphCRF.X × Labels)}
    (hd : LatentData m.nStatesPerLabel m.nFeatures data) (hA : ∀ d ∈ data, A d.1.features.rows d.1.edges)
    (hpred : ∀ label k r, label < m.nLabels → pred data label k r < m.nStatesPerLabel.getD label 0) :
    CompletedBy m A data ((latentGraph backend m pred).initLatent data) := by
  obtain ⟨H, h1, h2, h3⟩ := C35_kmeans_init m.nStatesPerLabel (data.map Prod.snd) (pred data) (by
    intro y hy i hi
    obtain ⟨d, hdm, rfl⟩ := List.mem_map.mp hy
    obtain ⟨-, -, -, h4, h5⟩ := hd d hdm
    exact h5 i (by omega)) hpred
  rw [List.length_map] at h2
  change List.Forall₂ _ data ((okD [] (kmeansInit m.nStatesPerLabel (data.map Prod.snd) (pred data))).map YVal.discrete)
  rw [h1]
  change List.Forall₂ _ data (H.map YVal.discrete)
  refine List.forall₂_iff_get.mpr ⟨by simp [h2], fun k hk hk' => ?_⟩
  have hkd : data[k] ∈ data := List.getElem_mem hk
  have hkH : k < H.length := by omega
  obtain ⟨g1, g2, g3, g4, g5⟩ := hd _ hkd
  obtain ⟨c1, c2⟩ := h3 k (by simpa using hk)
  simp only [List.getElem_map, List.getD_eq_getElem _ _ hkH] at c1 c2
  simp only [List.get_eq_getElem, List.getElem_map]
  refine ⟨⟨g1, g2, g3⟩, hA _ hkd, g4, H[k], rfl, c1.trans g4, fun i hi => ⟨g5 i hi, ?_⟩⟩
  exact (c2 i (by omega)).2.2

end Verif.Props
