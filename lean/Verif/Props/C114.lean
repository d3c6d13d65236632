import Verif.Model.MultiLabelInstance
import Verif.Props.C17
import Verif.Props.C112

/-!
# C114: training a `MultiLabelClf`
-/

namespace Verif.Props

open Finset Verif.Common Verif.Spec Verif.Learner Verif.Dispatch Verif.Lemmas
open Verif.GraphCRF (Infer checkSizeW_ok)
open Verif.MaxProd (maxProductInfer)
open Verif.MultiLabel (multiLabelModel multiLabelFeature unaryMarginals)

/-- Score of a label: weights times features. -/
def mlU (m : MultiLabel.Model) (x : Vec) (w : ℕ → ℚ) (l s : ℕ) : ℚ :=
  if s = 0 then -∑ f ∈ range m.nFeatures, x.get f * w (l * m.nFeatures + f)
  else ∑ f ∈ range m.nFeatures, x.get f * w (l * m.nFeatures + f)

/-- Score of a pair of labels. -/
def mlP (m : MultiLabel.Model) (w : ℕ → ℚ) (e a b : ℕ) : ℚ := w (m.nLabels * m.nFeatures + ((e * 2 + a) * 2 + b))

/-- There is a label, the sample has the right number of features, edges join labels. -/
def MultiLabelFits (m : MultiLabel.Model) (x : Vec) : Prop :=
  1 ≤ m.nLabels ∧ x.size = m.nFeatures ∧ EdgesIn m.nLabels m.edges

/-- The outputs that compete. -/
def multiLabelOutputs (m : MultiLabel.Model) (O : ℕ → List (ℕ × ℕ) → Set YVal) (x : Vec) : Set YVal :=
  {v | MultiLabelFits m x ∧ v ∈ O m.nLabels m.edges}

/-- Joint feature in terms of marginals. -/
def mlPsi (m : MultiLabel.Model) (x : Vec) (v : YVal) : Vec :=
  (Mat.ravel ⟨m.nLabels, m.nFeatures, fun l f => x.get f * (2 * nodeMarg 2 v l 1 - 1)⟩).append
    (Ten.ravel ⟨m.edges.length, 2, 2, edgeMarg 2 m.edges v⟩)

theorem mlPsi_size (m : MultiLabel.Model) (x : Vec) (v : YVal) : (mlPsi m x v).size = MultiLabel.sizeJointFeature m := by
  unfold mlPsi MultiLabel.sizeJointFeature Vec.append Mat.ravel Ten.ravel
  simp only
  rw [mul_comm m.nLabels]; ring

theorem ml_feature_output {m : MultiLabel.Model} {x : Vec} (h : MultiLabelFits m x) {v : YVal}
    (hv : IsRelaxed m.nLabels 2 m.edges v) (k : ℕ) (_ : k < MultiLabel.sizeJointFeature m) :
    multiLabelFeature m x v k = (mlPsi m x v).get k := by
  obtain ⟨-, hF, hE⟩ := h
  unfold multiLabelFeature
  rcases hv with ⟨y, rfl, hs, hv⟩ | ⟨u, p, rfl, hu, hp, -⟩
  · rw [ml_joint_ok hs hv hE]
    change (Vec.append _ _).get k = (Vec.append _ _).get k
    unfold Vec.append Mat.ravel unaryMarginals
    simp only
    rw [hs, hF]
    split
    · rename_i hlt
      have hl : k / m.nFeatures < m.nLabels := Nat.div_lt_of_lt_mul (by rw [mul_comm]; exact hlt)
      have : (y.get (k / m.nFeatures) : ℚ) = if 1 = y.get (k / m.nFeatures) then 1 else 0 := by
        have := hv _ hl
        rcases (by omega : y.get (k / m.nFeatures) = 0 ∨ y.get (k / m.nFeatures) = 1) with h | h <;> rw [h] <;> simp
      rw [this]
      rfl
    · rfl
  · change (okD _ (MultiLabel.jointFeature m x (.relaxed u p))).get k = _
    unfold MultiLabel.jointFeature
    simp only
    rw [if_neg (by omega), show u.size / 2 = m.nLabels by omega]
    change (Vec.append _ _).get k = (Vec.append _ _).get k
    unfold Vec.append Mat.ravel unaryMarginals Ten.ravel
    simp only
    rw [hF]
    split
    · rfl
    · change p.get _ = p.get _
      congr 1
      generalize k - m.nLabels * m.nFeatures = j
      omega

/-- weights times joint feature is the score of the output. -/
theorem ml_value {m : MultiLabel.Model} {x : Vec} (h : MultiLabelFits m x) {v : YVal} (hv : IsRelaxed m.nLabels 2 m.edges v)
    (w : ℕ → ℚ) : dot (MultiLabel.sizeJointFeature m) w (multiLabelFeature m x v) =
      edgeScore m.nLabels 2 m.edges (mlU m x w) (mlP m w) v := by
  have hp := isRelaxed_polytope h.2.2 hv
  have h1 : dot (MultiLabel.sizeJointFeature m) w (multiLabelFeature m x v) =
      dot (MultiLabel.sizeJointFeature m) w (mlPsi m x v).get := by
    unfold dot
    exact sum_congr rfl fun k hk => by rw [ml_feature_output h hv k (mem_range.mp hk)]
  rw [h1, ← mlPsi_size m x v]
  unfold mlPsi
  rw [dot_append, dot_ravel, dot_ravel3]
  unfold edgeScore marginalScore
  congr 1
  · simp only
    refine sum_congr rfl fun l hl => ?_
    have hn := hp.normalised l (mem_range.mp hl)
    rw [sum_range_succ, sum_range_one] at hn ⊢
    unfold mlU
    simp only [if_true, one_ne_zero, if_false]
    have e1 : 2 * nodeMarg 2 v l 1 - 1 = nodeMarg 2 v l 1 - nodeMarg 2 v l 0 := by rw [← hn]; ring
    rw [e1, neg_mul, ← sub_eq_neg_add, ← mul_sub, sum_mul]
    exact sum_congr rfl fun f _ => by ring

/-- losses. -/
theorem ml_lossOf {backend : Bool → Infer} {cw : Vec} {m : MultiLabel.Model} (hc : 2 ≤ cw.size) {n : ℕ} {edges : Edges}
    {t : Labels} (ht : t.size = n) (htv : Valid n 2 t.get) {v : YVal} (h : IsRelaxed n 2 edges v) :
    (multiLabelModel backend cw m).lossOf (.discrete t) v = marginalLoss n cw.get 2 t.get v := by
  have hcw : ∀ i < n, t.get i < cw.size := fun i hi => (htv i hi).trans_le hc
  rcases h with ⟨y, rfl, hs, hv⟩ | ⟨u, p, rfl, hu, hp, -⟩
  · change okD 0 (Loss.loss (some cw) t y) = _
    rw [loss_some_ok ht hs hcw]
    change weightedHamming n cw.get t.get y.get = _
    unfold weightedHamming marginalLoss nodeMarg
    refine sum_congr rfl fun i _ => ?_
    by_cases h : t.get i = y.get i <;> simp [h]
  · change okD 0 (Loss.continuousLoss (some cw) t _) = _
    subst ht
    have hdiv : u.size / 2 = t.size := by omega
    rw [hdiv, continuousLoss_some_ok (m := ⟨t.size, 2, fun i s => u.get (i * 2 + s)⟩) le_rfl htv hcw]
    rfl

/-- with an inference method that finds the best output, loss-augmented inference is exact. -/
theorem ml_exact {backend : Bool → Infer} {cw : Vec} {m : MultiLabel.Model} (hc : 2 ≤ cw.size) {O : ℕ → Edges → Set YVal}
    (hO : ∀ n edges, ∀ v ∈ O n edges, IsRelaxed n 2 edges v) (relaxed : Bool) (hsolve : SolvesEdges 2 O (backend relaxed)) :
    (problemOf (multiLabelModel backend cw m) (multiLabelOutputs m O)).ExactLossAug
      fun x y w => (multiLabelModel backend cw m).lossAug x y w relaxed := by
  rintro x y w ⟨hfit, hyO⟩ h0
  obtain ⟨hn, hF, hE⟩ := id hfit
  have hval : ∀ v ∈ O m.nLabels m.edges, (problemOf (multiLabelModel backend cw m) (multiLabelOutputs m O)).value w x y v =
      edgeScore m.nLabels 2 m.edges (mlU m x w) (mlP m w) v := fun v hv => ml_value hfit (hO _ _ v hv) w
  cases y with
  | relaxed u p =>
    exfalso
    change (1 : ℚ) = 0 at h0
    norm_num at h0
  | discrete t =>
    obtain ⟨ht, htv⟩ : t.size = m.nLabels ∧ Valid m.nLabels 2 t.get := by
      rcases hO _ _ _ hyO with ⟨t', h1, h2, h3⟩ | ⟨u, p, h1, -⟩
      · cases h1; exact ⟨h2, h3⟩
      · cases h1
    have hcw : ∀ i < m.nLabels, t.get i < cw.size := fun i hi => (htv i hi).trans_le hc
    obtain ⟨v, hv, hinf, hmax⟩ := hsolve m.nLabels m.edges hn hE ⟨_, hyO⟩
      (fun i s => if s = t.get i then mlU m x w i s else mlU m x w i s + cw.get (t.get i)) (mlP m w)
    have hla : (multiLabelModel backend cw m).lossAug x (.discrete t) w relaxed = v := by
      change okD _ (MultiLabel.lossAugmentedInference (backend relaxed) cw m x t ⟨MultiLabel.sizeJointFeature m, w⟩) = v
      unfold MultiLabel.lossAugmentedInference
      rw [checkSizeW_ok (w := ⟨MultiLabel.sizeJointFeature m, w⟩) rfl,
        ml_unary_ok (w := ⟨MultiLabel.sizeJointFeature m, w⟩) hF rfl,
        ml_pairwise_ok (w := ⟨MultiLabel.sizeJointFeature m, w⟩) rfl]
      simp only [bind, Except.bind]
      rw [augment_ok (U := ⟨m.nLabels, 2, _⟩) ht hcw]
      simp only
      refine (congrArg (okD _) hinf).trans ?_
      rfl
    simp only [hla]
    refine ⟨⟨hfit, hv⟩, fun z hz => ?_⟩
    have hzO := hz.2
    have h1 := hmax z hzO
    have hzr := hO _ _ z hzO
    have hvr := hO _ _ v hv
    rw [edgeScore_augment _ _ _ _ htv (isRelaxed_polytope hE hzr),
      edgeScore_augment _ _ _ _ htv (isRelaxed_polytope hE hvr)] at h1
    have l1 : (problemOf (multiLabelModel backend cw m) (multiLabelOutputs m O)).loss (.discrete t) z = _ :=
      ml_lossOf hc ht htv hzr
    have l2 : (problemOf (multiLabelModel backend cw m) (multiLabelOutputs m O)).loss (.discrete t) v = _ :=
      ml_lossOf hc ht htv hvr
    unfold Problem.violation
    rw [l1, l2, hval z hzO, hval v hv]
    linarith

/-- Bound on the squared distance between joint features: four times the squared norm of the sample per label, and four per edge. -/
def multiLabelBound (m : MultiLabel.Model) (x : Vec) : ℚ :=
  4 * m.nLabels * ∑ f ∈ range m.nFeatures, x.get f ^ 2 + 4 * m.edges.length

theorem ml_range {m : MultiLabel.Model} {x : Vec} (h : MultiLabelFits m x) {y z : YVal} (hy : IsRelaxed m.nLabels 2 m.edges y)
    (hz : IsRelaxed m.nLabels 2 m.edges z) :
    ∑ k ∈ range (MultiLabel.sizeJointFeature m), (multiLabelFeature m x y k - multiLabelFeature m x z k) ^ 2 ≤ multiLabelBound m x := by
  have py := isRelaxed_polytope h.2.2 hy
  have pz := isRelaxed_polytope h.2.2 hz
  rw [sum_congr rfl fun k hk => by
    rw [ml_feature_output h hy k (mem_range.mp hk), ml_feature_output h hz k (mem_range.mp hk)]]
  unfold MultiLabel.sizeJointFeature
  rw [mul_comm m.nFeatures, sum_range_add]
  refine add_le_add ?_ ?_
  · rw [sum_range_mul', show (4 : ℚ) * m.nLabels * ∑ f ∈ range m.nFeatures, x.get f ^ 2 =
      ∑ _l ∈ range m.nLabels, ∑ f ∈ range m.nFeatures, 4 * x.get f ^ 2 by
        rw [sum_const, card_range, nsmul_eq_mul, ← mul_sum]; ring]
    refine sum_le_sum fun l hl => sum_le_sum fun f hf => ?_
    unfold mlPsi Vec.append Mat.ravel
    simp only
    rw [if_pos (flat_lt (mem_range.mp hl) (mem_range.mp hf)), if_pos (flat_lt (mem_range.mp hl) (mem_range.mp hf)),
      flat_div (mem_range.mp hf), flat_mod (mem_range.mp hf)]
    have h1 := (marg_range h.2.2 py).1 l (mem_range.mp hl) 1 (by norm_num)
    have h2 := (marg_range h.2.2 pz).1 l (mem_range.mp hl) 1 (by norm_num)
    have e1 : x.get f * (2 * nodeMarg 2 y l 1 - 1) - x.get f * (2 * nodeMarg 2 z l 1 - 1) =
      2 * x.get f * (nodeMarg 2 y l 1 - nodeMarg 2 z l 1) := by ring
    rw [e1, mul_pow, mul_pow]
    have h3 : (nodeMarg 2 y l 1 - nodeMarg 2 z l 1) ^ 2 ≤ 1 := by
      rw [sq_le_one_iff_abs_le_one, abs_le]
      constructor <;> linarith [h1.1, h1.2, h2.1, h2.2]
    nlinarith [sq_nonneg (x.get f)]
  · have hle : ∀ k ∈ range (4 * m.edges.length), ((mlPsi m x y).get (m.nLabels * m.nFeatures + k) -
        (mlPsi m x z).get (m.nLabels * m.nFeatures + k)) ^ 2 ≤ 1 := by
      intro k hk
      have hk := mem_range.mp hk
      unfold mlPsi Vec.append Mat.ravel Ten.ravel
      simp only
      rw [if_neg (by omega), if_neg (by omega), Nat.add_sub_cancel_left]
      have h1 := edge_marg_range h.2.2 py (e := k / 2 / 2) (a := k / 2 % 2) (b := k % 2) (by omega) (by omega) (by omega)
      have h2 := edge_marg_range h.2.2 pz (e := k / 2 / 2) (a := k / 2 % 2) (b := k % 2) (by omega) (by omega) (by omega)
      rw [sq_le_one_iff_abs_le_one, abs_le]
      constructor <;> linarith [h1.1, h1.2, h2.1, h2.2]
    refine (sum_le_sum hle).trans ?_
    simp

/-- A `MultiLabelClf` with an inference method that finds the best output. -/
theorem ml_learner {backend : Bool → Infer} {cw : Vec} {m : MultiLabel.Model} (hc : 2 ≤ cw.size) (hcw : ∀ c < 2, 0 < cw.get c)
    {O : ℕ → Edges → Set YVal} (hO : ∀ n edges, ∀ v ∈ O n edges, IsRelaxed n 2 edges v) (hsolve : SolvesEdges 2 O (backend true)) :
    PairwiseLearner (multiLabelModel backend cw m) 2 ⟨2, cw.get⟩ (fun _ => m.nLabels) (fun _ => m.edges) (MultiLabelFits m)
      (fun _ => O m.nLabels m.edges) (multiLabelBound m) where
  plain := rfl
  states := le_rfl
  weights := rfl
  weights_pos := hcw
  nodes_pos := fun x hx => hx.1
  edges_in := fun x hx => hx.2.2
  outputs := fun x _ v hv => hO _ _ v hv
  exact_lossAug := ml_exact hc hO true hsolve
  lossOf := fun x _ t v ht htv hv => ml_lossOf hc ht htv hv
  feature := fun x hx y z hy hz hag k hk => by
    change multiLabelFeature m x _ k = multiLabelFeature m x _ k
    rw [ml_feature_output hx (.inl hy) k hk, ml_feature_output hx (.inl hz) k hk]
    unfold mlPsi Vec.append Mat.ravel Ten.ravel
    simp only
    split
    · rename_i hlt
      have hl : k / m.nFeatures < m.nLabels := Nat.div_lt_of_lt_mul (by rw [mul_comm]; exact hlt)
      rw [nodeMarg_congr hag hl]
    · rename_i hge
      have hlt : (k - m.nLabels * m.nFeatures) / 2 / 2 < m.edges.length := by
        have hk : k < m.nFeatures * m.nLabels + 4 * m.edges.length := hk
        rw [mul_comm m.nFeatures] at hk
        omega
      exact edgeMarg_congr hx.2.2 hag hlt _ _
  bound_nonneg := fun x => by unfold multiLabelBound; positivity
  range := fun x hx y hy z hz => ml_range hx (hO _ _ y hy) (hO _ _ z hz)

/-- Every sample has the right number of features and one 0/1 entry per label. -/
def MultiLabelData (m : MultiLabel.Model) (data : List (Vec × Labels)) : Prop :=
  ∀ d ∈ data, MultiLabelFits m d.1 ∧ d.2.size = m.nLabels ∧ Valid m.nLabels 2 d.2.get

/-- **C114 (relaxed inference).** A `MultiLabelClf` with an arbitrary graph between labels and LP inference or AD3: the one-slack learner
and the Frank-Wolfe learner return weights whose risk, with relaxed labellings as competitors, is close to the minimum. -/
theorem C114_relaxed (P : Packages) (method : Method) (cw : Vec) (m : MultiLabel.Model) (hc : 2 ≤ cw.size)
    (hcw : ∀ c < 2, 0 < cw.get c) (hP : Relaxes 2 P method) (data : List (Vec × Labels)) (hne : data ≠ [])
    (hd : MultiLabelData m data) (R : ℚ) (hR : ∀ d ∈ data, multiLabelBound m d.1 ≤ R) :
    OneSlackTrains (multiLabelModel (backend P method) cw m) (multiLabelOutputs m (relaxedOutputs 2)) (labelled data) R
      (totalWeight cw data) ∧
    FrankWolfeTrains (multiLabelModel (backend P method) cw m) (multiLabelOutputs m (relaxedOutputs 2)) (labelled data) R
      (totalWeight cw data) :=
  (ml_learner (m := m) hc hcw (fun _ _ _ h => h) (relaxes_solves_edges (by omega) hP)).trains data hne
    (fun d hdm => ⟨(hd d hdm).1, (hd d hdm).2.1, (hd d hdm).2.2, fun _ hv => .inl hv⟩) R hR

theorem ml_all_train {backend : Bool → Infer} {cw : Vec} {m : MultiLabel.Model} (hc : 2 ≤ cw.size) (hcw : ∀ c < 2, 0 < cw.get c)
    {O : ℕ → Edges → Set YVal} (hO : ∀ n edges, ∀ v ∈ O n edges, IsLabelling n 2 v) (hsolve : SolvesEdges 2 O (backend true))
    (data : List (Vec × Labels)) (hne : data ≠ []) (hd : MultiLabelData m data)
    (hall : ∀ v, IsLabelling m.nLabels 2 v → v ∈ O m.nLabels m.edges) (R : ℚ) (hR : ∀ d ∈ data, multiLabelBound m d.1 ≤ R) :
    OneSlackTrains (multiLabelModel backend cw m) (multiLabelOutputs m O) (labelled data) R (totalWeight cw data) ∧
    ((∃ d ∈ data, 1 / 10 ^ 5 ≤ ∑ i ∈ range d.2.size, cw.get (d.2.get i)) →
      NSlackTrains (multiLabelModel backend cw m) (multiLabelOutputs m O) graphEq (labelled data) R (totalWeight cw data)) ∧
    FrankWolfeTrains (multiLabelModel backend cw m) (multiLabelOutputs m O) (labelled data) R (totalWeight cw data) ∧
    SubgradientTrains (multiLabelModel backend cw m) (multiLabelOutputs m O) (labelled data) := by
  have h := ml_learner (backend := backend) (m := m) hc hcw (fun n edges v hv => .inl (hO n edges v hv)) hsolve
  have hd' : LabelledData 2 (fun _ : Vec => m.nLabels) (MultiLabelFits m) (fun _ => O m.nLabels m.edges) data :=
    fun d hdm => ⟨(hd d hdm).1, (hd d hdm).2.1, (hd d hdm).2.2, hall⟩
  obtain ⟨h1, h2⟩ := h.trains data hne hd' R hR
  obtain ⟨h3, h4⟩ := h.trains_discrete (fun x _ v hv => hO _ _ v hv) data hne hd' R hR
  exact ⟨h1, h3, h2, h4⟩

/-- **C114 (exact inference).** With an exact AD3 and an arbitrary graph between labels, all four learners return weights whose risk is
close to the minimum. -/
theorem C114_exact (P : Packages) (solve solve') (hP : P.ad3 = some (solve, solve')) (hex : Ad3AlwaysExact solve) (cw : Vec)
    (m : MultiLabel.Model) (hc : 2 ≤ cw.size) (hcw : ∀ c < 2, 0 < cw.get c) (data : List (Vec × Labels)) (hne : data ≠ [])
    (hd : MultiLabelData m data) (R : ℚ) (hR : ∀ d ∈ data, multiLabelBound m d.1 ≤ R) :
    let M := multiLabelModel (backend P (.name "ad3")) cw m
    let outputs := multiLabelOutputs m (labellings 2)
    OneSlackTrains M outputs (labelled data) R (totalWeight cw data) ∧
    ((∃ d ∈ data, 1 / 10 ^ 5 ≤ ∑ i ∈ range d.2.size, cw.get (d.2.get i)) →
      NSlackTrains M outputs graphEq (labelled data) R (totalWeight cw data)) ∧
    FrankWolfeTrains M outputs (labelled data) R (totalWeight cw data) ∧ SubgradientTrains M outputs (labelled data) :=
  ml_all_train hc hcw (fun _ _ _ hv => hv) (ad3_exact_solves_edges P (by omega) hP hex true) data hne hd (fun _ hv => hv) R hR

/-- **C114 (chains).** With max-product and labels in a chain, all four learners return weights whose risk is close to the minimum. -/
theorem C114_chain (opts : MaxProd.Opts) (cw : Vec) (m : MultiLabel.Model) (hc : 2 ≤ cw.size) (hcw : ∀ c < 2, 0 < cw.get c)
    (hchain : m.edges = chainEdges m.nLabels) (data : List (Vec × Labels)) (hne : data ≠ [])
    (hd : MultiLabelData m data) (R : ℚ) (hR : ∀ d ∈ data, multiLabelBound m d.1 ≤ R) :
    let M := multiLabelModel (fun _ => maxProductInfer opts) cw m
    let outputs := multiLabelOutputs m (chainOutputs 2)
    OneSlackTrains M outputs (labelled data) R (totalWeight cw data) ∧
    ((∃ d ∈ data, 1 / 10 ^ 5 ≤ ∑ i ∈ range d.2.size, cw.get (d.2.get i)) →
      NSlackTrains M outputs graphEq (labelled data) R (totalWeight cw data)) ∧
    FrankWolfeTrains M outputs (labelled data) R (totalWeight cw data) ∧ SubgradientTrains M outputs (labelled data) :=
  ml_all_train (O := chainOutputs 2) hc hcw (fun _ _ _ hv => hv.2) (chain_solves_edges opts (by omega)) data hne hd
    (fun _ hv => ⟨hchain, hv⟩) R hR

/-! ### the hypotheses can be met -/

/-- three labels, two features, all pairs of labels. -/
def mlModel : MultiLabel.Model := ⟨3, 2, [(0, 1), (0, 2), (1, 2)]⟩

/-- the same with a chain. -/
def mlChain : MultiLabel.Model := ⟨3, 2, [(0, 1), (1, 2)]⟩

/-- two samples. -/
def mlData : List (Vec × Labels) :=
  [(⟨2, fun f => f + 1⟩, ⟨3, fun l => if l = 1 then 0 else 1⟩), (⟨2, fun f => 1 - f⟩, ⟨3, fun l => if l = 1 then 1 else 0⟩)]

theorem ml_data : MultiLabelData mlModel mlData := by
  intro d hd
  have hE : EdgesIn 3 mlModel.edges := by unfold EdgesIn; decide
  simp only [mlData, List.mem_cons, List.not_mem_nil, or_false] at hd
  rcases hd with rfl | rfl <;> exact ⟨⟨by decide, rfl, hE⟩, rfl, by unfold Valid; decide⟩

theorem ml_chain_data : MultiLabelData mlChain mlData := by
  intro d hd
  have hE : EdgesIn 3 mlChain.edges := by unfold EdgesIn; decide
  simp only [mlData, List.mem_cons, List.not_mem_nil, or_false] at hd
  rcases hd with rfl | rfl <;> exact ⟨⟨by decide, rfl, hE⟩, rfl, by unfold Valid; decide⟩

theorem ml_bound : ∀ d ∈ mlData, multiLabelBound mlModel d.1 ≤ 72 := by
  intro d hd
  simp only [mlData, List.mem_cons, List.not_mem_nil, or_false] at hd
  rcases hd with rfl | rfl <;> decide +kernel

theorem ml_chain_bound : ∀ d ∈ mlData, multiLabelBound mlChain d.1 ≤ 72 := by
  intro d hd
  simp only [mlData, List.mem_cons, List.not_mem_nil, or_false] at hd
  rcases hd with rfl | rfl <;> decide +kernel

example : OneSlackTrains (multiLabelModel (backend idealPackages (.name "lp")) ⟨3, fun _ => 1⟩ mlModel)
    (multiLabelOutputs mlModel (relaxedOutputs 2)) (labelled mlData) 72 (totalWeight ⟨3, fun _ => 1⟩ mlData) :=
  (C114_relaxed idealPackages (.name "lp") ⟨3, fun _ => 1⟩ mlModel (by decide) (by decide +kernel)
    (idealPackages_relaxes _ (by decide)) mlData (by decide) ml_data 72 ml_bound).1

example : ∃ P : Packages, SubgradientTrains (multiLabelModel (backend P (.name "ad3")) ⟨3, fun _ => 1⟩ mlModel)
    (multiLabelOutputs mlModel (labellings 2)) (labelled mlData) := by
  obtain ⟨solve, hsolve⟩ := exact_ad3_exists
  exact ⟨_, (C114_exact ⟨none, LP.ideal, some (solve, fun U edges _ _ r => solve U edges ⟨0, 0, 0, fun _ _ _ => 0⟩ r), none⟩
    solve _ rfl hsolve ⟨3, fun _ => 1⟩ mlModel (by decide) (by decide +kernel) mlData (by decide) ml_data 72 ml_bound).2.2.2⟩

example : ∃ o' b a, NSlack.fit (multiLabelModel (fun _ => maxProductInfer {}) ⟨3, fun _ => 1⟩ mlChain) QP.ideal graphEq none
    (fun _ _ => none) ⟨⟨10000, 1, true, none, false, 0, 100, 1 / 1000, 1 / 10 ^ 5, 0⟩, none, []⟩ (labelled mlData) none =
      .ok (o', .stopped b) ∧ o'.attrs = some a := by
  obtain ⟨-, h, -, -⟩ := C114_chain {} ⟨3, fun _ => 1⟩ mlChain (by decide) (by decide +kernel) (by decide) mlData
    (by decide) ml_chain_data 72 ml_chain_bound
  obtain ⟨o', b, a, h1, h2, -⟩ := h (by decide +kernel) QP.ideal QP.ideal_exact.1 QP.ideal_exact.2
    ⟨⟨10000, 1, true, none, false, 0, 100, 1 / 1000, 1 / 10 ^ 5, 0⟩, none, []⟩ (by norm_num) (by norm_num) rfl rfl
    (.inr (by decide)) rfl (by decide) (1 / 2) (by norm_num) (by norm_num) (by norm_num) (by decide +kernel)
  exact ⟨o', b, a, h1, h2⟩

end Verif.Props
