import Verif.Model.ChowLiu
import Verif.Lemmas.SpanningForest
import Verif.Props.C02
import Verif.Props.C04
import Verif.Props.C114

/-!
# C175: the tree of the multi-label example
-/

namespace Verif.Props

open Finset Verif.Common Verif.Spec Verif.Learner Verif.Dispatch Verif.Lemmas Verif.ChowLiu
open Verif.MaxProd (maxProductInfer hasCycle_of_length)
open Verif.MultiLabel (multiLabelModel multiLabelFeature)

/-! ### the tree -/

/-- scipy returns a spanning forest of least weight. -/
def FindsForest (mst : ℕ → (ℕ → ℕ → ℚ) → Edges) : Prop := ∀ n A, MinimumSpanningForest n A (mst n A)

/-- Mutual information is symmetric and not negative. -/
def IsInformation (mutualInfo : Labels → Labels → ℚ) : Prop := ∀ a b, mutualInfo a b = mutualInfo b a ∧ 0 ≤ mutualInfo a b

theorem joins_sorted (E : Edges) (e a b : ℕ) : Joins (E.map sortPair) e a b ↔ Joins E e a b := by
  unfold Joins
  have h : (E.map sortPair).getD e (0, 0) = sortPair (E.getD e (0, 0)) := by
    rw [show ((0, 0) : ℕ × ℕ) = sortPair (0, 0) from rfl, List.getD_map]
    rfl
  rw [h]
  obtain ⟨p, q⟩ := E.getD e (0, 0)
  unfold sortPair
  simp only [Prod.mk.injEq]
  rcases le_total p q with hpq | hpq
  · rw [min_eq_left hpq, max_eq_right hpq]
  · rw [min_eq_right hpq, max_eq_left hpq]
    tauto

theorem via_sorted (E : Edges) (P : ℕ → Prop) (u v : ℕ) : ConnectedVia (E.map sortPair) P u v ↔ ConnectedVia E P u v := by
  unfold ConnectedVia
  simp only [joins_sorted, List.length_map]

theorem cycle_sorted (E : Edges) : HasCycle (E.map sortPair) ↔ HasCycle E := by
  unfold HasCycle
  simp only [via_sorted, List.length_map]
  refine exists_congr fun e => and_congr_right fun _ => ?_
  have h : (E.map sortPair).getD e (0, 0) = sortPair (E.getD e (0, 0)) := by
    rw [show ((0, 0) : ℕ × ℕ) = sortPair (0, 0) from rfl, List.getD_map]
    rfl
  rw [h]
  obtain ⟨p, q⟩ := E.getD e (0, 0)
  unfold sortPair
  simp only
  rcases le_total p q with hpq | hpq
  · rw [min_eq_left hpq, max_eq_right hpq]
  · rw [min_eq_right hpq, max_eq_left hpq]
    exact ⟨ConnectedVia.symm, ConnectedVia.symm⟩

section tree

variable {mutualInfo : Labels → Labels → ℚ} {mst : ℕ → (ℕ → ℕ → ℚ) → Edges} {rows nLabels : ℕ} {y : ℕ → ℕ → ℕ}

/-- **C175, the tree.** The graph has no cycle, its edges are pairs `i < j` of labels that are not independent, no pair is
listed twice, there are fewer edges than labels, and dependent labels are connected. -/
theorem C175_tree (hm : FindsForest mst) (hi : IsInformation mutualInfo) (hn : 1 ≤ nLabels) :
    let mi := fun i j => mutualInfo ⟨rows, fun r => y r i⟩ ⟨rows, fun r => y r j⟩
    let edges := chowLiuTree mutualInfo mst rows nLabels y
    ¬ HasCycle edges ∧ edges.Nodup ∧ edges.length < nLabels ∧
      (∀ e ∈ edges, e.1 < e.2 ∧ e.2 < nLabels ∧ 0 < mi e.1 e.2) ∧
      ∀ i < nLabels, ∀ j < nLabels, mi i j ≠ 0 → Connected edges i j := by
  intro mi edges
  obtain ⟨hS, -⟩ := hm nLabels fun i j => - mi i j
  have hc : ¬ HasCycle edges := fun h => hS.forest ((cycle_sorted _).mp h)
  have hlt : ∀ e ∈ edges, e.1 < e.2 ∧ e.2 < nLabels ∧ 0 < mi e.1 e.2 := by
    intro e he
    have he' : e ∈ (mst nLabels fun i j => - mi i j).map sortPair := he
    obtain ⟨p, hp, rfl⟩ := List.mem_map.mp he'
    obtain ⟨h1, h2, h3⟩ := hS.entries p hp
    have h4 : p.1 ≠ p.2 := by
      intro heq
      obtain ⟨k, hk, hkp⟩ := List.getElem_of_mem hp
      refine hS.forest ⟨k, hk, ?_⟩
      rw [List.getD_eq_getElem _ _ hk, hkp, heq]
      exact .refl
    have h5 : 0 < mi p.1 p.2 := lt_of_le_of_ne (hi _ _).2 fun h => h3 (by rw [← h, neg_zero])
    unfold sortPair
    rcases lt_or_gt_of_ne h4 with h | h
    · simp only [min_eq_left h.le, max_eq_right h.le]
      exact ⟨h, h2, h5⟩
    · simp only [min_eq_right h.le, max_eq_left h.le]
      refine ⟨h, h1, ?_⟩
      have : mi p.2 p.1 = mi p.1 p.2 := (hi _ _).1
      rw [this]
      exact h5
  have hin : EdgesIn nLabels edges := fun e he => ⟨(hlt e he).1.trans (hlt e he).2.1, (hlt e he).2.1⟩
  refine ⟨hc, ?_, ?_, hlt, fun i hi' j hj h => ?_⟩
  · rw [List.nodup_iff_injective_getElem]
    rintro ⟨k, hk⟩ ⟨l, hl⟩ h
    simp only at h
    by_contra hne
    refine hc ⟨k, hk, Relation.ReflTransGen.single ⟨l, hl, fun h => hne (by simp [h]), .inl ?_⟩⟩
    rw [List.getD_eq_getElem _ _ hl, List.getD_eq_getElem _ _ hk, h]
  · by_contra hge
    exact hc (hasCycle_of_length hin (by rintro h; rw [h] at hge; simp at hge; omega) (by omega))
  · exact (via_sorted _ _ _ _).mpr (hS.spans i hi' j hj (neg_ne_zero.mpr h))

/-- **C175, the best tree.** No graph without cycles between the labels has a larger sum of mutual informations. -/
theorem C175_best (hm : FindsForest mst) (hi : IsInformation mutualInfo) (F : Edges) (hF : EdgesIn nLabels F)
    (hc : ¬ HasCycle F) :
    let mi := fun i j => mutualInfo ⟨rows, fun r => y r i⟩ ⟨rows, fun r => y r j⟩
    totalWeightOf mi F ≤ totalWeightOf mi (chowLiuTree mutualInfo mst rows nLabels y) := by
  intro mi
  obtain ⟨-, hmin⟩ := hm nLabels fun i j => - mi i j
  have hneg : ∀ E : Edges, totalWeightOf (fun i j => - mi i j) E = - totalWeightOf mi E := by
    intro E
    unfold totalWeightOf
    induction E with
    | nil => simp
    | cons e E ih => rw [List.map_cons, List.sum_cons, ih, List.map_cons, List.sum_cons]; ring
  have hsort : totalWeightOf mi (chowLiuTree mutualInfo mst rows nLabels y) = totalWeightOf mi (mst nLabels fun i j => - mi i j) := by
    unfold chowLiuTree totalWeightOf
    simp only [List.map_map]
    congr 1
    refine List.map_congr_left fun e _ => ?_
    simp only [Function.comp, sortPair]
    rcases le_total e.1 e.2 with h | h
    · rw [min_eq_left h, max_eq_right h]
    · rw [min_eq_right h, max_eq_left h]
      exact (hi _ _).1
  have hfil : totalWeightOf mi (F.filter fun e => decide (mi e.1 e.2 ≠ 0)) = totalWeightOf mi F := by
    clear hF hc
    unfold totalWeightOf
    induction F with
    | nil => rfl
    | cons e F ih =>
      rw [List.filter_cons]
      by_cases h : mi e.1 e.2 = 0
      · rw [if_neg (by simp [h]), ih, List.map_cons, List.sum_cons, h, zero_add]
      · rw [if_pos (by simp [h]), List.map_cons, List.sum_cons, ih, List.map_cons, List.sum_cons]
  obtain ⟨G, hG⟩ := spanning_extend (n := nLabels) (A := fun i j => - mi i j) (F := F.filter fun e => decide (mi e.1 e.2 ≠ 0))
    (fun e he => by
      obtain ⟨h1, h2⟩ := List.mem_filter.mp he
      exact ⟨(hF e h1).1, (hF e h1).2, neg_ne_zero.mpr (by simpa using h2)⟩)
    (fun h => hc (sublist_cycle List.filter_sublist h))
  have h1 := hmin _ hG
  rw [hneg, hneg] at h1
  have h2 : totalWeightOf mi (F.filter (fun e => decide (mi e.1 e.2 ≠ 0)) ++ G) =
      totalWeightOf mi (F.filter fun e => decide (mi e.1 e.2 ≠ 0)) + totalWeightOf mi G := by
    unfold totalWeightOf
    rw [List.map_append, List.sum_append]
  have h3 : 0 ≤ totalWeightOf mi G := by
    unfold totalWeightOf
    refine List.sum_nonneg fun a ha => ?_
    obtain ⟨e, -, rfl⟩ := List.mem_map.mp ha
    exact (hi _ _).2
  rw [hsort]
  linarith

end tree

/-! ### predictions -/

/-- A best set of labels: no set of labels has a larger product of weights and joint feature. -/
def BestLabels (m : MultiLabel.Model) (x : Vec) (w : W) (z : ℕ → ℕ) : Prop :=
  Valid m.nLabels 2 z ∧ ∀ z', Valid m.nLabels 2 z' →
    dot (MultiLabel.sizeJointFeature m) w (multiLabelFeature m x (.discrete ⟨m.nLabels, z'⟩)) ≤
      dot (MultiLabel.sizeJointFeature m) w (multiLabelFeature m x (.discrete ⟨m.nLabels, z⟩))

theorem bestLabels_map {m : MultiLabel.Model} {x : Vec} (hx : MultiLabelFits m x) (w : W) (z : ℕ → ℕ) :
    BestLabels m x w z ↔ IsMAP m.nLabels 2 m.edges (mlU m x w) (mlP m w) z := by
  have hval : ∀ z, Valid m.nLabels 2 z → dot (MultiLabel.sizeJointFeature m) w
      (multiLabelFeature m x (.discrete ⟨m.nLabels, z⟩)) = Spec.score m.nLabels m.edges (mlU m x w) (mlP m w) z := by
    intro z hz
    rw [ml_value hx (.inl ⟨_, rfl, rfl, hz⟩), edgeScore_labelling (y := ⟨m.nLabels, z⟩) hx.2.2 hz]
  unfold BestLabels IsMAP
  refine and_congr_right fun hz => forall₂_congr fun z' hz' => ?_
  rw [hval z hz, hval z' hz']

/-- **C175, prediction (partial).** A `MultiLabelClf` with max-product on a graph without cycles, such as the tree of the example,
that has an edge: prediction returns a set of labels, each of its decisions is that of a best set of labels, and if there is only one
best set of labels, it is the one returned. Missing: several best sets of labels may be mixed (`C02_violated_ties`), and without an
edge prediction raises (`C175_violated_independent`). -/
theorem C175_prediction_partial (opts : MaxProd.Opts) (cw : Vec) (m : MultiLabel.Model) (x : Vec) (hx : MultiLabelFits m x)
    (hc : ¬ HasCycle m.edges) (hne : m.edges ≠ []) (w : W) :
    ∃ z : Labels, (multiLabelModel (fun _ => maxProductInfer opts) cw m).inference x w = .discrete z ∧ z.size = m.nLabels ∧
      (∀ l < m.nLabels, ∃ b, BestLabels m x w b ∧ b l = z.get l) ∧
      ((∀ b b', BestLabels m x w b → BestLabels m x w b' → ∀ l < m.nLabels, b l = b' l) → BestLabels m x w z.get) := by
  have hp : validateParams ⟨m.nLabels, 2, mlU m x w⟩ (.ten ⟨m.edges.length, 2, 2, mlP m w⟩) m.edges.length =
      .ok (2, ⟨m.edges.length, 2, 2, mlP m w⟩) := by
    simp [validateParams]
  obtain ⟨z, hz, hs, -, hb⟩ := C02_tree_states_partial opts ⟨m.nLabels, 2, mlU m x w⟩ _ _ m.edges hp hne hx.2.2 hc (by norm_num)
  refine ⟨z, ?_, hs, fun l hl => ?_, fun huniq => ?_⟩
  · change okD _ (MultiLabel.inference (maxProductInfer opts) m x ⟨MultiLabel.sizeJointFeature m, w⟩) = _
    unfold MultiLabel.inference
    rw [GraphCRF.checkSizeW_ok (w := ⟨MultiLabel.sizeJointFeature m, w⟩) rfl,
      ml_unary_ok (w := ⟨MultiLabel.sizeJointFeature m, w⟩) hx.2.1 rfl,
      ml_pairwise_ok (w := ⟨MultiLabel.sizeJointFeature m, w⟩) rfl]
    simp only [bind, Except.bind]
    unfold maxProductInfer
    refine (congrArg (fun r => okD _ (match r with | .error e => .error e | .ok y => .ok (YVal.discrete y))) hz).trans ?_
    rfl
  · obtain ⟨b, h1, h2⟩ := hb l hl
    exact ⟨b, (bestLabels_map hx w b).mpr h1, h2⟩
  · obtain ⟨z', hz', -, h⟩ := C02_tree_unique_partial opts ⟨m.nLabels, 2, mlU m x w⟩ _ _ m.edges hp hne hx.2.2 hc (by norm_num)
      (fun b b' h1 h2 l hl => huniq b b' ((bestLabels_map hx w b).mpr h1) ((bestLabels_map hx w b').mpr h2) l hl)
    rw [hz] at hz'
    cases hz'
    exact (bestLabels_map hx w _).mpr h

/-- **C175, independent labels.** If the labels are independent, the tree has no edges. -/
theorem C175_independent_tree {mutualInfo : Labels → Labels → ℚ} {mst : ℕ → (ℕ → ℕ → ℚ) → Edges} {rows nLabels : ℕ}
    {y : ℕ → ℕ → ℕ} (hm : FindsForest mst)
    (hind : ∀ i < nLabels, ∀ j < nLabels, i ≠ j → mutualInfo ⟨rows, fun r => y r i⟩ ⟨rows, fun r => y r j⟩ = 0) :
    chowLiuTree mutualInfo mst rows nLabels y = [] := by
  obtain ⟨hS, -⟩ := hm nLabels fun i j => - mutualInfo ⟨rows, fun r => y r i⟩ ⟨rows, fun r => y r j⟩
  have hnil : (mst nLabels fun i j => - mutualInfo ⟨rows, fun r => y r i⟩ ⟨rows, fun r => y r j⟩) = [] := by
    rw [List.eq_nil_iff_forall_not_mem]
    intro e he
    obtain ⟨h1, h2, h3⟩ := hS.entries e he
    by_cases heq : e.1 = e.2
    · obtain ⟨k, hk, hke⟩ := List.getElem_of_mem he
      refine hS.forest ⟨k, hk, ?_⟩
      rw [List.getD_eq_getElem _ _ hk, hke, heq]
      exact .refl
    · exact h3 (by rw [hind _ h1 _ h2 heq, neg_zero])
  change List.map sortPair (mst nLabels fun i j => - mutualInfo ⟨rows, fun r => y r i⟩ ⟨rows, fun r => y r j⟩) = []
  rw [hnil]
  rfl

/-- **C175, violated.** If there are at least two labels and they are independent, the tree has no edges and then max-product
raises: the model cannot predict anything. -/
theorem C175_violated_independent {mutualInfo : Labels → Labels → ℚ} {mst : ℕ → (ℕ → ℕ → ℚ) → Edges} {rows nLabels : ℕ}
    {y : ℕ → ℕ → ℕ} (hm : FindsForest mst) (hn : 2 ≤ nLabels)
    (hind : ∀ i < nLabels, ∀ j < nLabels, i ≠ j → mutualInfo ⟨rows, fun r => y r i⟩ ⟨rows, fun r => y r j⟩ = 0)
    (opts : MaxProd.Opts) (nFeatures : ℕ) (x : Vec) (hx : x.size = nFeatures) (w : W) :
    let m : MultiLabel.Model := ⟨nLabels, nFeatures, chowLiuTree mutualInfo mst rows nLabels y⟩
    ∃ e, MultiLabel.inference (maxProductInfer opts) m x ⟨MultiLabel.sizeJointFeature m, w⟩ = .error e := by
  intro m
  have hm' : m.edges = [] := C175_independent_tree hm hind
  unfold MultiLabel.inference
  rw [GraphCRF.checkSizeW_ok (w := ⟨MultiLabel.sizeJointFeature m, w⟩) rfl,
    ml_unary_ok (m := m) (w := ⟨MultiLabel.sizeJointFeature m, w⟩) hx rfl,
    ml_pairwise_ok (m := m) (w := ⟨MultiLabel.sizeJointFeature m, w⟩) rfl]
  simp only [bind, Except.bind]
  have hinf : ∀ (U : ℕ → ℕ → ℚ) (t : Ten), t.d0 = 0 → t.d1 = 2 → t.d2 = 2 →
      ∃ e, MaxProd.inferenceMaxProduct opts ⟨nLabels, 2, U⟩ (.ten t) [] = .error e := by
    intro U t h0 h1 h2
    unfold MaxProd.inferenceMaxProduct
    have hv : validateParams ⟨nLabels, 2, U⟩ (.ten t) ([] : Edges).length = .ok (2, t) := by
      simp [validateParams, h0, h1, h2]
    rw [hv]
    simp only
    by_cases hch : MaxProd.isChain [] nLabels = true
    · rw [if_pos hch]
      unfold Viterbi.viterbi
      rw [if_neg (by omega), if_neg (by omega), if_pos (by omega)]
      exact ⟨_, rfl⟩
    · rw [if_neg hch, (C04_no_edges_rejected nLabels (by omega)).1]
      exact ⟨_, rfl⟩
  obtain ⟨e, he⟩ := hinf (fun l s => if s = 0 then -∑ f ∈ range m.nFeatures, x.get f * w (l * m.nFeatures + f)
    else ∑ f ∈ range m.nFeatures, x.get f * w (l * m.nFeatures + f))
    ⟨m.edges.length, 2, 2, fun e a b => w (m.nLabels * m.nFeatures + ((e * 2 + a) * 2 + b))⟩ (by rw [hm']; rfl) rfl rfl
  refine ⟨e, ?_⟩
  unfold maxProductInfer
  rw [hm'] at he ⊢
  rw [he]

/-! ### the hypotheses can be met -/

/-- there are functions that return spanning forests of least weight. -/
theorem findsForest_exists : ∃ mst, FindsForest mst :=
  ⟨fun n A => (minimum_spanning_exists n A).choose, fun n A => (minimum_spanning_exists n A).choose_spec⟩

/-- number of samples on which two labels agree. -/
def agreements (a b : Labels) : ℚ := ∑ i ∈ range (min a.size b.size), if a.get i = b.get i then 1 else 0

theorem agreements_information : IsInformation agreements := by
  refine fun a b => ⟨?_, sum_nonneg fun i _ => by split <;> norm_num⟩
  unfold agreements
  rw [min_comm]
  exact sum_congr rfl fun i _ => by simp only [eq_comm]

/-- three labels that agree on some samples: the tree joins all of them. -/
example : ∃ mst, FindsForest mst ∧ ∀ i < 3, ∀ j < 3, Connected (chowLiuTree agreements mst 2 3 fun r l => r * l % 2) i j := by
  obtain ⟨mst, hm⟩ := findsForest_exists
  refine ⟨mst, hm, fun i hi j hj => ?_⟩
  refine (C175_tree (rows := 2) (nLabels := 3) (y := fun r l => r * l % 2) hm agreements_information (by norm_num)).2.2.2.2 i hi j hj ?_
  have h : ∀ i < 3, ∀ j < 3, agreements ⟨2, fun r => r * i % 2⟩ ⟨2, fun r => r * j % 2⟩ ≠ 0 := by decide +kernel
  exact h i hi j hj

/-- of two labels that agree everywhere and one that does not, the tree has more information than the path through the other label. -/
example : ∃ mst, FindsForest mst ∧ 3 ≤ totalWeightOf (fun i j => agreements ⟨2, fun r => r * i % 2⟩ ⟨2, fun r => r * j % 2⟩)
    (chowLiuTree agreements mst 2 3 fun r l => r * l % 2) := by
  obtain ⟨mst, hm⟩ := findsForest_exists
  refine ⟨mst, hm, le_trans ?_ (C175_best (rows := 2) (nLabels := 3) (y := fun r l => r * l % 2) hm agreements_information
    [(0, 2), (0, 1)] (by unfold EdgesIn; decide) ?_)⟩
  · decide +kernel
  · exact (MaxProd.explore_isSome_iff (edges := [(0, 2), (0, 1)]) (n := 3) true (by unfold EdgesIn; decide)).mp (by decide +kernel)

/-- three labels in a star around the third. -/
def mlStar : MultiLabel.Model := ⟨3, 1, [(0, 2), (1, 2)]⟩

theorem mlStar_forest : ¬ HasCycle mlStar.edges :=
  (MaxProd.explore_isSome_iff (edges := mlStar.edges) (n := 3) true (by unfold EdgesIn mlStar; decide)).mp (by decide +kernel)

example : ∃ z : Labels, (multiLabelModel (fun _ => maxProductInfer {}) ⟨3, fun _ => 1⟩ mlStar).inference ⟨1, fun _ => 1⟩
    (fun k => if k = 3 then 5 else 1) = .discrete z ∧ z.size = 3 ∧ z.get 2 = 0 := by
  obtain ⟨z, h1, h2, -⟩ := C175_prediction_partial {} ⟨3, fun _ => 1⟩ mlStar ⟨1, fun _ => 1⟩
    ⟨by decide, rfl, by unfold EdgesIn mlStar; decide⟩ mlStar_forest (by decide) (fun k => if k = 3 then 5 else 1)
  exact ⟨z, h1, h2, by
    have h3 : (match (multiLabelModel (fun _ => maxProductInfer {}) ⟨3, fun _ => 1⟩ mlStar).inference ⟨1, fun _ => 1⟩
      (fun k => if k = 3 then 5 else 1) with | .discrete z => z.get 2 | .relaxed _ _ => 7) = 0 := by decide +kernel
    rw [h1] at h3
    exact h3⟩

/-- independent labels: no prediction. -/
example : ∃ mst, FindsForest mst ∧ ∃ e, MultiLabel.inference (maxProductInfer {})
    ⟨4, 1, chowLiuTree (fun _ _ => 0) mst 5 4 fun r l => r * l⟩ ⟨1, fun _ => 1⟩
    ⟨MultiLabel.sizeJointFeature ⟨4, 1, chowLiuTree (fun _ _ => 0) mst 5 4 fun r l => r * l⟩, fun _ => 1⟩ = .error e := by
  obtain ⟨mst, hm⟩ := findsForest_exists
  exact ⟨mst, hm, C175_violated_independent hm (by norm_num) (fun _ _ _ _ _ => rfl) {} 1 ⟨1, fun _ => 1⟩ rfl fun _ => 1⟩

end Verif.Props
