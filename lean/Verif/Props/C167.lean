import Verif.Spec.SideBySide
import Verif.Props.C148
import Verif.Props.C91
import Verif.Props.C160
import Verif.Props.C15

/-!
# C167: graphs side by side in one instance
-/

namespace Verif.Props

open Finset Verif.Common Verif.Spec

/-! ### sums over two graphs -/

theorem beside_length (n : ℕ) (E E' : Edges) : (edgesBeside n E E').length = E.length + E'.length := by
  unfold edgesBeside; rw [List.length_append, List.length_map]

theorem beside_left {n : ℕ} {E E' : Edges} {e : ℕ} (he : e < E.length) :
    (edgesBeside n E E').getD e (0, 0) = E.getD e (0, 0) := by
  unfold edgesBeside; rw [List.getD_append _ _ _ _ he]

theorem beside_right {n : ℕ} {E E' : Edges} {e : ℕ} (he : e < E'.length) :
    (edgesBeside n E E').getD (E.length + e) (0, 0) =
      (n + (E'.getD e (0, 0)).1, n + (E'.getD e (0, 0)).2) := by
  unfold edgesBeside
  rw [List.getD_append_right _ _ _ _ (Nat.le_add_right _ _), Nat.add_sub_cancel_left,
    List.getD_eq_getElem _ _ (by rw [List.length_map]; exact he), List.getD_eq_getElem _ _ he, List.getElem_map]

theorem beside_in {n n' : ℕ} {E E' : Edges} (h : EdgesIn n E) (h' : EdgesIn n' E') :
    EdgesIn (n + n') (edgesBeside n E E') := by
  intro e he
  rcases List.mem_append.mp he with he | he
  · have := h e he; exact ⟨by omega, by omega⟩
  · obtain ⟨e', he', rfl⟩ := List.mem_map.mp he
    have := h' e' he'
    exact ⟨by dsimp only; omega, by dsimp only; omega⟩

/-- the labels of the two parts. -/
def leftPart (n : ℕ) (z : Labels) : Labels := ⟨n, z.get⟩
/-- the labels of the two parts. -/
def rightPart (n n' : ℕ) (z : Labels) : Labels := ⟨n', fun i => z.get (n + i)⟩
/-- two label arrays one after the other. -/
def stackLabels (y y' : Labels) : Labels := ⟨y.size + y'.size, fun i => if i < y.size then y.get i else y'.get (i - y.size)⟩

theorem stackLabels_spec (y y' : Labels) : Concatenated y y' (stackLabels y y') := by
  refine ⟨rfl, fun i hi => if_pos hi, fun i _ => ?_⟩
  change (if y.size + i < y.size then _ else _) = _
  rw [if_neg (by omega), Nat.add_sub_cancel_left]

theorem parts_spec {n n' : ℕ} {z : Labels} (h : z.size = n + n') : Concatenated (leftPart n z) (rightPart n n' z) z :=
  ⟨h, fun _ _ => rfl, fun _ _ => rfl⟩

theorem concat_valid {S : ℕ} {y y' z : Labels} (h : Concatenated y y' z) :
    Valid z.size S z.get ↔ Valid y.size S y.get ∧ Valid y'.size S y'.get := by
  obtain ⟨h1, h2, h3⟩ := h
  rw [h1]
  constructor
  · intro hv
    refine ⟨fun i hi => ?_, fun i hi => ?_⟩
    · rw [← h2 i hi]; exact hv i (by omega)
    · rw [← h3 i hi]; exact hv _ (by omega)
  · rintro ⟨ha, hb⟩ i hi
    by_cases hc : i < y.size
    · rw [h2 i hc]; exact ha i hc
    · have := h3 (i - y.size) (by omega)
      rw [Nat.add_sub_cancel' (by omega)] at this
      rw [this]; exact hb _ (by omega)

/-- The score of a labelling of two graphs side by side is the sum of the scores of its parts. -/
theorem score_beside {E₁ E₂ : Edges} {U U₁ U₂ : ℕ → ℕ → ℚ} {P P₁ P₂ : ℕ → ℕ → ℕ → ℚ} {y₁ y₂ y : Labels}
    (hy : Concatenated y₁ y₂ y) (h1 : EdgesIn y₁.size E₁) (h2 : EdgesIn y₂.size E₂)
    (hU1 : ∀ i < y₁.size, U i (y₁.get i) = U₁ i (y₁.get i))
    (hU2 : ∀ i < y₂.size, U (y₁.size + i) (y₂.get i) = U₂ i (y₂.get i))
    (hP1 : ∀ e < E₁.length, ∀ a b, P e a b = P₁ e a b) (hP2 : ∀ e < E₂.length, ∀ a b, P (E₁.length + e) a b = P₂ e a b) :
    score y.size (edgesBeside y₁.size E₁ E₂) U P y.get =
      score y₁.size E₁ U₁ P₁ y₁.get + score y₂.size E₂ U₂ P₂ y₂.get := by
  obtain ⟨hs, hl, hr⟩ := hy
  unfold score
  rw [hs, beside_length, sum_range_add, sum_range_add, add_add_add_comm]
  refine congrArg₂ (· + ·) (congrArg₂ (· + ·) ?_ ?_) (congrArg₂ (· + ·) ?_ ?_)
  · exact sum_congr rfl fun i hi => by rw [hl i (mem_range.mp hi), hU1 i (mem_range.mp hi)]
  · refine sum_congr rfl fun e he => ?_
    have he := mem_range.mp he
    have hm := h1 _ (edge_mem he)
    unfold edge at hm
    rw [beside_left he, hP1 e he, hl _ hm.1, hl _ hm.2]
  · exact sum_congr rfl fun i hi => by rw [hr i (mem_range.mp hi), hU2 i (mem_range.mp hi)]
  · refine sum_congr rfl fun e he => ?_
    have he := mem_range.mp he
    have hm := h2 _ (edge_mem he)
    unfold edge at hm
    rw [beside_right he, hP2 e he]
    dsimp only
    rw [hr _ hm.1, hr _ hm.2]

theorem UN_left {m : GraphCRF.Model} {A B C : Mat} (h : Stacked A B C) (hc : A.cols = m.nFeatures) (w : ℕ → ℚ) {i : ℕ}
    (hi : i < A.rows) (s : ℕ) : GraphCRF.UN m C w i s = GraphCRF.UN m A w i s := by
  unfold GraphCRF.UN
  exact sum_congr rfl fun f hf => by rw [h.2.2.2.1 i hi f (by rw [hc]; exact mem_range.mp hf)]

theorem UN_right {m : GraphCRF.Model} {A B C : Mat} (h : Stacked A B C) (hc : A.cols = m.nFeatures) (w : ℕ → ℚ) {i : ℕ}
    (hi : i < B.rows) (s : ℕ) : GraphCRF.UN m C w (A.rows + i) s = GraphCRF.UN m B w i s := by
  unfold GraphCRF.UN
  exact sum_congr rfl fun f hf => by rw [h.2.2.2.2 i hi f (by rw [hc]; exact mem_range.mp hf)]

/-! ### joint features and losses -/

theorem graph_feature_ok {m : GraphCRF.Model} {x : GraphCRF.X} {y : Labels} {v : Vec}
    (h : GraphCRF.jointFeature m x (.discrete y) = .ok v) :
    x.features.cols = m.nFeatures ∧ y.size = x.features.rows ∧ Valid x.features.rows m.nStates y.get ∧
      EdgesIn x.features.rows x.edges ∧ v = GraphCRF.psi m x.features (fun i s => if s = y.get i then 1 else 0)
        (GraphCRF.hotPair x.edges y.get) := by
  classical
  rw [graph_feature_cases] at h
  by_cases h1 : x.features.cols ≠ m.nFeatures
  · rw [if_pos h1] at h; cases h
  rw [if_neg h1] at h
  by_cases h2 : y.size ≠ x.features.rows
  · rw [if_pos h2] at h; cases h
  rw [if_neg h2] at h
  by_cases h3 : ¬ Valid x.features.rows m.nStates y.get
  · rw [if_pos h3] at h; cases h
  rw [if_neg h3] at h
  by_cases h4 : ¬ EdgesIn x.features.rows x.edges
  · rw [if_pos h4] at h; cases h
  rw [if_neg h4] at h
  injection h with h
  exact ⟨not_not.mp h1, not_not.mp h2, not_not.mp h3, not_not.mp h4, h.symm⟩

/-- **C167**, `GraphCRF`: the joint feature of two graphs side by side, labelled one after the other, is the sum of
their joint features. -/
theorem C167_feature (m : GraphCRF.Model) (x₁ x₂ x : GraphCRF.X) (y₁ y₂ y : Labels) (v₁ v₂ : Vec)
    (hx : SideBySide x₁ x₂ x) (hy : Concatenated y₁ y₂ y)
    (h1 : GraphCRF.jointFeature m x₁ (.discrete y₁) = .ok v₁)
    (h2 : GraphCRF.jointFeature m x₂ (.discrete y₂) = .ok v₂) :
    ∃ v, GraphCRF.jointFeature m x (.discrete y) = .ok v ∧ v.size = GraphCRF.sizeJointFeature m ∧
      ∀ k < GraphCRF.sizeJointFeature m, v.get k = v₁.get k + v₂.get k := by
  classical
  obtain ⟨c1, s1, V1, E1, rfl⟩ := graph_feature_ok h1
  obtain ⟨c2, s2, V2, E2, rfl⟩ := graph_feature_ok h2
  obtain ⟨hF, hE⟩ := hx
  have hrows : x.features.rows = y.size := by rw [hF.2.2.1, hy.1, s1, s2]
  have hV : Valid x.features.rows m.nStates y.get := by
    rw [hrows]
    refine (concat_valid hy).mpr ⟨?_, ?_⟩
    · rw [s1]; exact V1
    · rw [s2]; exact V2
  have hEin : EdgesIn x.features.rows x.edges := by
    rw [hF.2.2.1, hE]; exact beside_in E1 E2
  rw [graph_feature_cases, if_neg (not_not.mpr (hF.2.1.trans c1)), if_neg (not_not.mpr hrows.symm),
    if_neg (not_not.mpr hV), if_neg (not_not.mpr hEin)]
  refine ⟨_, rfl, GraphCRF.psi_size _ _ _ _, ?_⟩
  refine entries_of_dot fun w => ?_
  rw [dot_add_right, GraphCRF.dot_psi_discrete m _ _ _ _ hV hEin, GraphCRF.dot_psi_discrete m _ _ _ _ V1 E1,
    GraphCRF.dot_psi_discrete m _ _ _ _ V2 E2, hrows, hE, ← s1, ← s2]
  refine score_beside hy (by rw [s1]; exact E1) (by rw [s2]; exact E2) (fun i hi => ?_) (fun i hi => ?_)
    (fun _ _ _ _ => rfl) (fun _ _ _ _ => rfl)
  · exact UN_left hF c1 w (by rw [← s1]; exact hi) _
  · rw [s1]; exact UN_right hF c1 w (by rw [← s2]; exact hi) _

theorem edge_feature_ok {m : EdgeFeature.Model} (hok : EdgeFeature.checkModel m = .ok ()) {x : EdgeFeature.X} {y : Labels}
    {v : Vec} (h : EdgeFeature.jointFeature EdgeFeature.checkSizeX m x (.discrete y) = .ok v) :
    x.features.cols = m.nFeatures ∧ x.edges.length = x.edgeFeatures.rows ∧ x.edgeFeatures.cols = m.nEdgeFeatures ∧
      y.size = x.features.rows ∧ Valid x.features.rows m.nStates y.get ∧
      EdgesIn x.features.rows x.edges ∧ v = EdgeFeature.psi m x (fun i s => if s = y.get i then 1 else 0)
        (fun e k => if k = y.get (edge x.edges e).2 + m.nStates * y.get (edge x.edges e).1 then 1 else 0) := by
  classical
  rw [edge_feature_cases m hok] at h
  by_cases h1 : x.features.cols ≠ m.nFeatures
  · rw [if_pos h1] at h; cases h
  rw [if_neg h1] at h
  by_cases h5 : x.edges.length ≠ x.edgeFeatures.rows
  · rw [if_pos h5] at h; cases h
  rw [if_neg h5] at h
  by_cases h6 : x.edgeFeatures.cols ≠ m.nEdgeFeatures
  · rw [if_pos h6] at h; cases h
  rw [if_neg h6] at h
  by_cases h2 : y.size ≠ x.features.rows
  · rw [if_pos h2] at h; cases h
  rw [if_neg h2] at h
  by_cases h3 : ¬ Valid x.features.rows m.nStates y.get
  · rw [if_pos h3] at h; cases h
  rw [if_neg h3] at h
  by_cases h4 : ¬ EdgesIn x.features.rows x.edges
  · rw [if_pos h4] at h; cases h
  rw [if_neg h4] at h
  injection h with h
  exact ⟨not_not.mp h1, not_not.mp h5, not_not.mp h6, not_not.mp h2, not_not.mp h3, not_not.mp h4, h.symm⟩

/-- **C167**, `EdgeFeatureGraphCRF`: the same with edge features. -/
theorem C167_edge_features (m : EdgeFeature.Model) (hok : EdgeFeature.checkModel m = .ok ()) (x₁ x₂ x : EdgeFeature.X)
    (y₁ y₂ y : Labels) (v₁ v₂ : Vec) (hx : SideBySideE x₁ x₂ x) (hy : Concatenated y₁ y₂ y)
    (h1 : EdgeFeature.jointFeature EdgeFeature.checkSizeX m x₁ (.discrete y₁) = .ok v₁)
    (h2 : EdgeFeature.jointFeature EdgeFeature.checkSizeX m x₂ (.discrete y₂) = .ok v₂) :
    ∃ v, EdgeFeature.jointFeature EdgeFeature.checkSizeX m x (.discrete y) = .ok v ∧
      v.size = EdgeFeature.sizeJointFeature m ∧
      ∀ k < EdgeFeature.sizeJointFeature m, v.get k = v₁.get k + v₂.get k := by
  classical
  obtain ⟨c1, l1, k1, s1, V1, E1, rfl⟩ := edge_feature_ok hok h1
  obtain ⟨c2, l2, k2, s2, V2, E2, rfl⟩ := edge_feature_ok hok h2
  obtain ⟨hF, hE, hG⟩ := hx
  have hdis := (checkModel_ok hok).2
  have hrows : x.features.rows = y.size := by rw [hF.2.2.1, hy.1, s1, s2]
  have hV : Valid x.features.rows m.nStates y.get := by
    rw [hrows]
    refine (concat_valid hy).mpr ⟨?_, ?_⟩
    · rw [s1]; exact V1
    · rw [s2]; exact V2
  have hEin : EdgesIn x.features.rows x.edges := by
    rw [hF.2.2.1, hE]; exact beside_in E1 E2
  have hlen : x.edges.length = x.edgeFeatures.rows := by
    rw [hE, beside_length, l1, l2, hG.2.2.1]
  rw [edge_feature_cases m hok, if_neg (not_not.mpr (hF.2.1.trans c1)), if_neg (not_not.mpr hlen),
    if_neg (not_not.mpr (hG.2.1.trans k1)), if_neg (not_not.mpr hrows.symm),
    if_neg (not_not.mpr hV), if_neg (not_not.mpr hEin)]
  refine ⟨_, rfl, EdgeFeature.psi_size _ _ _ _, ?_⟩
  refine entries_of_dot fun w => ?_
  rw [dot_add_right, EdgeFeature.dot_psi_discrete m _ _ _ hdis hlen.symm hV hEin,
    EdgeFeature.dot_psi_discrete m _ _ _ hdis l1.symm V1 E1,
    EdgeFeature.dot_psi_discrete m _ _ _ hdis l2.symm V2 E2, hrows, hE, ← s1, ← s2]
  refine score_beside hy (by rw [s1]; exact E1) (by rw [s2]; exact E2) (fun i hi => ?_) (fun i hi => ?_)
    (fun e he a b => ?_) (fun e he a b => ?_)
  · unfold EdgeFeature.EU
    refine sum_congr rfl fun f hf => ?_
    rw [hF.2.2.2.1 i (by rw [← s1]; exact hi) f (by rw [c1]; exact mem_range.mp hf)]
  · rw [s1]
    unfold EdgeFeature.EU
    refine sum_congr rfl fun f hf => ?_
    rw [hF.2.2.2.2 i (by rw [← s2]; exact hi) f (by rw [c1]; exact mem_range.mp hf)]
  · refine sum_congr rfl fun f hf => ?_
    rw [hG.2.2.2.1 e (by rw [← l1]; exact he) f (by rw [k1]; exact mem_range.mp hf)]
  · refine sum_congr rfl fun f hf => ?_
    rw [l1, hG.2.2.2.2 e (by rw [← l2]; exact he) f (by rw [k1]; exact mem_range.mp hf)]

/-- **C167**, the loss of labels for two graphs side by side is the sum of their losses. -/
theorem C167_loss (cw : Option Vec) (t₁ t₂ t y₁ y₂ y : Labels) (a b : ℚ) (ht : Concatenated t₁ t₂ t)
    (hy : Concatenated y₁ y₂ y) (h1 : Loss.loss cw t₁ y₁ = .ok a) (h2 : Loss.loss cw t₂ y₂ = .ok b) :
    Loss.loss cw t y = .ok (a + b) := by
  have e1 : t₁.size = y₁.size := by
    by_contra hn; unfold Loss.loss at h1; rw [if_pos hn] at h1; cases h1
  have e2 : t₂.size = y₂.size := by
    by_contra hn; unfold Loss.loss at h2; rw [if_pos hn] at h2; cases h2
  obtain ⟨ts, tl, tr⟩ := ht
  obtain ⟨ys, yl, yr⟩ := hy
  have e : t.size = y.size := by omega
  unfold Loss.loss at h1 h2 ⊢
  rw [if_neg (not_not.mpr e1)] at h1
  rw [if_neg (not_not.mpr e2)] at h2
  rw [if_neg (not_not.mpr e)]
  rw [← e1] at yl yr
  rw [← e2] at yr
  cases cw with
  | none =>
    simp only at h1 h2 ⊢
    injection h1 with h1
    injection h2 with h2
    rw [← h1, ← h2, ts, sum_range_add]
    congr 2
    · exact sum_congr rfl fun i hi => by rw [tl i (mem_range.mp hi), yl i (mem_range.mp hi)]
    · exact sum_congr rfl fun i hi => by rw [tr i (mem_range.mp hi), yr i (mem_range.mp hi)]
  | some c =>
    simp only at h1 h2 ⊢
    by_cases b1 : ∀ i < t₁.size, t₁.get i < c.size
    swap
    · rw [if_neg b1] at h1; cases h1
    by_cases b2 : ∀ i < t₂.size, t₂.get i < c.size
    swap
    · rw [if_neg b2] at h2; cases h2
    rw [if_pos b1] at h1
    rw [if_pos b2] at h2
    have hv : ∀ i < t.size, t.get i < c.size :=
      (concat_valid (S := c.size) ⟨ts, tl, tr⟩).mpr ⟨b1, b2⟩
    rw [if_pos hv]
    injection h1 with h1
    injection h2 with h2
    rw [← h1, ← h2, ts, sum_range_add]
    congr 2
    · exact sum_congr rfl fun i hi => by rw [tl i (mem_range.mp hi), yl i (mem_range.mp hi)]
    · exact sum_congr rfl fun i hi => by rw [tr i (mem_range.mp hi), yr i (mem_range.mp hi)]

/-! ### decoding -/

theorem best_beside {S n₁ n₂ : ℕ} {f f₁ f₂ : Labels → ℚ}
    (hf : ∀ z₁ z₂ z : Labels, z₁.size = n₁ → z₂.size = n₂ → Valid n₁ S z₁.get → Valid n₂ S z₂.get →
      Concatenated z₁ z₂ z → f z = f₁ z₁ + f₂ z₂)
    {y₁ y₂ y : Labels} (h1 : y₁.size = n₁) (h2 : y₂.size = n₂) (hy : Concatenated y₁ y₂ y) :
    IsBest (n₁ + n₂) S f y ↔ IsBest n₁ S f₁ y₁ ∧ IsBest n₂ S f₂ y₂ := by
  have hs : y.size = n₁ + n₂ := by rw [hy.1, h1, h2]
  have hv := concat_valid (S := S) hy
  rw [hs, h1, h2] at hv
  constructor
  · rintro ⟨⟨-, hV⟩, hb⟩
    obtain ⟨V1, V2⟩ := hv.mp hV
    refine ⟨⟨⟨h1, V1⟩, fun z hz zv => ?_⟩, ⟨⟨h2, V2⟩, fun z hz zv => ?_⟩⟩
    · have hc := stackLabels_spec z y₂
      have hzs : (stackLabels z y₂).size = n₁ + n₂ := by rw [hc.1, hz, h2]
      have hzv := (concat_valid (S := S) hc).mpr ⟨by rw [hz]; exact zv, by rw [h2]; exact V2⟩
      rw [hzs] at hzv
      have := hb _ hzs hzv
      rw [hf y₁ y₂ y h1 h2 V1 V2 hy, hf z y₂ _ hz h2 zv V2 hc] at this
      linarith
    · have hc := stackLabels_spec y₁ z
      have hzs : (stackLabels y₁ z).size = n₁ + n₂ := by rw [hc.1, hz, h1]
      have hzv := (concat_valid (S := S) hc).mpr ⟨by rw [h1]; exact V1, by rw [hz]; exact zv⟩
      rw [hzs] at hzv
      have := hb _ hzs hzv
      rw [hf y₁ y₂ y h1 h2 V1 V2 hy, hf y₁ z _ h1 hz V1 zv hc] at this
      linarith
  · rintro ⟨⟨⟨-, V1⟩, b1⟩, ⟨⟨-, V2⟩, b2⟩⟩
    refine ⟨⟨hs, hv.mpr ⟨V1, V2⟩⟩, fun z hz zv => ?_⟩
    have hc := parts_spec hz
    have hzv := (concat_valid (S := S) hc)
    rw [hz] at hzv
    obtain ⟨za, zb⟩ := hzv.mp zv
    rw [hf y₁ y₂ y h1 h2 V1 V2 hy, hf _ _ z rfl rfl za zb hc]
    exact add_le_add (b1 _ rfl za) (b2 _ rfl zb)

/-- **C167**, decoding: labels of two graphs side by side have the largest score, or the largest score plus `c` times
their loss against true labels, exactly if both of their parts have. -/
theorem C167_decoding (m : GraphCRF.Model) (x₁ x₂ x : GraphCRF.X) (hx : SideBySide x₁ x₂ x)
    (hcol : x₁.features.cols = m.nFeatures) (hE1 : EdgesIn x₁.features.rows x₁.edges)
    (hE2 : EdgesIn x₂.features.rows x₂.edges) (cw : Option Vec) (t₁ t₂ t : Labels)
    (ht1 : t₁.size = x₁.features.rows) (ht2 : t₂.size = x₂.features.rows) (ht : Concatenated t₁ t₂ t)
    (hcw : ∀ c ∈ cw, Valid t.size c.size t.get) (c : ℚ) (w : ℕ → ℚ) (y₁ y₂ y : Labels)
    (h1 : y₁.size = x₁.features.rows) (h2 : y₂.size = x₂.features.rows) (hy : Concatenated y₁ y₂ y) :
    let value := fun (x : GraphCRF.X) (t z : Labels) => c * Learner.okD 0 (Loss.loss cw t z) +
      dot (GraphCRF.sizeJointFeature m) w (Learner.graphFeature m x (.discrete z))
    IsBest x.features.rows m.nStates (value x t) y ↔
      IsBest x₁.features.rows m.nStates (value x₁ t₁) y₁ ∧ IsBest x₂.features.rows m.nStates (value x₂ t₂) y₂ := by
  classical
  intro value
  rw [hx.features.2.2.1]
  refine best_beside ?_ h1 h2 hy
  intro z₁ z₂ z s1 s2 V1 V2 hz
  have hok : ∀ (x : GraphCRF.X) (z : Labels), x.features.cols = m.nFeatures → EdgesIn x.features.rows x.edges →
      z.size = x.features.rows → Valid x.features.rows m.nStates z.get →
      ∃ v, GraphCRF.jointFeature m x (.discrete z) = .ok v := by
    intro x z a b c d
    rw [graph_feature_cases, if_neg (not_not.mpr a), if_neg (not_not.mpr c), if_neg (not_not.mpr d),
      if_neg (not_not.mpr b)]
    exact ⟨_, rfl⟩
  have hlo : ∀ (t z : Labels), t.size = z.size → (∀ c ∈ cw, Valid t.size c.size t.get) →
      ∃ a, Loss.loss cw t z = .ok a := by
    intro t z e h
    unfold Loss.loss
    rw [if_neg (not_not.mpr e)]
    cases cw with
    | none => exact ⟨_, rfl⟩
    | some c =>
      simp only
      rw [if_pos (show ∀ i < t.size, t.get i < c.size from h c rfl)]
      exact ⟨_, rfl⟩
  obtain ⟨v₁, f1⟩ := hok x₁ z₁ hcol hE1 s1 V1
  obtain ⟨v₂, f2⟩ := hok x₂ z₂ (hx.features.1.trans hcol) hE2 s2 V2
  obtain ⟨v, f, -, he⟩ := C167_feature m x₁ x₂ x z₁ z₂ z v₁ v₂ hx hz f1 f2
  obtain ⟨a, l1⟩ := hlo t₁ z₁ (ht1.trans s1.symm) fun c hc => ((concat_valid ht).mp (hcw c hc)).1
  obtain ⟨b, l2⟩ := hlo t₂ z₂ (ht2.trans s2.symm) fun c hc => ((concat_valid ht).mp (hcw c hc)).2
  have hd : dot (GraphCRF.sizeJointFeature m) w v.get =
      dot (GraphCRF.sizeJointFeature m) w v₁.get + dot (GraphCRF.sizeJointFeature m) w v₂.get := by
    rw [← dot_add_right]
    unfold dot
    exact sum_congr rfl fun k hk => by rw [he k (mem_range.mp hk)]
  simp only [value, Learner.graphFeature]
  rw [f, f1, f2, l1, l2, C167_loss cw t₁ t₂ t z₁ z₂ z a b ht hz l1 l2]
  change c * (a + b) + dot _ w v.get = c * a + dot _ w v₁.get + (c * b + dot _ w v₂.get)
  rw [hd]
  ring

/-- **C167**, unary inference (`inference_method="unary"`): the prediction for two graphs side by side consists of the
predictions for them. -/
theorem C167_unary (P : Dispatch.Packages) (relaxed : Bool) (m : GraphCRF.Model) (hS : 1 ≤ m.nStates) (x₁ x₂ x : GraphCRF.X)
    (hx : SideBySide x₁ x₂ x) (hcol : x₁.features.cols = m.nFeatures) (w : Vec) (hw : w.size = GraphCRF.sizeJointFeature m) :
    ∃ y₁ y₂ y,
      GraphCRF.inference (Dispatch.backend P (.name "unary") relaxed) m x₁ w = .ok (.discrete y₁) ∧
      GraphCRF.inference (Dispatch.backend P (.name "unary") relaxed) m x₂ w = .ok (.discrete y₂) ∧
      GraphCRF.inference (Dispatch.backend P (.name "unary") relaxed) m x w = .ok (.discrete y) ∧
      Concatenated y₁ y₂ y := by
  have key : ∀ x : GraphCRF.X, x.features.cols = m.nFeatures →
      GraphCRF.inference (Dispatch.backend P (.name "unary") relaxed) m x w =
        .ok (.discrete ⟨x.features.rows, fun i => argmaxN (GraphCRF.UN m x.features w.get i) m.nStates⟩) := by
    intro x hc
    unfold GraphCRF.inference
    rw [GraphCRF.checkSizeW_ok hw, GraphCRF.unary_ok hc hw, GraphCRF.pairwise_ok hc hw]
    simp only [bind, Except.bind]
    exact backend_unary P hS _ _ _ _
  refine ⟨_, _, _, key x₁ hcol, key x₂ (hx.features.1.trans hcol), key x (hx.features.2.1.trans hcol),
    hx.features.2.2.1, fun i hi => ?_, fun i hi => ?_⟩
  · dsimp only
    congr 1
    funext s
    exact UN_left hx.features hcol w.get hi s
  · dsimp only
    congr 1
    funext s
    exact UN_right hx.features hcol w.get hi s

/-! ### training -/

/-- the marginals of an output for two graphs side by side are those of its parts. -/
structure OutBeside (S n₁ n₂ : ℕ) (E₁ E₂ : Edges) (v₁ v₂ v : YVal) : Prop where
  nodeL : ∀ i < n₁, ∀ s < S, nodeMarg S v i s = nodeMarg S v₁ i s
  nodeR : ∀ i < n₂, ∀ s < S, nodeMarg S v (n₁ + i) s = nodeMarg S v₂ i s
  edgeL : ∀ e < E₁.length, ∀ a < S, ∀ b < S,
    edgeMarg S (edgesBeside n₁ E₁ E₂) v e a b = edgeMarg S E₁ v₁ e a b
  edgeR : ∀ e < E₂.length, ∀ a < S, ∀ b < S,
    edgeMarg S (edgesBeside n₁ E₁ E₂) v (E₁.length + e) a b = edgeMarg S E₂ v₂ e a b

theorem outputScore_beside {S n₁ n₂ : ℕ} {E₁ E₂ : Edges} {v₁ v₂ v : YVal} (h : OutBeside S n₁ n₂ E₁ E₂ v₁ v₂ v)
    {U U₁ U₂ : ℕ → ℕ → ℚ} (P : ℕ → ℕ → ℚ) (hU1 : ∀ i < n₁, ∀ s < S, U i s = U₁ i s)
    (hU2 : ∀ i < n₂, ∀ s < S, U (n₁ + i) s = U₂ i s) :
    outputScore (n₁ + n₂) S (edgesBeside n₁ E₁ E₂) U P v = outputScore n₁ S E₁ U₁ P v₁ + outputScore n₂ S E₂ U₂ P v₂ := by
  unfold outputScore marginalScore
  rw [beside_length, sum_range_add, sum_range_add, add_add_add_comm]
  refine congrArg₂ (· + ·) (congrArg₂ (· + ·) ?_ ?_) (congrArg₂ (· + ·) ?_ ?_)
  · refine sum_congr rfl fun i hi => sum_congr rfl fun s hs => ?_
    rw [hU1 i (mem_range.mp hi) s (mem_range.mp hs), h.nodeL i (mem_range.mp hi) s (mem_range.mp hs)]
  · refine sum_congr rfl fun e he => sum_congr rfl fun a ha => sum_congr rfl fun b hb => ?_
    rw [h.edgeL e (mem_range.mp he) a (mem_range.mp ha) b (mem_range.mp hb)]
  · refine sum_congr rfl fun i hi => sum_congr rfl fun s hs => ?_
    rw [hU2 i (mem_range.mp hi) s (mem_range.mp hs), h.nodeR i (mem_range.mp hi) s (mem_range.mp hs)]
  · refine sum_congr rfl fun e he => sum_congr rfl fun a ha => sum_congr rfl fun b hb => ?_
    rw [h.edgeR e (mem_range.mp he) a (mem_range.mp ha) b (mem_range.mp hb)]

theorem discrete_beside {S : ℕ} {E₁ E₂ : Edges} {y₁ y₂ y : Labels} (hy : Concatenated y₁ y₂ y)
    (h1 : EdgesIn y₁.size E₁) (h2 : EdgesIn y₂.size E₂) :
    OutBeside S y₁.size y₂.size E₁ E₂ (.discrete y₁) (.discrete y₂) (.discrete y) := by
  obtain ⟨-, hl, hr⟩ := hy
  refine ⟨fun i hi s _ => ?_, fun i hi s _ => ?_, fun e he a _ b _ => ?_, fun e he a _ b _ => ?_⟩
  · unfold nodeMarg; simp only [hl i hi]
  · unfold nodeMarg; simp only [hr i hi]
  · have hm := h1 _ (edge_mem he)
    unfold edge at hm
    unfold edgeMarg
    simp only [beside_left he, hl _ hm.1, hl _ hm.2]
  · have hm := h2 _ (edge_mem he)
    unfold edge at hm
    unfold edgeMarg
    simp only [beside_right he, hr _ hm.1, hr _ hm.2]

theorem polytope_left {S n₁ n₂ : ℕ} {E₁ E₂ : Edges} (hE : EdgesIn n₁ E₁) {v₁ v₂ v : YVal}
    (h : OutBeside S n₁ n₂ E₁ E₂ v₁ v₂ v)
    (hp : LocalPolytope (n₁ + n₂) S (edgesBeside n₁ E₁ E₂) (nodeMarg S v) (edgeMarg S (edgesBeside n₁ E₁ E₂) v)) :
    LocalPolytope n₁ S E₁ (nodeMarg S v₁) (edgeMarg S E₁ v₁) := by
  have hlen := beside_length n₁ E₁ E₂
  refine ⟨fun i hi s hs => ?_, fun e he s hs t ht => ?_, fun i hi => ?_, fun e he s hs => ?_, fun e he t ht => ?_⟩
  · rw [← h.nodeL i hi s hs]; exact hp.nonneg i (by omega) s hs
  · rw [← h.edgeL e he s hs t ht]; exact hp.nonneg_edge e (by omega) s hs t ht
  · rw [← hp.normalised i (by omega)]
    exact sum_congr rfl fun s hs => (h.nodeL i hi s (mem_range.mp hs)).symm
  · have hm := hE _ (edge_mem he)
    unfold edge at hm
    rw [← h.nodeL _ hm.1 s hs]
    have := hp.first e (by omega) s hs
    rw [beside_left he] at this
    rw [← this]
    exact sum_congr rfl fun t ht => (h.edgeL e he s hs t (mem_range.mp ht)).symm
  · have hm := hE _ (edge_mem he)
    unfold edge at hm
    rw [← h.nodeL _ hm.2 t ht]
    have := hp.second e (by omega) t ht
    rw [beside_left he] at this
    rw [← this]
    exact sum_congr rfl fun s hs => (h.edgeL e he s (mem_range.mp hs) t ht).symm

theorem polytope_right {S n₁ n₂ : ℕ} {E₁ E₂ : Edges} (hE : EdgesIn n₂ E₂) {v₁ v₂ v : YVal}
    (h : OutBeside S n₁ n₂ E₁ E₂ v₁ v₂ v)
    (hp : LocalPolytope (n₁ + n₂) S (edgesBeside n₁ E₁ E₂) (nodeMarg S v) (edgeMarg S (edgesBeside n₁ E₁ E₂) v)) :
    LocalPolytope n₂ S E₂ (nodeMarg S v₂) (edgeMarg S E₂ v₂) := by
  have hlen := beside_length n₁ E₁ E₂
  refine ⟨fun i hi s hs => ?_, fun e he s hs t ht => ?_, fun i hi => ?_, fun e he s hs => ?_, fun e he t ht => ?_⟩
  · rw [← h.nodeR i hi s hs]; exact hp.nonneg _ (by omega) s hs
  · rw [← h.edgeR e he s hs t ht]; exact hp.nonneg_edge _ (by omega) s hs t ht
  · rw [← hp.normalised (n₁ + i) (by omega)]
    exact sum_congr rfl fun s hs => (h.nodeR i hi s (mem_range.mp hs)).symm
  · have hm := hE _ (edge_mem he)
    unfold edge at hm
    rw [← h.nodeR _ hm.1 s hs]
    have := hp.first (E₁.length + e) (by omega) s hs
    rw [beside_right he] at this
    rw [← this]
    exact sum_congr rfl fun t ht => (h.edgeR e he s hs t (mem_range.mp ht)).symm
  · have hm := hE _ (edge_mem he)
    unfold edge at hm
    rw [← h.nodeR _ hm.2 t ht]
    have := hp.second (E₁.length + e) (by omega) t ht
    rw [beside_right he] at this
    rw [← this]
    exact sum_congr rfl fun s hs => (h.edgeR e he s (mem_range.mp hs) t ht).symm

theorem polytope_beside {S n₁ n₂ : ℕ} {E₁ E₂ : Edges} (hE1 : EdgesIn n₁ E₁) (hE2 : EdgesIn n₂ E₂) {v₁ v₂ v : YVal}
    (h : OutBeside S n₁ n₂ E₁ E₂ v₁ v₂ v) (h1 : LocalPolytope n₁ S E₁ (nodeMarg S v₁) (edgeMarg S E₁ v₁))
    (h2 : LocalPolytope n₂ S E₂ (nodeMarg S v₂) (edgeMarg S E₂ v₂)) :
    LocalPolytope (n₁ + n₂) S (edgesBeside n₁ E₁ E₂) (nodeMarg S v) (edgeMarg S (edgesBeside n₁ E₁ E₂) v) := by
  have hlen := beside_length n₁ E₁ E₂
  have hn : ∀ i < n₁ + n₂, i < n₁ ∨ ∃ j < n₂, i = n₁ + j := fun i hi => by
    by_cases hc : i < n₁
    · exact .inl hc
    · exact .inr ⟨i - n₁, by omega, by omega⟩
  have he' : ∀ e < (edgesBeside n₁ E₁ E₂).length, e < E₁.length ∨ ∃ j < E₂.length, e = E₁.length + j := fun e he => by
    by_cases hc : e < E₁.length
    · exact .inl hc
    · exact .inr ⟨e - E₁.length, by omega, by omega⟩
  refine ⟨fun i hi s hs => ?_, fun e he s hs t ht => ?_, fun i hi => ?_, fun e he s hs => ?_, fun e he t ht => ?_⟩
  · rcases hn i hi with hi | ⟨j, hj, rfl⟩
    · rw [h.nodeL i hi s hs]; exact h1.nonneg i hi s hs
    · rw [h.nodeR j hj s hs]; exact h2.nonneg j hj s hs
  · rcases he' e he with he | ⟨j, hj, rfl⟩
    · rw [h.edgeL e he s hs t ht]; exact h1.nonneg_edge e he s hs t ht
    · rw [h.edgeR j hj s hs t ht]; exact h2.nonneg_edge j hj s hs t ht
  · rcases hn i hi with hi | ⟨j, hj, rfl⟩
    · rw [← h1.normalised i hi]; exact sum_congr rfl fun s hs => h.nodeL i hi s (mem_range.mp hs)
    · rw [← h2.normalised j hj]; exact sum_congr rfl fun s hs => h.nodeR j hj s (mem_range.mp hs)
  · rcases he' e he with he | ⟨j, hj, rfl⟩
    · have hm := hE1 _ (edge_mem he)
      unfold edge at hm
      rw [beside_left he, h.nodeL _ hm.1 s hs, ← h1.first e he s hs]
      exact sum_congr rfl fun t ht => h.edgeL e he s hs t (mem_range.mp ht)
    · have hm := hE2 _ (edge_mem hj)
      unfold edge at hm
      rw [beside_right hj, h.nodeR _ hm.1 s hs, ← h2.first j hj s hs]
      exact sum_congr rfl fun t ht => h.edgeR j hj s hs t (mem_range.mp ht)
  · rcases he' e he with he | ⟨j, hj, rfl⟩
    · have hm := hE1 _ (edge_mem he)
      unfold edge at hm
      rw [beside_left he, h.nodeL _ hm.2 t ht, ← h1.second e he t ht]
      exact sum_congr rfl fun s hs => h.edgeL e he s (mem_range.mp hs) t ht
    · have hm := hE2 _ (edge_mem hj)
      unfold edge at hm
      rw [beside_right hj, h.nodeR _ hm.2 t ht, ← h2.second j hj t ht]
      exact sum_congr rfl fun s hs => h.edgeR j hj s (mem_range.mp hs) t ht

/-- The outputs for two graphs side by side are made up of outputs for both. -/
def Splits (S : ℕ) (O : ℕ → Edges → Set YVal) : Prop :=
  ∀ n₁ n₂ (E₁ E₂ : Edges), EdgesIn n₁ E₁ → EdgesIn n₂ E₂ →
    (∀ v ∈ O (n₁ + n₂) (edgesBeside n₁ E₁ E₂), ∃ v₁ ∈ O n₁ E₁, ∃ v₂ ∈ O n₂ E₂, OutBeside S n₁ n₂ E₁ E₂ v₁ v₂ v) ∧
    ∀ v₁ ∈ O n₁ E₁, ∀ v₂ ∈ O n₂ E₂, ∃ v ∈ O (n₁ + n₂) (edgesBeside n₁ E₁ E₂), OutBeside S n₁ n₂ E₁ E₂ v₁ v₂ v

theorem labellings_split (S : ℕ) : Splits S (labellings S) := by
  intro n₁ n₂ E₁ E₂ hE1 hE2
  constructor
  · rintro v ⟨y, rfl, hs, hv⟩
    have hc := parts_spec hs
    have := (concat_valid (S := S) hc).mp (by rw [hs]; exact hv)
    exact ⟨_, ⟨_, rfl, rfl, this.1⟩, _, ⟨_, rfl, rfl, this.2⟩, discrete_beside hc hE1 hE2⟩
  · rintro v₁ ⟨y₁, rfl, rfl, hv1⟩ v₂ ⟨y₂, rfl, rfl, hv2⟩
    have hc := stackLabels_spec y₁ y₂
    exact ⟨_, ⟨_, rfl, rfl, (concat_valid (S := S) hc).mpr ⟨hv1, hv2⟩⟩, discrete_beside hc hE1 hE2⟩

/-- marginals given as functions, as a tuple. -/
def tupleOf (S n l : ℕ) (μ : ℕ → ℕ → ℚ) (ν : ℕ → ℕ → ℕ → ℚ) : YVal :=
  .relaxed ⟨n * S, fun k => μ (k / S) (k % S)⟩ ⟨l * S ^ 2, fun k => ν (k / S / S) (k / S % S) (k % S)⟩

theorem tupleOf_node {S n l : ℕ} {μ : ℕ → ℕ → ℚ} {ν : ℕ → ℕ → ℕ → ℚ} (i s : ℕ) (hs : s < S) :
    nodeMarg S (tupleOf S n l μ ν) i s = μ i s := by
  change μ ((i * S + s) / S) ((i * S + s) % S) = _
  rw [flat_div hs, flat_mod hs]

theorem tupleOf_edge {S n l : ℕ} {μ : ℕ → ℕ → ℚ} {ν : ℕ → ℕ → ℕ → ℚ} (E : Edges) (e a b : ℕ) (ha : a < S) (hb : b < S) :
    edgeMarg S E (tupleOf S n l μ ν) e a b = ν e a b := by
  change ν (((e * S + a) * S + b) / S / S) (((e * S + a) * S + b) / S % S) (((e * S + a) * S + b) % S) = _
  rw [flat_div hb, flat_mod hb, flat_div ha, flat_mod ha]

theorem relaxed_split (S : ℕ) : Splits S (relaxedOutputs S) := by
  intro n₁ n₂ E₁ E₂ hE1 hE2
  constructor
  · intro v hv
    have hp := isRelaxed_polytope (beside_in hE1 hE2) hv
    have hb : OutBeside S n₁ n₂ E₁ E₂ (tupleOf S n₁ E₁.length (nodeMarg S v) (edgeMarg S (edgesBeside n₁ E₁ E₂) v))
        (tupleOf S n₂ E₂.length (fun i => nodeMarg S v (n₁ + i))
          fun e => edgeMarg S (edgesBeside n₁ E₁ E₂) v (E₁.length + e)) v := by
      refine ⟨fun i _ s hs => ?_, fun i _ s hs => ?_, fun e _ a ha b hb => ?_, fun e _ a ha b hb => ?_⟩
      · rw [tupleOf_node i s hs]
      · rw [tupleOf_node i s hs]
      · rw [tupleOf_edge _ e a b ha hb]
      · rw [tupleOf_edge _ e a b ha hb]
    exact ⟨_, .inr ⟨_, _, rfl, rfl, rfl, polytope_left hE1 hb hp⟩, _, .inr ⟨_, _, rfl, rfl, rfl, polytope_right hE2 hb hp⟩, hb⟩
  · intro v₁ h1 v₂ h2
    have hb : OutBeside S n₁ n₂ E₁ E₂ v₁ v₂ (tupleOf S (n₁ + n₂) (edgesBeside n₁ E₁ E₂).length
        (fun i => if i < n₁ then nodeMarg S v₁ i else nodeMarg S v₂ (i - n₁))
        fun e => if e < E₁.length then edgeMarg S E₁ v₁ e else edgeMarg S E₂ v₂ (e - E₁.length)) := by
      refine ⟨fun i hi s hs => ?_, fun i _ s hs => ?_, fun e he a ha b hb => ?_, fun e _ a ha b hb => ?_⟩
      · rw [tupleOf_node i s hs, if_pos hi]
      · rw [tupleOf_node _ s hs, if_neg (by omega), Nat.add_sub_cancel_left]
      · rw [tupleOf_edge _ e a b ha hb, if_pos he]
      · rw [tupleOf_edge _ _ a b ha hb, if_neg (by omega), Nat.add_sub_cancel_left]
    exact ⟨_, .inr ⟨_, _, rfl, rfl, rfl,
      polytope_beside hE1 hE2 hb (isRelaxed_polytope hE1 h1) (isRelaxed_polytope hE2 h2)⟩, hb⟩

theorem violation_beside {bk : Bool → GraphCRF.Infer} {cw : Vec} {m : GraphCRF.Model} (hS : 1 ≤ m.nStates)
    (hc : cw.size = m.nStates) {O : ℕ → Edges → Set YVal} (hO : ∀ n edges, ∀ v ∈ O n edges, IsRelaxed n m.nStates edges v)
    {x₁ x₂ x : GraphCRF.X} (hx : SideBySide x₁ x₂ x) (hF1 : Fits m x₁) (hF2 : Fits m x₂) {t₁ t₂ t : Labels}
    (ht : Concatenated t₁ t₂ t) (s1 : t₁.size = x₁.features.rows) (s2 : t₂.size = x₂.features.rows)
    (V1 : Valid x₁.features.rows m.nStates t₁.get) (V2 : Valid x₂.features.rows m.nStates t₂.get) (w : ℕ → ℚ)
    {v₁ v₂ v : YVal} (h1 : v₁ ∈ O x₁.features.rows x₁.edges) (h2 : v₂ ∈ O x₂.features.rows x₂.edges)
    (h : v ∈ O x.features.rows x.edges)
    (hb : OutBeside m.nStates x₁.features.rows x₂.features.rows x₁.edges x₂.edges v₁ v₂ v) :
    let P := problemOf (Learner.graphModel bk cw m) (outputsOver m O)
    P.violation w x (.discrete t) v = P.violation w x₁ (.discrete t₁) v₁ + P.violation w x₂ (.discrete t₂) v₂ := by
  intro P
  have hrows := hx.features.2.2.1
  have hs : t.size = x.features.rows := by rw [ht.1, s1, s2, hrows]
  have hV : Valid x.features.rows m.nStates t.get := by
    rw [← hs]
    exact (concat_valid ht).mpr ⟨by rw [s1]; exact V1, by rw [s2]; exact V2⟩
  have hEin : EdgesIn x.features.rows x.edges := by
    rw [hrows, hx.edges]; exact beside_in hF1.2.2 hF2.2.2
  have hcol : x.features.cols = m.nFeatures := hx.features.2.1.trans hF1.2.1
  have hval : ∀ {x : GraphCRF.X}, x.features.cols = m.nFeatures → EdgesIn x.features.rows x.edges → ∀ (t : Labels) {v : YVal},
      IsRelaxed x.features.rows m.nStates x.edges v → P.value w x (.discrete t) v =
        outputScore x.features.rows m.nStates x.edges (GraphCRF.UN m x.features w) (GraphCRF.PW m w) v :=
    fun a b _ _ d => value_output a b hS d w
  have hadd : ∀ {v₁ v₂ v : YVal}, OutBeside m.nStates x₁.features.rows x₂.features.rows x₁.edges x₂.edges v₁ v₂ v →
      outputScore x.features.rows m.nStates x.edges (GraphCRF.UN m x.features w) (GraphCRF.PW m w) v =
      outputScore x₁.features.rows m.nStates x₁.edges (GraphCRF.UN m x₁.features w) (GraphCRF.PW m w) v₁ +
      outputScore x₂.features.rows m.nStates x₂.edges (GraphCRF.UN m x₂.features w) (GraphCRF.PW m w) v₂ := by
    intro v₁ v₂ v hb
    rw [hrows, hx.edges]
    exact outputScore_beside hb _ (fun i hi s _ => UN_left hx.features hF1.2.1 w hi s)
      (fun i hi s _ => UN_right hx.features hF1.2.1 w hi s)
  have hl1 : IsRelaxed x₁.features.rows m.nStates x₁.edges (.discrete t₁) := .inl ⟨t₁, rfl, s1, V1⟩
  have hl2 : IsRelaxed x₂.features.rows m.nStates x₂.edges (.discrete t₂) := .inl ⟨t₂, rfl, s2, V2⟩
  have hl : IsRelaxed x.features.rows m.nStates x.edges (.discrete t) := .inl ⟨t, rfl, hs, hV⟩
  have hbt : OutBeside m.nStates x₁.features.rows x₂.features.rows x₁.edges x₂.edges
      (.discrete t₁) (.discrete t₂) (.discrete t) := by
    rw [← s1, ← s2]
    exact discrete_beside ht (by rw [s1]; exact hF1.2.2) (by rw [s2]; exact hF2.2.2)
  have hloss : P.loss (.discrete t) v = P.loss (.discrete t₁) v₁ + P.loss (.discrete t₂) v₂ := by
    change (Learner.graphModel bk cw m).lossOf _ _ = (Learner.graphModel bk cw m).lossOf _ _ +
      (Learner.graphModel bk cw m).lossOf _ _
    rw [lossOf_output hS hc hs hV (hO _ _ _ h), lossOf_output hS hc s1 V1 (hO _ _ _ h1),
      lossOf_output hS hc s2 V2 (hO _ _ _ h2)]
    unfold marginalLoss
    rw [hrows, sum_range_add]
    congr 1
    · refine sum_congr rfl fun i hi => ?_
      have hi := mem_range.mp hi
      rw [ht.2.1 i (by rw [s1]; exact hi), hb.nodeL i hi _ (V1 i hi)]
    · refine sum_congr rfl fun i hi => ?_
      have hi := mem_range.mp hi
      have := ht.2.2 i (by rw [s2]; exact hi)
      rw [s1] at this
      rw [this, hb.nodeR i hi _ (V2 i hi)]
  unfold Problem.violation
  rw [hloss, hval hcol hEin t (hO _ _ _ h), hval hcol hEin t hl, hval hF1.2.1 hF1.2.2 t₁ (hO _ _ _ h1),
    hval hF1.2.1 hF1.2.2 t₁ hl1, hval hF2.2.1 hF2.2.2 t₂ (hO _ _ _ h2), hval hF2.2.1 hF2.2.2 t₂ hl2, hadd hb, hadd hbt]
  ring

/-- **C167**, the structured hinge loss of two graphs side by side is the sum of their hinge losses, whether labellings
compete or relaxed labellings. -/
theorem C167_hinge (bk : Bool → GraphCRF.Infer) (cw : Vec) (m : GraphCRF.Model) (hS : 1 ≤ m.nStates)
    (hc : cw.size = m.nStates) (O : ℕ → Edges → Set YVal) (hO : O = labellings m.nStates ∨ O = relaxedOutputs m.nStates)
    (x₁ x₂ x : GraphCRF.X) (hx : SideBySide x₁ x₂ x) (t₁ t₂ t : Labels) (ht : Concatenated t₁ t₂ t)
    (hd : GraphData m [(x₁, t₁), (x₂, t₂)]) (w : ℕ → ℚ) (h : ℚ) :
    let P := problemOf (Learner.graphModel bk cw m) (outputsOver m O)
    P.IsHinge w x (.discrete t) h ↔
      ∃ h₁ h₂, P.IsHinge w x₁ (.discrete t₁) h₁ ∧ P.IsHinge w x₂ (.discrete t₂) h₂ ∧ h = h₁ + h₂ := by
  intro P
  obtain ⟨hF1, s1, V1⟩ := hd _ (List.mem_cons_self)
  obtain ⟨hF2, s2, V2⟩ := hd _ (List.mem_cons_of_mem _ List.mem_cons_self)
  dsimp only at hF1 s1 V1 hF2 s2 V2
  have hsp : Splits m.nStates O := by
    rcases hO with rfl | rfl
    · exact labellings_split _
    · exact relaxed_split _
  have hrel : ∀ n edges, ∀ v ∈ O n edges, IsRelaxed n m.nStates edges v := by
    rcases hO with rfl | rfl
    · exact labellings_relaxed
    · exact fun _ _ _ h => h
  obtain ⟨hsplit, hjoin⟩ := hsp _ _ _ _ hF1.2.2 hF2.2.2
  rw [← hx.features.2.2.1, ← hx.edges] at hsplit hjoin
  have hF : Fits m x := by
    refine ⟨?_, hx.features.2.1.trans hF1.2.1, ?_⟩
    · rw [hx.features.2.2.1]; exact hF1.1.trans (Nat.le_add_right _ _)
    · rw [hx.features.2.2.1, hx.edges]; exact beside_in hF1.2.2 hF2.2.2
  have key := fun {v₁ v₂ v : YVal} h1 h2 h hb => violation_beside (bk := bk) (v₁ := v₁) (v₂ := v₂) (v := v)
    hS hc hrel hx hF1 hF2 ht s1 s2 V1 V2 w h1 h2 h hb
  constructor
  · rintro ⟨⟨v, ⟨-, hv⟩, e⟩, hmax⟩
    obtain ⟨v₁, h1, v₂, h2, hb⟩ := hsplit v hv
    have e' := key h1 h2 hv hb
    refine ⟨_, _, ⟨⟨v₁, ⟨hF1, h1⟩, rfl⟩, ?_⟩, ⟨⟨v₂, ⟨hF2, h2⟩, rfl⟩, ?_⟩, e.trans e'⟩
    · rintro _ ⟨u, ⟨-, hu⟩, rfl⟩
      obtain ⟨z, hz, hzb⟩ := hjoin u hu v₂ h2
      have h3 := hmax ⟨z, ⟨hF, hz⟩, rfl⟩
      rw [key hu h2 hz hzb, e, e'] at h3
      exact le_of_add_le_add_right h3
    · rintro _ ⟨u, ⟨-, hu⟩, rfl⟩
      obtain ⟨z, hz, hzb⟩ := hjoin v₁ h1 u hu
      have h3 := hmax ⟨z, ⟨hF, hz⟩, rfl⟩
      rw [key h1 hu hz hzb, e, e'] at h3
      exact le_of_add_le_add_left h3
  · rintro ⟨_, _, ⟨⟨v₁, ⟨-, h1⟩, rfl⟩, m1⟩, ⟨⟨v₂, ⟨-, h2⟩, rfl⟩, m2⟩, rfl⟩
    obtain ⟨z, hz, hzb⟩ := hjoin v₁ h1 v₂ h2
    refine ⟨⟨z, ⟨hF, hz⟩, (key h1 h2 hz hzb).symm⟩, ?_⟩
    rintro _ ⟨v, ⟨-, hv⟩, rfl⟩
    obtain ⟨u₁, k1, u₂, k2, hb⟩ := hsplit v hv
    rw [key k1 k2 hv hb]
    exact add_le_add (m1 ⟨u₁, ⟨hF1, k1⟩, rfl⟩) (m2 ⟨u₂, ⟨hF2, k2⟩, rfl⟩)

theorem merged_data {m : GraphCRF.Model} {data data' : List (GraphCRF.X × Labels)} (h : Merged data data')
    (hd : GraphData m data) : GraphData m data' := by
  induction h with
  | refl => exact hd
  | @join x₁ x₂ x y₁ y₂ y data hx hy =>
    obtain ⟨hF1, s1, V1⟩ := hd _ (List.mem_cons_self)
    obtain ⟨hF2, s2, V2⟩ := hd _ (List.mem_cons_of_mem _ List.mem_cons_self)
    dsimp only at hF1 s1 V1 hF2 s2 V2
    intro d hd'
    rcases List.mem_cons.mp hd' with rfl | hd'
    · have hs : y.size = x.features.rows := by rw [hy.1, s1, s2, hx.features.2.2.1]
      refine ⟨⟨?_, hx.features.2.1.trans hF1.2.1, ?_⟩, hs, ?_⟩
      · rw [hx.features.2.2.1]; exact hF1.1.trans (Nat.le_add_right _ _)
      · rw [hx.features.2.2.1, hx.edges]; exact beside_in hF1.2.2 hF2.2.2
      · dsimp only
        rw [← hs]
        exact (concat_valid hy).mpr ⟨by rw [s1]; exact V1, by rw [s2]; exact V2⟩
    · exact hd d (List.mem_cons_of_mem _ (List.mem_cons_of_mem _ hd'))
  | cons s _ ih =>
    intro d hd'
    rcases List.mem_cons.mp hd' with rfl | hd'
    · exact hd _ List.mem_cons_self
    · exact ih (fun d h => hd d (List.mem_cons_of_mem _ h)) d hd'
  | trans _ _ ih ih' => exact ih' (ih hd)

/-- **C167**, training: putting graphs of the training data side by side does not change the regularised structured
risk of any weights, whether labellings compete or relaxed labellings. -/
theorem C167_risk (bk : Bool → GraphCRF.Infer) (cw : Vec) (m : GraphCRF.Model) (hS : 1 ≤ m.nStates)
    (hc : cw.size = m.nStates) (O : ℕ → Edges → Set YVal) (hO : O = labellings m.nStates ∨ O = relaxedOutputs m.nStates)
    (data data' : List (GraphCRF.X × Labels)) (hm : Merged data data') (hd : GraphData m data) (C : ℚ) (w : ℕ → ℚ) (r : ℚ) :
    let P := problemOf (Learner.graphModel bk cw m) (outputsOver m O)
    P.IsObjective C (graphSamples data') w r ↔ P.IsObjective C (graphSamples data) w r := by
  intro P
  have key : ∀ s : ℚ, (∃ hs : List ℚ, List.Forall₂ (fun s h => P.IsHinge w s.1 s.2 h) (graphSamples data') hs ∧ hs.sum = s) ↔
      ∃ hs : List ℚ, List.Forall₂ (fun s h => P.IsHinge w s.1 s.2 h) (graphSamples data) hs ∧ hs.sum = s := by
    induction hm with
    | refl => exact fun _ => Iff.rfl
    | @join x₁ x₂ x y₁ y₂ y rest hx hy =>
      intro s
      have hh := C167_hinge bk cw m hS hc O hO x₁ x₂ x hx y₁ y₂ y hy (fun d hd' => hd d (by
        rcases List.mem_cons.mp hd' with rfl | hd'
        · exact List.mem_cons_self
        · rcases List.mem_cons.mp hd' with rfl | hd'
          · exact List.mem_cons_of_mem _ List.mem_cons_self
          · cases hd')) w
      constructor
      · rintro ⟨hs, hf, rfl⟩
        cases hf with
        | @cons _ h _ hs h1 h2 =>
          obtain ⟨a, b, ha, hb, rfl⟩ := (hh h).mp h1
          exact ⟨a :: b :: hs, .cons ha (.cons hb h2), by simp only [List.sum_cons]; ring⟩
      · rintro ⟨hs, hf, rfl⟩
        cases hf with
        | @cons _ a _ hs ha h2 =>
          cases h2 with
          | @cons _ b _ hs hb h2 =>
            exact ⟨(a + b) :: hs, .cons ((hh _).mpr ⟨a, b, ha, hb, rfl⟩) h2, by simp only [List.sum_cons]; ring⟩
    | cons s _ ih =>
      intro r
      have ih := ih (fun d h => hd d (List.mem_cons_of_mem _ h))
      constructor
      · rintro ⟨hs, hf, rfl⟩
        cases hf with
        | @cons _ h _ hs h1 h2 =>
          obtain ⟨ks, k1, k2⟩ := (ih hs.sum).mp ⟨hs, h2, rfl⟩
          exact ⟨h :: ks, .cons h1 k1, by rw [List.sum_cons, List.sum_cons, k2]⟩
      · rintro ⟨hs, hf, rfl⟩
        cases hf with
        | @cons _ h _ hs h1 h2 =>
          obtain ⟨ks, k1, k2⟩ := (ih hs.sum).mpr ⟨hs, h2, rfl⟩
          exact ⟨h :: ks, .cons h1 k1, by rw [List.sum_cons, List.sum_cons, k2]⟩
    | trans h _ ih ih' => exact fun s => (ih' (merged_data h hd) s).trans (ih hd s)
  constructor
  · rintro ⟨hs, hf, e⟩
    obtain ⟨ks, k1, k2⟩ := (key hs.sum).mp ⟨hs, hf, rfl⟩
    exact ⟨ks, k1, by rw [k2]; exact e⟩
  · rintro ⟨hs, hf, e⟩
    obtain ⟨ks, k1, k2⟩ := (key hs.sum).mpr ⟨hs, hf, rfl⟩
    exact ⟨ks, k1, by rw [k2]; exact e⟩

/-- **C167**, one-slack training (setting of `C91_relaxed_oneslack`) on data in which graphs have been put side by side:
the learned weights are near-optimal for the data before that. -/
theorem C167_one_slack (P : Dispatch.Packages) (method : Dispatch.Method) (cw : Vec) (m : GraphCRF.Model) (hS : 2 ≤ m.nStates)
    (hP : Relaxes m.nStates P method) (hc : cw.size = m.nStates) (hpos : ∀ c < m.nStates, 0 < cw.get c)
    (data data' : List (GraphCRF.X × Labels)) (hm : Merged data data') (hne : data' ≠ []) (hd : GraphData m data)
    (qp : QP.Solver) (hqp : QP.Exact qp) (hcomp : QP.Complete qp) (eq : YVal → YVal → Except PyErr Bool)
    (o : OneSlack.Obj YVal) (heq : o.cfg.inferenceCache = 0 ∨ ∀ a b, ∃ r, eq a b = .ok r) (hC : 0 < o.cfg.C)
    (htol : 0 < o.cfg.tol) (htol1 : o.cfg.tol ≤ 1) (hneg : o.cfg.negativity = none)
    (hthr : o.cfg.inactiveThreshold ≤ 1) (hbr : o.cfg.breakOnBad = false) (hwin : o.cfg.inactiveWindow = 0)
    (hmi : o.cfg.maxIter ≠ 0)
    (R : ℚ) (hR0 : 0 ≤ R) (hR : ∀ d ∈ data', featureBound m d.1 ≤ R)
    (μ : ℚ) (hμ0 : 0 ≤ μ) (hμ1 : 2 * μ ≤ o.cfg.C * data'.length * o.cfg.tol) (hμ2 : 2 * R * μ ≤ o.cfg.tol ^ 2)
    (hmax : o.cfg.C * (data'.map fun d => ∑ i ∈ range d.2.size, cw.get (d.2.get i)).sum <
      ((o.cfg.maxIter : ℚ) - 1) * μ) :
    ∃ o' a p, OneSlack.fit (Learner.graphModel (Dispatch.backend P method) cw m) qp eq none (fun _ => none) o
        (graphSamples data') .no = .ok o' ∧ o'.attrs = some a ∧
      (graphProblem P method cw m (relaxedOutputs m.nStates)).IsObjective o.cfg.C (graphSamples data) a.w p ∧
      ∀ w obj, (graphProblem P method cw m (relaxedOutputs m.nStates)).IsObjective o.cfg.C (graphSamples data) w obj →
        p ≤ obj + o.cfg.C * data'.length * o.cfg.tol := by
  obtain ⟨o', a, p, -, h1, h2, h3, -, -, h4⟩ := C91_relaxed_oneslack P method cw m hS hP hc hpos data' hne
    (merged_data hm hd) qp hqp hcomp eq o heq hC htol htol1 hneg hthr hbr hwin hmi R hR0 hR μ hμ0 hμ1 hμ2 hmax
  have hr := fun w r => C167_risk (Dispatch.backend P method) cw m (by omega) hc (relaxedOutputs m.nStates) (.inr rfl)
    data data' hm hd o.cfg.C w r
  exact ⟨o', a, p, h1, h2, (hr _ _).mp h3, fun w obj hw => h4 w obj ((hr _ _).mpr hw)⟩

/-! ### examples -/

/-- a single edge. -/
def pairX : GraphCRF.X := ⟨⟨2, 1, fun i _ => 5 - i⟩, [(1, 0)]⟩

/-- the triangle of `C91` and the edge side by side. -/
def triangleAndPair : GraphCRF.X :=
  ⟨⟨5, 1, fun i _ => if i < 3 then i else 8 - i⟩, [(0, 1), (1, 2), (0, 2), (4, 3)]⟩

/-- the triangle and the edge as separate samples, labelled. -/
def twoGraphs : List (GraphCRF.X × Labels) :=
  [(triangleX, ⟨3, fun i => if i = 2 then 1 else 0⟩), (pairX, ⟨2, fun i => i⟩)]

/-- the two as one sample. -/
def oneGraph : List (GraphCRF.X × Labels) := [(triangleAndPair, ⟨5, fun i => if i = 2 ∨ i = 4 then 1 else 0⟩)]

theorem triangleAndPair_beside : SideBySide triangleX pairX triangleAndPair := by
  refine ⟨⟨rfl, rfl, rfl, ?_, ?_⟩, by decide⟩
  · intro i hi f _
    have : i < 3 := hi
    change (if i < 3 then (i : ℚ) else 8 - i) = i
    rw [if_pos this]
  · intro i hi f _
    have : i < 2 := hi
    change (if 3 + i < 3 then ((3 + i : ℕ) : ℚ) else 8 - ((3 + i : ℕ) : ℚ)) = 5 - i
    rw [if_neg (by omega)]
    push_cast
    ring

theorem twoGraphs_merged : Merged twoGraphs oneGraph :=
  .join [] triangleAndPair_beside ⟨rfl, by decide, by decide⟩

theorem twoGraphs_data : GraphData triangleModel twoGraphs := by
  intro d hd
  rcases List.mem_cons.mp hd with rfl | hd
  · exact triangle_data _ (List.mem_singleton.mpr rfl)
  · rcases List.mem_cons.mp hd with rfl | hd
    · refine ⟨⟨by decide, rfl, ?_⟩, rfl, ?_⟩
      · unfold EdgesIn; decide
      · unfold Valid; decide
    · cases hd

/-- the joint features of the example, all different from zero. -/
example : (((twoGraphs ++ oneGraph).map fun d => (GraphCRF.jointFeature triangleModel d.1 (.discrete d.2)).toOption.map
    fun v => (List.range v.size).map v.get) = [some [1, 2, 1, 2, 0], some [5, 4, 0, 1, 0], some [6, 6, 1, 3, 0]]) := by
  decide +kernel

/-- The hypotheses of `C167_one_slack` can be met with data that is changed by the merge. -/
example : twoGraphs.length = 2 ∧ oneGraph.length = 1 ∧ ∃ o' a,
    OneSlack.fit (Learner.graphModel (Dispatch.backend idealPackages (.name "lp")) ⟨2, fun _ => 1⟩ triangleModel) QP.ideal
      (fun _ _ => .error .typeError) none (fun _ => none)
      ⟨⟨50000, 1, false, none, false, 0, 1 / 2, 0, 1 / 10 ^ 5, 0, .auto⟩, none, []⟩ (graphSamples oneGraph) .no = .ok o' ∧
    o'.attrs = some a := by
  obtain ⟨o', a, p, h1, h2, -⟩ := C167_one_slack idealPackages (.name "lp") ⟨2, fun _ => 1⟩ triangleModel (by decide)
    (idealPackages_relaxes _ (by decide)) rfl (by decide +kernel) twoGraphs oneGraph twoGraphs_merged (by decide)
    twoGraphs_data QP.ideal
    QP.ideal_exact.1 QP.ideal_exact.2 (fun _ _ => .error .typeError)
    ⟨⟨50000, 1, false, none, false, 0, 1 / 2, 0, 1 / 10 ^ 5, 0, .auto⟩, none, []⟩ (.inl rfl) (by norm_num) (by norm_num)
    (by norm_num) rfl (by norm_num) rfl rfl (by norm_num) 1000 (by norm_num)
    (fun d hd => by
      rw [oneGraph, List.mem_singleton] at hd
      subst hd
      decide +kernel) (1 / 8000) (by norm_num)
    (by decide +kernel) (by decide +kernel) (by decide +kernel)
  exact ⟨rfl, rfl, o', a, h1, h2⟩

/-- graphs with edge features side by side. -/
example : SideBySideE ⟨⟨2, 1, fun i _ => i⟩, [(0, 1)], ⟨1, 2, fun _ k => k + 1⟩⟩ ⟨⟨2, 1, fun i _ => i + 2⟩, [(1, 0)], ⟨1, 2, fun _ k => k + 3⟩⟩
    ⟨⟨4, 1, fun i _ => i⟩, [(0, 1), (3, 2)], ⟨2, 2, fun e k => 2 * e + k + 1⟩⟩ := by
  refine ⟨⟨rfl, rfl, rfl, fun _ _ _ _ => rfl, ?_⟩, by decide, ⟨rfl, rfl, rfl, ?_, ?_⟩⟩
  · intro i _ f _
    change ((2 + i : ℕ) : ℚ) = i + 2
    push_cast; ring
  · intro i hi f _
    obtain rfl : i = 0 := by
      have : i < 1 := hi
      omega
    change 2 * ((0 : ℕ) : ℚ) + f + 1 = f + 1
    push_cast; ring
  · intro i hi f _
    obtain rfl : i = 0 := by
      have : i < 1 := hi
      omega
    change 2 * ((1 : ℕ) : ℚ) + f + 1 = f + 3
    push_cast; ring

/-- With an edge between the two parts the joint feature is not the sum any more. -/
theorem C167_connected :
    ((GraphCRF.jointFeature triangleModel ⟨triangleAndPair.features, (2, 3) :: triangleAndPair.edges⟩
      (.discrete ⟨5, fun i => if i = 2 ∨ i = 4 then 1 else 0⟩)).toOption.map
      fun v => (List.range v.size).map v.get) = some [6, 6, 1, 4, 0] := by decide +kernel

end Verif.Props
