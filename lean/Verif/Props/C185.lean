import Verif.Props.C182
import Verif.Lemmas.EdgeFeature
import Verif.Model.EdgeInstance

/-!
# C185: order and copies of edge features
-/

namespace Verif.Props

open Finset Verif.Spec Verif.Lemmas Verif.Learner Verif.Common

variable {σ : Equiv.Perm ℕ}

/-- the `K` rows of length `Q` behind position `N` in the order `σ`. -/
def rowPlace (N Q K : ℕ) (σ : Equiv.Perm ℕ) (k : ℕ) : ℕ :=
  if N ≤ k ∧ k < N + K * Q then N + (σ ((k - N) / Q) * Q + (k - N) % Q) else k

theorem rowPlace_row {N Q K r c : ℕ} (hr : r < K) (hc : c < Q) : rowPlace N Q K σ (N + (r * Q + c)) = N + (σ r * Q + c) := by
  unfold rowPlace
  rw [if_pos ⟨Nat.le_add_right _ _, Nat.add_lt_add_left (flat_lt hr hc) _⟩, Nat.add_sub_cancel_left, flat_div hc, flat_mod hc]

theorem rowPlace_rest {N Q K k : ℕ} (hk : ¬ (N ≤ k ∧ k < N + K * Q)) : rowPlace N Q K σ k = k := if_neg hk

/-- positions behind `N` are row and column. -/
theorem row_column {N Q K k : ℕ} (hk : N ≤ k ∧ k < N + K * Q) : ∃ r < K, ∃ c < Q, k = N + (r * Q + c) := by
  have hQ : 0 < Q := Nat.pos_of_ne_zero fun h => by rw [h, Nat.mul_zero] at hk; omega
  refine ⟨(k - N) / Q, ?_, (k - N) % Q, Nat.mod_lt _ hQ, ?_⟩
  · rw [Nat.div_lt_iff_lt_mul hQ]
    omega
  · have := Nat.div_add_mod' (k - N) Q
    omega

theorem rowPlace_inverse (N Q K : ℕ) (hσ : ∀ r, σ r < K ↔ r < K) (k : ℕ) : rowPlace N Q K σ.symm (rowPlace N Q K σ k) = k := by
  by_cases hk : N ≤ k ∧ k < N + K * Q
  · obtain ⟨r, hr, c, hc, rfl⟩ := row_column hk
    rw [rowPlace_row hr hc, rowPlace_row ((hσ r).mpr hr) hc, Equiv.symm_apply_apply]
  · rw [rowPlace_rest hk, rowPlace_rest hk]

theorem symm_lt {K : ℕ} (hσ : ∀ r, σ r < K ↔ r < K) (r : ℕ) : σ.symm r < K ↔ r < K := by
  rw [← hσ, Equiv.apply_symm_apply]

/-- the weights of the edge features in the order `σ`. -/
def rowOrder (N Q K : ℕ) (σ : Equiv.Perm ℕ) (hσ : ∀ r, σ r < K ↔ r < K) : Equiv.Perm ℕ where
  toFun := rowPlace N Q K σ
  invFun := rowPlace N Q K σ.symm
  left_inv := rowPlace_inverse N Q K hσ
  right_inv := rowPlace_inverse (σ := σ.symm) N Q K (symm_lt hσ)

theorem rowOrder_lt {N Q K : ℕ} (hσ : ∀ r, σ r < K ↔ r < K) (k : ℕ) : rowOrder N Q K σ hσ k < N + K * Q ↔ k < N + K * Q := by
  change rowPlace N Q K σ k < N + K * Q ↔ _
  by_cases hk : N ≤ k ∧ k < N + K * Q
  · obtain ⟨r, hr, c, hc, rfl⟩ := row_column hk
    rw [rowPlace_row hr hc]
    exact ⟨fun _ => Nat.add_lt_add_left (flat_lt hr hc) _, fun _ => Nat.add_lt_add_left (flat_lt ((hσ r).mpr hr) hc) _⟩
  · rw [rowPlace_rest hk]

/-- an instance with the columns of its edge features in the order `σ`. -/
def edgeColumns (σ : Equiv.Perm ℕ) (x : EdgeFeature.X) : EdgeFeature.X :=
  ⟨x.features, x.edges, ⟨x.edgeFeatures.rows, x.edgeFeatures.cols, fun e k => x.edgeFeatures.get e (σ k)⟩⟩

/-- a model with its lists of symmetric and antisymmetric edge features changed accordingly. -/
def edgeOrderModel (σ : Equiv.Perm ℕ) (m : EdgeFeature.Model) : EdgeFeature.Model :=
  { m with sym := m.sym.map σ.symm, anti := m.anti.map σ.symm }

theorem symmetriseRows_order (S : ℕ) (s : ℚ) (l : List ℕ) : ∀ pw : ℕ → ℕ → ℚ,
    (l.map σ.symm).foldl (EdgeFeature.symmetriseRow S s) (fun r => pw (σ r)) = fun r => l.foldl (EdgeFeature.symmetriseRow S s) pw (σ r) := by
  induction l with
  | nil => exact fun _ => rfl
  | cons i l ih =>
    intro pw
    have e : EdgeFeature.symmetriseRow S s (fun r => pw (σ r)) (σ.symm i) = fun r => EdgeFeature.symmetriseRow S s pw i (σ r) := by
      funext r k
      unfold EdgeFeature.symmetriseRow
      simp only [Equiv.apply_symm_apply]
      by_cases h : σ r = i
      · rw [if_pos h, if_pos (by rw [← h, Equiv.symm_apply_apply])]
      · rw [if_neg h, if_neg (fun h' => h (by rw [h', Equiv.apply_symm_apply]))]
    rw [List.map_cons, List.foldl_cons, List.foldl_cons, e]
    exact ih _

theorem symmetrise_order (S : ℕ) (sym anti : List ℕ) (pw : ℕ → ℕ → ℚ) (r : ℕ) :
    EdgeFeature.symmetrise S (sym.map σ.symm) (anti.map σ.symm) (fun r => pw (σ r)) r = EdgeFeature.symmetrise S sym anti pw (σ r) := by
  unfold EdgeFeature.symmetrise
  rw [symmetriseRows_order, symmetriseRows_order]

theorem edge_marginals_cols {S : ℕ} {x : EdgeFeature.X} {y : YVal} {U P : Mat} (h : EdgeFeature.marginals S x y = .ok (U, P)) :
    U.cols = S ∧ P.cols = S ^ 2 := by
  cases y with
  | discrete l =>
    unfold EdgeFeature.marginals at h
    obtain ⟨V, hV, h⟩ := bind_eq_ok.mp h
    obtain ⟨a, ha, h⟩ := bind_eq_ok.mp h
    injection h with h
    injection h with h h'
    subst h h'
    unfold GraphCRF.oneHot at hV
    split at hV
    · cases hV
    split at hV
    · cases hV
    injection hV with hV
    subst hV
    unfold EdgeFeature.pairIndicators at ha
    split at ha
    · cases ha
    injection ha with ha
    subst ha
    exact ⟨rfl, rfl⟩
  | relaxed u p =>
    unfold EdgeFeature.marginals at h
    obtain ⟨V, hV, h⟩ := bind_eq_ok.mp h
    obtain ⟨t, ht, h⟩ := bind_eq_ok.mp h
    injection h with h
    injection h with h h'
    subst h h'
    unfold Vec.reshape2 at hV ht
    split at hV
    · injection hV with hV
      split at ht
      · injection ht with ht
        subst hV ht
        exact ⟨rfl, rfl⟩
      · cases ht
    · cases hV

theorem edgeFeature_order (m : EdgeFeature.Model) (hσ : ∀ r, σ r < m.nEdgeFeatures ↔ r < m.nEdgeFeatures) (x : EdgeFeature.X) (y : YVal) :
    InOrder (rowOrder (m.nStates * m.nFeatures) (m.nStates ^ 2) m.nEdgeFeatures σ hσ) (EdgeFeature.sizeJointFeature m)
      (EdgeFeature.edgeFeature m x y) (EdgeFeature.edgeFeature (edgeOrderModel σ m) (edgeColumns σ x) y) := by
  intro k hk
  change k < m.nStates * m.nFeatures + m.nEdgeFeatures * m.nStates ^ 2 at hk
  change _ = EdgeFeature.edgeFeature m x y (rowPlace _ _ _ _ k)
  have e : EdgeFeature.marginals (edgeOrderModel σ m).nStates (edgeColumns σ x) y = EdgeFeature.marginals m.nStates x y := by cases y <;> rfl
  have ec : EdgeFeature.checkSizeX (edgeOrderModel σ m) (edgeColumns σ x) = EdgeFeature.checkSizeX m x := rfl
  unfold EdgeFeature.edgeFeature EdgeFeature.jointFeature
  rw [e, ec]
  by_cases hF : x.features.cols = m.nFeatures
  swap
  · unfold EdgeFeature.checkSizeX
    rw [if_pos hF]
    rfl
  by_cases hE : x.edges.length = x.edgeFeatures.rows
  swap
  · unfold EdgeFeature.checkSizeX
    rw [if_neg (not_not.mpr hF), if_pos hE]
    rfl
  by_cases hK : x.edgeFeatures.cols = m.nEdgeFeatures
  swap
  · unfold EdgeFeature.checkSizeX
    rw [if_neg (not_not.mpr hF), if_neg (not_not.mpr hE), if_pos hK]
    rfl
  rw [EdgeFeature.checkSizeX_ok hF hE.symm hK]
  cases hM : EdgeFeature.marginals m.nStates x y with
  | error e => rfl
  | ok u =>
    obtain ⟨U, P⟩ := u
    obtain ⟨hu, hp⟩ := edge_marginals_cols hM
    simp only [bind, Except.bind, pure, Except.pure]
    by_cases h1 : x.edgeFeatures.rows = P.rows
    · simp only [Mat.mul, Mat.T, edgeColumns, h1, if_true]
      have hi : (¬ ∀ i ∈ (edgeOrderModel σ m).sym ++ (edgeOrderModel σ m).anti, i < x.edgeFeatures.cols) ↔
          ¬ ∀ i ∈ m.sym ++ m.anti, i < x.edgeFeatures.cols := by
        rw [not_iff_not, hK]
        change (∀ i ∈ m.sym.map σ.symm ++ m.anti.map σ.symm, i < _) ↔ _
        rw [← List.map_append]
        simp only [List.mem_map, forall_exists_index, and_imp, forall_apply_eq_imp_iff₂, symm_lt hσ]
      by_cases h2 : ∀ i ∈ m.sym ++ m.anti, i < x.edgeFeatures.cols
      · rw [if_neg (fun h => hi.mp h h2), if_neg (not_not.mpr h2)]
        by_cases h3 : U.rows = x.features.rows
        · simp only [h3, if_true, okD, Vec.append, Mat.ravel, hu, hp, hF]
          by_cases hlt : k < m.nStates * m.nFeatures
          · rw [rowPlace_rest (fun h => by omega), if_pos hlt, if_pos hlt]
          · obtain ⟨r, hr, c, hc, rfl⟩ := row_column ⟨not_lt.mp hlt, hk⟩
            rw [rowPlace_row hr hc, if_neg hlt, if_neg (by omega), Nat.add_sub_cancel_left, Nat.add_sub_cancel_left, flat_div hc, flat_div hc,
              flat_mod hc, flat_mod hc]
            exact congrFun (symmetrise_order (σ := σ) m.nStates m.sym m.anti
              (fun i j => ∑ e ∈ range P.rows, x.edgeFeatures.get e i * P.get e j) r) c
        · simp only [h3, if_false]
          rfl
      · rw [if_pos (hi.mpr h2), if_pos h2]
        rfl
    · simp only [Mat.mul, Mat.T, edgeColumns, h1, if_false]
      rfl

theorem edge_pairwise_every {m : EdgeFeature.Model} {x : EdgeFeature.X} (hc : EdgeFeature.checkSizeX m x = .ok ())
    (hK : x.edgeFeatures.cols = m.nEdgeFeatures) (hpos : 0 < m.nEdgeFeatures) (w : W) :
    ∃ t, EdgeFeature.pairwisePotentials EdgeFeature.checkSizeX m x ⟨EdgeFeature.sizeJointFeature m, w⟩ = .ok t ∧ t.d0 = x.edgeFeatures.rows ∧
      t.d1 = m.nStates ∧ t.d2 = m.nStates ∧
      ∀ e, ∀ a < m.nStates, ∀ b < m.nStates, t.get e a b = EdgeFeature.EP m x.edgeFeatures w e a b := by
  have hsz : EdgeFeature.sizeJointFeature m - m.nStates * m.nFeatures = m.nEdgeFeatures * m.nStates ^ 2 := by
    unfold EdgeFeature.sizeJointFeature; omega
  unfold EdgeFeature.pairwisePotentials
  rw [sizeW_ok, hc]
  simp only [bind, Except.bind, EdgeFeature.reshapeRows, Vec.slice, hsz]
  rw [if_neg (by omega), if_neg (by simp), Nat.mul_div_cancel_left _ hpos]
  simp only [Vec.reshape2, if_true, Mat.mul, hK]
  simp only [Vec.reshape3, Mat.ravel]
  rw [if_pos (by ring)]
  refine ⟨_, rfl, rfl, rfl, rfl, ?_⟩
  intro e a ha b hb
  simp only
  unfold EdgeFeature.EP EdgeFeature.EW
  have h1 : (e * m.nStates + a) * m.nStates + b = e * m.nStates ^ 2 + (a * m.nStates + b) := by ring
  have h2 : a * m.nStates + b < m.nStates ^ 2 := by rw [pow_two]; exact flat_lt ha hb
  rw [h1, flat_div h2, flat_mod h2]

section potentials

variable {m : EdgeFeature.Model} {x : EdgeFeature.X} {w w' : W}

theorem edge_unary_order (hσ : ∀ r, σ r < m.nEdgeFeatures ↔ r < m.nEdgeFeatures)
    (hw : InOrder (rowOrder (m.nStates * m.nFeatures) (m.nStates ^ 2) m.nEdgeFeatures σ hσ) (EdgeFeature.sizeJointFeature m) w w') {i s : ℕ}
    (hs : s < m.nStates) : EdgeFeature.EU (edgeOrderModel σ m) x.features w' i s = EdgeFeature.EU m x.features w i s := by
  unfold EdgeFeature.EU
  refine sum_congr rfl fun f hf => ?_
  have hlt : s * m.nFeatures + f < m.nStates * m.nFeatures := flat_lt hs (mem_range.mp hf)
  have := hw (s * m.nFeatures + f) (by unfold EdgeFeature.sizeJointFeature; omega)
  rw [show (edgeOrderModel σ m).nFeatures = m.nFeatures from rfl, this]
  change _ * w (rowPlace _ _ _ _ _) = _
  rw [rowPlace_rest (fun h => by omega)]

theorem edge_pairwise_order (hσ : ∀ r, σ r < m.nEdgeFeatures ↔ r < m.nEdgeFeatures)
    (hw : InOrder (rowOrder (m.nStates * m.nFeatures) (m.nStates ^ 2) m.nEdgeFeatures σ hσ) (EdgeFeature.sizeJointFeature m) w w') (e : ℕ) {a b : ℕ}
    (ha : a < m.nStates) (hb : b < m.nStates) :
    EdgeFeature.EP (edgeOrderModel σ m) (edgeColumns σ x).edgeFeatures w' e a b = EdgeFeature.EP m x.edgeFeatures w e a b := by
  unfold EdgeFeature.EP
  rw [← sum_reordered_columns hσ fun k => x.edgeFeatures.get e k * EdgeFeature.EW m w k a b]
  refine sum_congr rfl fun k hk => ?_
  have hk' : k < m.nEdgeFeatures := mem_range.mp hk
  have hc : a * m.nStates + b < m.nStates ^ 2 := by rw [pow_two]; exact flat_lt ha hb
  change x.edgeFeatures.get e (σ k) * w' (m.nStates * m.nFeatures + (k * m.nStates ^ 2 + (a * m.nStates + b))) = _
  rw [hw _ (Nat.add_lt_add_left (flat_lt hk' hc) _)]
  change _ * w (rowPlace _ _ _ _ _) = _
  rw [rowPlace_row hk' hc]
  rfl

end potentials

/-- The potentials of the two models: the same exceptions, or arrays with the same entries. -/
theorem edge_potentials_order (m : EdgeFeature.Model) (hσ : ∀ r, σ r < m.nEdgeFeatures ↔ r < m.nEdgeFeatures) (x : EdgeFeature.X) {w w' : W}
    (hw : InOrder (rowOrder (m.nStates * m.nFeatures) (m.nStates ^ 2) m.nEdgeFeatures σ hσ) (EdgeFeature.sizeJointFeature m) w w') :
    (∃ e, EdgeFeature.unaryPotentials EdgeFeature.checkSizeX m x ⟨EdgeFeature.sizeJointFeature m, w⟩ = .error e ∧
      EdgeFeature.unaryPotentials EdgeFeature.checkSizeX (edgeOrderModel σ m) (edgeColumns σ x) ⟨EdgeFeature.sizeJointFeature m, w'⟩ = .error e) ∨
    ∃ U U', EdgeFeature.unaryPotentials EdgeFeature.checkSizeX m x ⟨EdgeFeature.sizeJointFeature m, w⟩ = .ok U ∧
      EdgeFeature.unaryPotentials EdgeFeature.checkSizeX (edgeOrderModel σ m) (edgeColumns σ x) ⟨EdgeFeature.sizeJointFeature m, w'⟩ = .ok U' ∧
      SameEntries U U' ∧
      ((∃ e, EdgeFeature.pairwisePotentials EdgeFeature.checkSizeX m x ⟨EdgeFeature.sizeJointFeature m, w⟩ = .error e ∧
        EdgeFeature.pairwisePotentials EdgeFeature.checkSizeX (edgeOrderModel σ m) (edgeColumns σ x) ⟨EdgeFeature.sizeJointFeature m, w'⟩ =
          .error e) ∨
      ∃ t t', EdgeFeature.pairwisePotentials EdgeFeature.checkSizeX m x ⟨EdgeFeature.sizeJointFeature m, w⟩ = .ok t ∧
        EdgeFeature.pairwisePotentials EdgeFeature.checkSizeX (edgeOrderModel σ m) (edgeColumns σ x) ⟨EdgeFeature.sizeJointFeature m, w'⟩ = .ok t' ∧
        SameTensor t t') := by
  have ec : EdgeFeature.checkSizeX (edgeOrderModel σ m) (edgeColumns σ x) = EdgeFeature.checkSizeX m x := rfl
  cases hc : EdgeFeature.checkSizeX m x with
  | error e =>
    left
    refine ⟨e, ?_, ?_⟩
    · unfold EdgeFeature.unaryPotentials
      rw [sizeW_ok, hc]
      rfl
    · unfold EdgeFeature.unaryPotentials
      rw [show EdgeFeature.sizeJointFeature (edgeOrderModel σ m) = EdgeFeature.sizeJointFeature m from rfl, sizeW_ok, ec, hc]
      rfl
  | ok _ =>
    have hs : x.features.cols = m.nFeatures ∧ x.edgeFeatures.cols = m.nEdgeFeatures := by
      unfold EdgeFeature.checkSizeX at hc
      split at hc
      · cases hc
      split at hc
      · cases hc
      split at hc
      · cases hc
      omega
    right
    refine ⟨_, _, EdgeFeature.unary_ok hc hs.1 rfl, EdgeFeature.unary_ok (m := edgeOrderModel σ m) (x := edgeColumns σ x) (ec.trans hc) hs.1 rfl,
      ⟨rfl, rfl, fun i s h => edge_unary_order hσ hw h⟩, ?_⟩
    by_cases hpos : 0 < m.nEdgeFeatures
    · right
      obtain ⟨t, h1, h2, h3, h4, h5⟩ := edge_pairwise_every hc hs.2 hpos w
      obtain ⟨t', g1, g2, g3, g4, g5⟩ := edge_pairwise_every (m := edgeOrderModel σ m) (x := edgeColumns σ x) (ec.trans hc) hs.2 hpos w'
      refine ⟨t, t', h1, g1, g2.trans h2.symm, g3.trans h3.symm, g4.trans h4.symm, fun e a ha b hb => ?_⟩
      rw [h3] at ha
      rw [h4] at hb
      rw [g5 e a ha b hb, h5 e a ha b hb]
      exact edge_pairwise_order hσ hw e ha hb
    · left
      have h0 : m.nEdgeFeatures = 0 := by omega
      refine ⟨.valueError, ?_, ?_⟩
      · unfold EdgeFeature.pairwisePotentials
        rw [sizeW_ok, hc]
        simp only [bind, Except.bind, EdgeFeature.reshapeRows]
        rw [if_pos h0]
      · unfold EdgeFeature.pairwisePotentials
        rw [show EdgeFeature.sizeJointFeature (edgeOrderModel σ m) = EdgeFeature.sizeJointFeature m from rfl, sizeW_ok, ec, hc]
        simp only [bind, Except.bind, EdgeFeature.reshapeRows]
        rw [if_pos (show (edgeOrderModel σ m).nEdgeFeatures = 0 from h0)]

/-- **C185.** An `EdgeFeatureGraphCRF` that is given its edge features in another order, with the lists of symmetric and antisymmetric
features changed accordingly, is the same learning problem with its weights in another order, for a method of inference that looks at
nothing but the entries of the arrays of potentials. By C180, all learners then learn the same weights in the other order. -/
theorem C185_edge_features (backend : Bool → GraphCRF.Infer) (hb : ∀ r, ReadsTensors (backend r)) (cw : Vec) (m : EdgeFeature.Model)
    (hσ : ∀ r, σ r < m.nEdgeFeatures ↔ r < m.nEdgeFeatures) :
    Reordered (rowOrder (m.nStates * m.nFeatures) (m.nStates ^ 2) m.nEdgeFeatures σ hσ) (edgeColumns σ) (EdgeFeature.edgeModel backend cw m)
      (EdgeFeature.edgeModel backend cw { m with sym := m.sym.map σ.symm, anti := m.anti.map σ.symm }) where
  order := rowOrder_lt hσ
  dim := rfl
  rescaleC := rfl
  isTuple y := by cases y <;> rfl
  feature x y := edgeFeature_order m hσ x y
  featureR x y _ := edgeFeature_order m hσ x y
  loss _ _ := rfl
  continuousLoss _ _ := rfl
  maxLoss _ := rfl
  lossAug x y w w' r hw := by
    cases y with
    | relaxed u p => rfl
    | discrete l =>
      change okD _ (EdgeFeature.lossAugmentedInference EdgeFeature.checkSizeX (backend r) cw (edgeOrderModel σ m) (edgeColumns σ x) l
          ⟨EdgeFeature.sizeJointFeature m, w'⟩) =
        okD _ (EdgeFeature.lossAugmentedInference EdgeFeature.checkSizeX (backend r) cw m x l ⟨EdgeFeature.sizeJointFeature m, w⟩)
      congr 1
      unfold EdgeFeature.lossAugmentedInference
      rw [show EdgeFeature.sizeJointFeature (edgeOrderModel σ m) = EdgeFeature.sizeJointFeature m from rfl, sizeW_ok, sizeW_ok]
      rcases edge_potentials_order m hσ x hw with ⟨e, h1, h2⟩ | ⟨U, U', h1, h2, h3, ⟨e, h4, h5⟩ | ⟨t, t', h4, h5, h6⟩⟩
      · rw [h1, h2]; rfl
      · rw [h1, h2, h4, h5]; rfl
      · rw [h1, h2, h4, h5]
        obtain ⟨e1, e2, e3⟩ := h3
        simp only [bind, Except.bind, Loss.lossAugmentUnaries, e1]
        by_cases g1 : l.size < U.rows
        · rw [if_pos g1, if_pos g1]
        rw [if_neg g1, if_neg g1]
        by_cases g2 : ¬ ∀ i < U.rows, l.get i < cw.size
        · rw [if_pos g2, if_pos g2]
        rw [if_neg g2, if_neg g2]
        refine hb r _ _ _ _ _ ⟨rfl, e2, fun i s hs => ?_⟩ h6
        simp only
        rw [e3 i s hs]
  inference x w w' hw := by
    change okD _ (EdgeFeature.inference EdgeFeature.checkSizeX (backend false) (edgeOrderModel σ m) (edgeColumns σ x)
        ⟨EdgeFeature.sizeJointFeature m, w'⟩) =
      okD _ (EdgeFeature.inference EdgeFeature.checkSizeX (backend false) m x ⟨EdgeFeature.sizeJointFeature m, w⟩)
    congr 1
    unfold EdgeFeature.inference
    rw [show EdgeFeature.sizeJointFeature (edgeOrderModel σ m) = EdgeFeature.sizeJointFeature m from rfl, sizeW_ok, sizeW_ok]
    rcases edge_potentials_order m hσ x hw with ⟨e, h1, h2⟩ | ⟨U, U', h1, h2, h3, ⟨e, h4, h5⟩ | ⟨t, t', h4, h5, h6⟩⟩
    · rw [h1, h2]; rfl
    · rw [h1, h2, h4, h5]; rfl
    · rw [h1, h2, h4, h5]
      exact hb false _ _ _ _ _ h3 h6

/-- The method "max-product", with any options, looks at nothing but the entries. -/
theorem C185_max_product_method (P : Dispatch.Packages) (kw : Dispatch.KW) (relaxed : Bool) :
    ReadsTensors (Dispatch.backend P (.withOpts "max-product" kw) relaxed) := by
  rintro u u' p p' E h h'
  have e : ∀ opts, MaxProd.maxProductInfer opts u' (.ten p') E = MaxProd.maxProductInfer opts u (.ten p) E :=
    fun opts => maxProductInfer_reads_ten opts u u' p p' E h h'
  unfold Dispatch.backend Dispatch.dispatch Dispatch.branch
  simp only [e, show ¬ "max-product" = "qpbo" by decide, show ¬ "max-product" = "lp" by decide, show ¬ "max-product" = "ad3" by decide,
    show ¬ "max-product" = "ad3+" by decide, show ¬ "max-product" = "ogm" by decide, show ¬ "max-product" = "unary" by decide,
    if_true, if_false]

theorem exchange_rows_eq {N Q K i j : ℕ} (hi : i < K) (hj : j < K) {w : W}
    (h : ExchangeFree (rowOrder N Q K (Equiv.swap i j) (swap_lt hi hj)) (N + K * Q) w) {c : ℕ} (hc : c < Q) :
    w (N + (i * Q + c)) = w (N + (j * Q + c)) := by
  have := h (N + (i * Q + c)) (Nat.add_lt_add_left (flat_lt hi hc) _)
  change w (rowPlace _ _ _ _ _) = _ at this
  rw [rowPlace_row hi hc, Equiv.swap_apply_left] at this
  exact this.symm

theorem map_swap_self {i j : ℕ} {l : List ℕ} (hi : i ∉ l) (hj : j ∉ l) : l.map (Equiv.swap i j).symm = l := by
  conv_rhs => rw [← List.map_id l]
  refine List.map_congr_left fun k hk => ?_
  rw [Equiv.symm_swap]
  exact Equiv.swap_apply_of_ne_of_ne (fun h => hi (h ▸ hk)) fun h => hj (h ▸ hk)

/-- **C185, copies.** If two edge features `i`, `j` are equal on all edges of all samples and declared neither symmetric nor
antisymmetric, both get the same weight, for every pair of states, from StructuredPerceptron, SubgradientSSVM, FrankWolfeSSVM and
NSlackSSVM. -/
theorem C185_copies (backend : Bool → GraphCRF.Infer) (hb : ∀ r, ReadsTensors (backend r)) (cw : Vec) (m : EdgeFeature.Model) {i j : ℕ}
    (hi : i < m.nEdgeFeatures) (hj : j < m.nEdgeFeatures) (hsi : i ∉ m.sym ++ m.anti) (hsj : j ∉ m.sym ++ m.anti)
    {samples : List (EdgeFeature.X × YVal)} (hx : ∀ s ∈ samples, ∀ e, s.1.edgeFeatures.get e i = s.1.edgeFeatures.get e j) :
    (∀ o r, Perceptron.fit (EdgeFeature.edgeModel backend cw m) o samples = .ok r → ∀ c < m.nStates ^ 2,
      r.w (m.nStates * m.nFeatures + (i * m.nStates ^ 2 + c)) = r.w (m.nStates * m.nFeatures + (j * m.nStates ^ 2 + c))) ∧
    (∀ order o r, o.w = none → (∀ k, ∀ s ∈ order k, s ∈ samples) →
      Subgradient.fit (EdgeFeature.edgeModel backend cw m) order o samples false = .ok r → ∃ w, r.w = some w ∧ ∀ c < m.nStates ^ 2,
        w (m.nStates * m.nFeatures + (i * m.nStates ^ 2 + c)) = w (m.nStates * m.nFeatures + (j * m.nStates ^ 2 + c))) ∧
    (∀ order o r, o.w = none → FrankWolfe.fit (EdgeFeature.edgeModel backend cw m) order o samples = .ok r →
      ∃ w, r.w = some w ∧ ∀ c < m.nStates ^ 2,
        w (m.nStates * m.nFeatures + (i * m.nStates ^ 2 + c)) = w (m.nStates * m.nFeatures + (j * m.nStates ^ 2 + c))) ∧
    (∀ qp eq intr o r, QP.Exact qp → QP.Complete qp → o.attrs = none → o.cfg.negativity = none → o.cfg.inactiveWindow = 0 → 0 ≤ o.cfg.C →
      NSlack.fit (EdgeFeature.edgeModel backend cw m) qp eq none intr o samples none = .ok r →
      ∃ t, r.1.attrs = some t ∧ ∀ c < m.nStates ^ 2,
        t.w (m.nStates * m.nFeatures + (i * m.nStates ^ 2 + c)) = t.w (m.nStates * m.nFeatures + (j * m.nStates ^ 2 + c))) := by
  have h := C185_edge_features (σ := Equiv.swap i j) backend hb cw m (swap_lt hi hj)
  rw [map_swap_self (fun h => hsi (List.mem_append_left _ h)) (fun h => hsj (List.mem_append_left _ h)),
    map_swap_self (fun h => hsi (List.mem_append_right _ h)) (fun h => hsj (List.mem_append_right _ h))] at h
  have hs : ∀ s ∈ samples, edgeColumns (Equiv.swap i j) s.1 = s.1 := fun s hs => by
    unfold edgeColumns
    rw [show (fun e k => s.1.edgeFeatures.get e (Equiv.swap i j k)) = s.1.edgeFeatures.get from
      funext fun e => swap_equal (hx s hs e)]
  refine ⟨fun o r hr c hc => exchange_rows_eq hi hj (C182_perceptron h hs hr) hc, fun order o r ho hos hr => ?_,
    fun order o r ho hr => ?_, fun qp eq intr o r hq hqc ho hn hw hC hr => ?_⟩
  · obtain ⟨w, h1, h2⟩ := C182_subgradient h (by simp [ho]) hs (fun k s hks => hs s (hos k s hks)) hr
    exact ⟨w, h1, fun c hc => exchange_rows_eq hi hj h2 hc⟩
  · obtain ⟨w, h1, h2⟩ := C182_frank_wolfe h (by simp [ho]) hs hr
    exact ⟨w, h1, fun c hc => exchange_rows_eq hi hj h2 hc⟩
  · obtain ⟨t, h1, h2⟩ := C182_n_slack h hq hqc ho hn hw hC hs hr
    exact ⟨t, h1, fun c hc => exchange_rows_eq hi hj h2 hc⟩

/-! ### node features -/

section nodes

variable {τ : Equiv.Perm ℕ}

/-- an instance with the columns of its node features in the order `τ`. -/
def edgeNodeColumns (τ : Equiv.Perm ℕ) (x : EdgeFeature.X) : EdgeFeature.X :=
  ⟨⟨x.features.rows, x.features.cols, fun i j => x.features.get i (τ j)⟩, x.edges, x.edgeFeatures⟩

theorem edgeFeature_columns (m : EdgeFeature.Model) (hτ : ∀ j, τ j < m.nFeatures ↔ j < m.nFeatures) (x : EdgeFeature.X) (y : YVal) (d : ℕ) :
    InOrder (blockOrder m.nStates m.nFeatures τ hτ) d (EdgeFeature.edgeFeature m x y) (EdgeFeature.edgeFeature m (edgeNodeColumns τ x) y) := by
  intro k _
  have e : EdgeFeature.marginals m.nStates (edgeNodeColumns τ x) y = EdgeFeature.marginals m.nStates x y := by cases y <;> rfl
  have ec : EdgeFeature.checkSizeX m (edgeNodeColumns τ x) = EdgeFeature.checkSizeX m x := rfl
  unfold EdgeFeature.edgeFeature EdgeFeature.jointFeature
  rw [e, ec]
  by_cases hF : x.features.cols = m.nFeatures
  swap
  · unfold EdgeFeature.checkSizeX
    rw [if_pos hF]
    rfl
  cases EdgeFeature.checkSizeX m x with
  | error e => rfl
  | ok _ =>
    cases hM : EdgeFeature.marginals m.nStates x y with
    | error e => rfl
    | ok u =>
      obtain ⟨U, P⟩ := u
      obtain ⟨hu, -⟩ := edge_marginals_cols hM
      simp only [bind, Except.bind, pure, Except.pure]
      have ef : (edgeNodeColumns τ x).edgeFeatures = x.edgeFeatures := rfl
      rw [ef]
      cases x.edgeFeatures.T.mul P with
      | error e => rfl
      | ok v =>
        simp only
        by_cases h2 : ∀ i ∈ m.sym ++ m.anti, i < v.rows
        · rw [if_neg (not_not.mpr h2), if_neg (not_not.mpr h2)]
          by_cases h3 : U.rows = x.features.rows
          · simp only [Mat.mul, Mat.T, edgeNodeColumns, h3, if_true, okD, Vec.append, Mat.ravel, hu, hF]
            by_cases hk : k < m.nStates * m.nFeatures
            · obtain ⟨e1, e2, e3⟩ := blockOrder_div hτ hk
              rw [if_pos hk, if_pos e3, e1, e2]
            · rw [blockOrder_rest hτ (by omega), if_neg hk, if_neg hk]
          · simp only [Mat.mul, Mat.T, edgeNodeColumns, h3, if_false]
            rfl
        · rw [if_pos h2, if_pos h2]
          rfl

/-- The potentials of the two instances: the same exceptions, or arrays with the same entries. -/
theorem edge_potentials_columns (m : EdgeFeature.Model) (hτ : ∀ j, τ j < m.nFeatures ↔ j < m.nFeatures) (x : EdgeFeature.X) {w w' : W}
    (hw : InOrder (blockOrder m.nStates m.nFeatures τ hτ) (EdgeFeature.sizeJointFeature m) w w') :
    (∃ e, EdgeFeature.unaryPotentials EdgeFeature.checkSizeX m x ⟨EdgeFeature.sizeJointFeature m, w⟩ = .error e ∧
      EdgeFeature.unaryPotentials EdgeFeature.checkSizeX m (edgeNodeColumns τ x) ⟨EdgeFeature.sizeJointFeature m, w'⟩ = .error e) ∨
    ∃ U U', EdgeFeature.unaryPotentials EdgeFeature.checkSizeX m x ⟨EdgeFeature.sizeJointFeature m, w⟩ = .ok U ∧
      EdgeFeature.unaryPotentials EdgeFeature.checkSizeX m (edgeNodeColumns τ x) ⟨EdgeFeature.sizeJointFeature m, w'⟩ = .ok U' ∧
      SameEntries U U' ∧
      ((∃ e, EdgeFeature.pairwisePotentials EdgeFeature.checkSizeX m x ⟨EdgeFeature.sizeJointFeature m, w⟩ = .error e ∧
        EdgeFeature.pairwisePotentials EdgeFeature.checkSizeX m (edgeNodeColumns τ x) ⟨EdgeFeature.sizeJointFeature m, w'⟩ = .error e) ∨
      ∃ t t', EdgeFeature.pairwisePotentials EdgeFeature.checkSizeX m x ⟨EdgeFeature.sizeJointFeature m, w⟩ = .ok t ∧
        EdgeFeature.pairwisePotentials EdgeFeature.checkSizeX m (edgeNodeColumns τ x) ⟨EdgeFeature.sizeJointFeature m, w'⟩ = .ok t' ∧
        SameTensor t t') := by
  have ec : EdgeFeature.checkSizeX m (edgeNodeColumns τ x) = EdgeFeature.checkSizeX m x := rfl
  cases hc : EdgeFeature.checkSizeX m x with
  | error e =>
    left
    refine ⟨e, ?_, ?_⟩
    · unfold EdgeFeature.unaryPotentials
      rw [sizeW_ok, hc]
      rfl
    · unfold EdgeFeature.unaryPotentials
      rw [sizeW_ok, ec, hc]
      rfl
  | ok _ =>
    have hs : x.features.cols = m.nFeatures ∧ x.edgeFeatures.cols = m.nEdgeFeatures := by
      unfold EdgeFeature.checkSizeX at hc
      split at hc
      · cases hc
      split at hc
      · cases hc
      split at hc
      · cases hc
      omega
    right
    refine ⟨_, _, EdgeFeature.unary_ok hc hs.1 rfl, EdgeFeature.unary_ok (x := edgeNodeColumns τ x) (ec.trans hc) hs.1 rfl,
      ⟨rfl, rfl, fun i s h => ?_⟩, ?_⟩
    · change EdgeFeature.EU m (edgeNodeColumns τ x).features w' i s = EdgeFeature.EU m x.features w i s
      unfold EdgeFeature.EU
      rw [← sum_reordered_columns hτ fun j => x.features.get i j * w (s * m.nFeatures + j)]
      refine sum_congr rfl fun j hj => ?_
      rw [hw (s * m.nFeatures + j) (Nat.lt_of_lt_of_le (flat_lt h (mem_range.mp hj)) (Nat.le_add_right _ _)),
        blockOrder_row hτ h (mem_range.mp hj)]
      rfl
    by_cases hpos : 0 < m.nEdgeFeatures
    · right
      obtain ⟨t, h1, h2, h3, h4, h5⟩ := edge_pairwise_every hc hs.2 hpos w
      obtain ⟨t', g1, g2, g3, g4, g5⟩ := edge_pairwise_every (x := edgeNodeColumns τ x) (ec.trans hc) hs.2 hpos w'
      refine ⟨t, t', h1, g1, g2.trans h2.symm, g3.trans h3.symm, g4.trans h4.symm, fun e a ha b hb => ?_⟩
      rw [h3] at ha
      rw [h4] at hb
      rw [g5 e a ha b hb, h5 e a ha b hb]
      unfold EdgeFeature.EP EdgeFeature.EW
      refine sum_congr rfl fun k hk => ?_
      have hc' : a * m.nStates + b < m.nStates ^ 2 := by rw [pow_two]; exact flat_lt ha hb
      rw [hw _ (Nat.add_lt_add_left (flat_lt (mem_range.mp hk) hc') _), blockOrder_rest hτ (by omega)]
      rfl
    · left
      have h0 : m.nEdgeFeatures = 0 := by omega
      refine ⟨.valueError, ?_, ?_⟩
      · unfold EdgeFeature.pairwisePotentials
        rw [sizeW_ok, hc]
        simp only [bind, Except.bind, EdgeFeature.reshapeRows]
        rw [if_pos h0]
      · unfold EdgeFeature.pairwisePotentials
        rw [sizeW_ok, ec, hc]
        simp only [bind, Except.bind, EdgeFeature.reshapeRows]
        rw [if_pos h0]

/-- **C185, node features.** The same for the order of the node features of an `EdgeFeatureGraphCRF`. -/
theorem C185_node_features (backend : Bool → GraphCRF.Infer) (hb : ∀ r, ReadsTensors (backend r)) (cw : Vec) (m : EdgeFeature.Model)
    (hτ : ∀ j, τ j < m.nFeatures ↔ j < m.nFeatures) :
    Reordered (blockOrder m.nStates m.nFeatures τ hτ) (edgeNodeColumns τ) (EdgeFeature.edgeModel backend cw m)
      (EdgeFeature.edgeModel backend cw m) where
  order := blockOrder_lt hτ (Nat.le_add_right _ _)
  dim := rfl
  rescaleC := rfl
  isTuple _ := rfl
  feature x y := edgeFeature_columns m hτ x y _
  featureR x y _ := edgeFeature_columns m hτ x y _
  loss _ _ := rfl
  continuousLoss _ _ := rfl
  maxLoss _ := rfl
  lossAug x y w w' r hw := by
    cases y with
    | relaxed u p => rfl
    | discrete l =>
      change okD _ (EdgeFeature.lossAugmentedInference EdgeFeature.checkSizeX (backend r) cw m (edgeNodeColumns τ x) l
          ⟨EdgeFeature.sizeJointFeature m, w'⟩) =
        okD _ (EdgeFeature.lossAugmentedInference EdgeFeature.checkSizeX (backend r) cw m x l ⟨EdgeFeature.sizeJointFeature m, w⟩)
      congr 1
      unfold EdgeFeature.lossAugmentedInference
      rw [sizeW_ok, sizeW_ok]
      rcases edge_potentials_columns m hτ x hw with ⟨e, h1, h2⟩ | ⟨U, U', h1, h2, h3, ⟨e, h4, h5⟩ | ⟨t, t', h4, h5, h6⟩⟩
      · rw [h1, h2]; rfl
      · rw [h1, h2, h4, h5]; rfl
      · rw [h1, h2, h4, h5]
        obtain ⟨e1, e2, e3⟩ := h3
        simp only [bind, Except.bind, Loss.lossAugmentUnaries, e1]
        by_cases g1 : l.size < U.rows
        · rw [if_pos g1, if_pos g1]
        rw [if_neg g1, if_neg g1]
        by_cases g2 : ¬ ∀ i < U.rows, l.get i < cw.size
        · rw [if_pos g2, if_pos g2]
        rw [if_neg g2, if_neg g2]
        refine hb r _ _ _ _ _ ⟨rfl, e2, fun i s hs => ?_⟩ h6
        simp only
        rw [e3 i s hs]
  inference x w w' hw := by
    change okD _ (EdgeFeature.inference EdgeFeature.checkSizeX (backend false) m (edgeNodeColumns τ x) ⟨EdgeFeature.sizeJointFeature m, w'⟩) =
      okD _ (EdgeFeature.inference EdgeFeature.checkSizeX (backend false) m x ⟨EdgeFeature.sizeJointFeature m, w⟩)
    congr 1
    unfold EdgeFeature.inference
    rw [sizeW_ok, sizeW_ok]
    rcases edge_potentials_columns m hτ x hw with ⟨e, h1, h2⟩ | ⟨U, U', h1, h2, h3, ⟨e, h4, h5⟩ | ⟨t, t', h4, h5, h6⟩⟩
    · rw [h1, h2]; rfl
    · rw [h1, h2, h4, h5]; rfl
    · rw [h1, h2, h4, h5]
      exact hb false _ _ _ _ _ h3 h6

/-- **C185, copies of node features.** Two equal columns of the node features get the same weight, in every state. -/
theorem C185_node_copies (backend : Bool → GraphCRF.Infer) (hb : ∀ r, ReadsTensors (backend r)) (cw : Vec) (m : EdgeFeature.Model) {i j : ℕ}
    (hi : i < m.nFeatures) (hj : j < m.nFeatures) {samples : List (EdgeFeature.X × YVal)}
    (hx : ∀ s ∈ samples, ∀ v, s.1.features.get v i = s.1.features.get v j) :
    (∀ o r, Perceptron.fit (EdgeFeature.edgeModel backend cw m) o samples = .ok r →
      ∀ c < m.nStates, r.w (c * m.nFeatures + i) = r.w (c * m.nFeatures + j)) ∧
    (∀ order o r, o.w = none → (∀ k, ∀ s ∈ order k, s ∈ samples) →
      Subgradient.fit (EdgeFeature.edgeModel backend cw m) order o samples false = .ok r →
      ∃ w, r.w = some w ∧ ∀ c < m.nStates, w (c * m.nFeatures + i) = w (c * m.nFeatures + j)) ∧
    (∀ order o r, o.w = none → FrankWolfe.fit (EdgeFeature.edgeModel backend cw m) order o samples = .ok r →
      ∃ w, r.w = some w ∧ ∀ c < m.nStates, w (c * m.nFeatures + i) = w (c * m.nFeatures + j)) ∧
    (∀ qp eq intr o r, QP.Exact qp → QP.Complete qp → o.attrs = none → o.cfg.negativity = none → o.cfg.inactiveWindow = 0 → 0 ≤ o.cfg.C →
      NSlack.fit (EdgeFeature.edgeModel backend cw m) qp eq none intr o samples none = .ok r →
      ∃ t, r.1.attrs = some t ∧ ∀ c < m.nStates, t.w (c * m.nFeatures + i) = t.w (c * m.nFeatures + j)) := by
  have h := C185_node_features (τ := Equiv.swap i j) backend hb cw m (swap_lt hi hj)
  have hs : ∀ s ∈ samples, edgeNodeColumns (Equiv.swap i j) s.1 = s.1 := fun s hs => by
    unfold edgeNodeColumns
    rw [show (fun v k => s.1.features.get v (Equiv.swap i j k)) = s.1.features.get from
      funext fun v => swap_equal (hx s hs v)]
  have hd : m.nStates * m.nFeatures ≤ (EdgeFeature.edgeModel backend cw m).dim := Nat.le_add_right _ _
  refine ⟨fun o r hr c hc => exchange_columns_eq hi hj hd (C182_perceptron h hs hr) hc, fun order o r ho hos hr => ?_,
    fun order o r ho hr => ?_, fun qp eq intr o r hq hqc ho hn hw hC hr => ?_⟩
  · obtain ⟨w, h1, h2⟩ := C182_subgradient h (by simp [ho]) hs (fun k s hks => hs s (hos k s hks)) hr
    exact ⟨w, h1, fun c hc => exchange_columns_eq hi hj hd h2 hc⟩
  · obtain ⟨w, h1, h2⟩ := C182_frank_wolfe h (by simp [ho]) hs hr
    exact ⟨w, h1, fun c hc => exchange_columns_eq hi hj hd h2 hc⟩
  · obtain ⟨t, h1, h2⟩ := C182_n_slack h hq hqc ho hn hw hC hs hr
    exact ⟨t, h1, fun c hc => exchange_columns_eq hi hj hd h2 hc⟩

end nodes

/-! ### examples -/

/-- the order of the weights is not the old one. -/
example : rowOrder 2 4 2 (Equiv.swap 0 1) (swap_lt (by decide) (by decide)) 3 = 7 := by decide +kernel

/-- two edge features exchanged, the first one symmetric; then the second one is. -/
example (P : Dispatch.Packages) := C185_edge_features (σ := Equiv.swap 0 1) (Dispatch.backend P (.withOpts "max-product" []))
  (C185_max_product_method P _) ⟨2, fun _ => 1⟩ ⟨2, 1, 2, [0], []⟩ (swap_lt (by decide) (by decide))

/-- a chain whose first two edge features are equal. -/
def edgeCopies : List (EdgeFeature.X × YVal) :=
  [(⟨⟨3, 1, fun v _ => v⟩, [(0, 1), (1, 2)], ⟨2, 3, fun e k => if k = 2 then 1 else e + 1⟩⟩, .discrete ⟨3, fun v => v % 2⟩)]

example (P : Dispatch.Packages) := C185_copies (Dispatch.backend P (.withOpts "max-product" [])) (C185_max_product_method P _)
  ⟨2, fun _ => 1⟩ ⟨2, 1, 3, [2], []⟩ (i := 0) (j := 1) (by decide) (by decide) (by decide) (by decide) (samples := edgeCopies)
  (by simp [edgeCopies])

/-- two nodes with two equal features. -/
example (P : Dispatch.Packages) := C185_node_copies (Dispatch.backend P (.withOpts "max-product" [])) (C185_max_product_method P _)
  ⟨2, fun _ => 1⟩ ⟨2, 2, 1, [], []⟩ (i := 0) (j := 1) (by decide) (by decide)
  (samples := [(⟨⟨2, 2, fun v _ => v + 1⟩, [(0, 1)], ⟨1, 1, fun _ _ => 1⟩⟩, .discrete ⟨2, fun v => v⟩)]) (by simp)

/-- the learned weights of the copies are not 0. -/
example : let o : Perceptron.Obj := ⟨⟨2, false, fun _ => 1⟩, .off, fun _ => 0, []⟩
    let r := Perceptron.fit (EdgeFeature.edgeModel (fun _ => MaxProd.maxProductInfer ⟨5, 1 / 2, 1 / 100000⟩) ⟨2, fun _ => 1⟩ ⟨2, 1, 3, [2], []⟩) o edgeCopies
    (r.toOption.map fun r => ((List.range 4).map fun c => r.w (2 + c), (List.range 4).map fun c => r.w (6 + c))) =
      some ([-3, 1, 2, 0], [-3, 1, 2, 0]) := by
  decide +kernel

end Verif.Props
