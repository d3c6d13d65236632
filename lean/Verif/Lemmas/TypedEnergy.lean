import Verif.Lemmas.Typed

/-!
# Typed CRFs: potentials and joint features in closed form
-/

namespace Verif.Typed

open Finset Verif.Common Verif.GraphCRF Verif.Spec

theorem npSlice_eq {w : Vec} {i j : ℕ} (hi : i ≤ j) (hj : j ≤ w.size) :
    npSlice w i j = ⟨j - i, fun k => w.get (i + k)⟩ := by
  unfold npSlice
  rw [Nat.min_eq_left hj, Nat.min_eq_left (hi.trans hj)]

/-- number of weights of a block of unary parameters. -/
def uSize (p : Mat × ℕ × ℕ) : ℕ := p.2.1 * p.2.2

/-- a block of unary potentials. -/
def uBlock (w : ℕ → ℚ) (i : ℕ) (p : Mat × ℕ × ℕ) : Mat :=
  ⟨p.1.rows, p.2.1, fun a b => ∑ c ∈ range p.1.cols, p.1.get a c * w (i + (b * p.2.2 + c))⟩

theorem unaryLoop_ok (w : Vec) (l : List (Mat × ℕ × ℕ)) : ∀ i, (∀ p ∈ l, p.1.cols = p.2.2) →
    i + (l.map uSize).sum ≤ w.size →
    unaryLoop w i l = .ok (scan (uBlock w.get) uSize i l, i + (l.map uSize).sum) := by
  induction l with
  | nil => intro i _ _; rfl
  | cons p l ih =>
    intro i hc hs
    obtain ⟨f, s, k⟩ := p
    rw [List.map_cons, List.sum_cons] at hs
    have hu : uSize (f, s, k) = s * k := rfl
    rw [hu] at hs
    have hf : f.cols = k := hc (f, s, k) (by simp)
    unfold unaryLoop
    rw [npSlice_eq (by omega) (by omega), ih _ (fun q hq => hc q (by simp [hq])) (by omega)]
    unfold Vec.reshape2 Mat.mul Mat.T
    simp only [bind, Except.bind]
    rw [if_pos (by omega)]
    simp only
    rw [if_pos hf]
    simp only [pure, Except.pure]
    rw [List.map_cons, List.sum_cons, hu, ← add_assoc]
    rfl

/-- number of weights of a block of pairwise parameters. -/
def pSize (m : Model) (p : (ℕ × ℕ) × Mat) : ℕ := p.2.cols * m.states p.1.1 * m.states p.1.2

/-- a block of pairwise potentials. -/
def pBlock (m : Model) (w : ℕ → ℚ) (i : ℕ) (p : (ℕ × ℕ) × Mat) : Option Ten :=
  if pSize m p = 0 then none
  else some ⟨p.2.rows, m.states p.1.1, m.states p.1.2, fun e a b =>
    ∑ c ∈ range p.2.cols,
      p.2.get (((e * m.states p.1.1 + a) * m.states p.1.2 + b) / (m.states p.1.1 * m.states p.1.2)) c *
      w (i + (c * (m.states p.1.1 * m.states p.1.2) +
        ((e * m.states p.1.1 + a) * m.states p.1.2 + b) % (m.states p.1.1 * m.states p.1.2)))⟩

theorem pairwiseBlock_ok (m : Model) (w : Vec) (i : ℕ) (p : (ℕ × ℕ) × Mat)
    (hs : i + pSize m p ≤ w.size) :
    pairwiseBlock w i (m.states p.1.1) (m.states p.1.2) p.2 = .ok (pBlock m w.get i p) := by
  unfold pairwiseBlock pBlock
  have he : p.2.cols * m.states p.1.1 * m.states p.1.2 = pSize m p := rfl
  rw [he]
  by_cases h0 : pSize m p = 0
  · rw [if_pos h0, if_pos h0]
  · rw [if_neg h0, if_neg h0, npSlice_eq (by omega) hs]
    have hF : p.2.cols ≠ 0 := by
      intro h; apply h0; rw [← he, h]; simp
    have hmul : pSize m p = p.2.cols * (m.states p.1.1 * m.states p.1.2) := by rw [← he, mul_assoc]
    have hdiv : (i + pSize m p - i) / p.2.cols = m.states p.1.1 * m.states p.1.2 := by
      rw [Nat.add_sub_cancel_left, hmul, Nat.mul_div_cancel_left _ (Nat.pos_of_ne_zero hF)]
    unfold EdgeFeature.reshapeRows Vec.reshape2 Mat.mul Vec.reshape3 Mat.ravel
    simp only [bind, Except.bind, pure, Except.pure]
    rw [if_neg hF, hdiv, if_neg (by
      rw [not_not, Nat.add_sub_cancel_left, hmul]; exact Nat.mul_mod_right _ _),
      if_pos (by rw [Nat.add_sub_cancel_left, hmul])]
    simp only [if_true]
    rw [if_pos (by ring)]

theorem pairwiseLoop_ok (m : Model) (w : Vec) (l : List ((ℕ × ℕ) × Mat)) : ∀ i,
    i + (l.map (pSize m)).sum ≤ w.size →
    pairwiseLoop m w i l = .ok (scan (pBlock m w.get) (pSize m) i l) := by
  induction l with
  | nil => intro i _; rfl
  | cons p l ih =>
    intro i hs
    obtain ⟨q, ef⟩ := p
    rw [List.map_cons, List.sum_cons] at hs
    unfold pairwiseLoop
    rw [pairwiseBlock_ok m w i (q, ef) (by omega)]
    simp only [bind, Except.bind]
    have : ef.cols * m.states q.1 * m.states q.2 = pSize m (q, ef) := rfl
    rw [this, ih _ (by omega)]
    rfl

theorem sizeUnaries_eq {m : Model} (hm : Good m) :
    m.sizeUnaries = nodeWeights m.nStates m.nFeatures m.nTypes := by
  unfold Model.sizeUnaries nodeWeights
  have h1 := map_range_getD m.nStates
  have h2 := map_range_getD m.nFeatures
  rw [hm.states] at h1
  rw [hm.features] at h2
  conv_lhs => rw [← h1, ← h2, zip_map_range, List.map_map, sum_map_range]
  rfl

theorem sizePairwise_eq (m : Model) :
    m.sizePairwise = edgeWeights m.nTypes m.nStates m.nEdgeFeatures (m.nTypes * m.nTypes) := by
  unfold Model.sizePairwise edgeWeights
  rw [typePairs_eq, List.map_map, sum_map_range]
  rfl

section
variable {m : Model} {x : X} (hm : Good m) (h1 : m.nTypes ≤ x.nodeFeatures.length)
  (h2 : m.nTypes * m.nTypes ≤ x.edgeFeatures.length)
  (hf : TypedFits m.nTypes m.nFeatures m.nEdgeFeatures x.nodeFeatures x.edges x.edgeFeatures)
include hm h1 h2 hf

omit hm h1 h2 in
theorem nodeM_cols {t : ℕ} (ht : t < m.nTypes) : (nodeM m x t).cols = m.nFeatures.getD t 0 := by
  unfold nodeM
  rcases hM : x.nodeFeatures.getD t none with _ | M
  · rfl
  · exact hf.node_cols t ht M hM

omit hm h1 h2 in
theorem edgeM_cols {k : ℕ} (hk : k < m.nTypes * m.nTypes) :
    (edgeM m x k).cols = m.nEdgeFeatures (k / m.nTypes) (k % m.nTypes) := by
  revert k
  rw [forall_pairs]
  intro a ha b hb
  unfold edgeM
  rcases hM : x.edgeFeatures.getD (a * m.nTypes + b) none with _ | M
  · rfl
  · rw [flat_div hb, flat_mod hb]
    exact hf.efeat_cols a ha b hb M hM

omit hm h1 h2 in
theorem edgeM_rows' {k : ℕ} (hk : k < m.nTypes * m.nTypes) :
    (edgeM m x k).rows = (edgesOf x.edges k).length := by
  revert k
  rw [forall_pairs]
  intro a ha b hb
  rw [edgeM_rows]
  exact hf.efeat_rows a ha b hb

omit h2 in
/-- The unary potentials of an instance that fits. -/
theorem unary_ok {w : Vec} (hw : w.size = m.size) :
    unaryPotentials m x w = .ok ((List.range m.nTypes).map fun t =>
      ⟨rowsOf x.nodeFeatures t, m.nStates.getD t 0,
        typedUnary m.nStates m.nFeatures x.nodeFeatures w.get t⟩) := by
  have hz : (nodeMats m x).zip (m.nStates.zip m.nFeatures) =
      (List.range m.nTypes).map fun t =>
        (nodeM m x t, m.nStates.getD t 0, m.nFeatures.getD t 0) := by
    have e1 := map_range_getD m.nStates
    have e2 := map_range_getD m.nFeatures
    rw [hm.states] at e1
    rw [hm.features] at e2
    conv_lhs => rw [nodeMats_eq hm h1, ← e1, ← e2, zip_map_range, zip_map_range]
  have hsum : ∀ t, ∑ k ∈ range t, uSize (nodeM m x k, m.nStates.getD k 0, m.nFeatures.getD k 0) =
      nodeWeights m.nStates m.nFeatures t := fun t => rfl
  unfold unaryPotentials
  rw [checkSizeW_ok hw, hz]
  simp only [bind, Except.bind]
  have htot : (((List.range m.nTypes).map fun t =>
      (nodeM m x t, m.nStates.getD t 0, m.nFeatures.getD t 0)).map uSize).sum = m.sizeUnaries := by
    rw [List.map_map, sum_map_range, sizeUnaries_eq hm]
    rfl
  rw [unaryLoop_ok w _ 0 (by
    intro p hp
    obtain ⟨t, ht, rfl⟩ := List.mem_map.mp hp
    exact nodeM_cols hf (List.mem_range.mp ht)) (by
    rw [htot, hw]; unfold Model.size; omega), htot]
  simp only [zero_add, ne_eq, not_true, if_false]
  congr 1
  rw [scan_range]
  apply List.map_congr_left
  intro t ht
  rw [zero_add, hsum]
  unfold uBlock
  simp only
  rw [nodeM_rows, nodeM_cols hf (List.mem_range.mp ht)]
  congr 1
  funext i s
  unfold typedUnary
  apply sum_congr rfl
  intro f _
  rw [nodeM_get, mul_comm, add_assoc]

/-- entry of a list of pairwise tables; missing tables count as zero. -/
def tenAt (ps : List (Option Ten)) (k e r s : ℕ) : ℚ :=
  ((ps.getD k none).map fun t => t.get e r s).getD 0

omit h1 in
/-- The pairwise potentials of an instance that fits. -/
theorem pairwise_ok {w : Vec} (hw : w.size = m.size) :
    ∃ ps, pairwisePotentials m x w = .ok ps ∧ ps.length = m.nTypes * m.nTypes ∧
      ∀ a < m.nTypes, ∀ b < m.nTypes, ∀ e, ∀ r < m.nStates.getD a 0, ∀ s < m.nStates.getD b 0,
        tenAt ps (a * m.nTypes + b) e r s = typedPairwise m.nTypes m.nStates m.nFeatures
          m.nEdgeFeatures x.edgeFeatures w.get a b e r s := by
  have hz : (typePairs m.nTypes).zip (edgeMats m x) =
      (List.range (m.nTypes * m.nTypes)).map fun k =>
        ((k / m.nTypes, k % m.nTypes), edgeM m x k) := by
    rw [edgeMats_eq h2, typePairs_eq, zip_map_range]
  have hsum : ∀ t ≤ m.nTypes * m.nTypes, ∑ k ∈ range t,
      pSize m ((k / m.nTypes, k % m.nTypes), edgeM m x k) =
      edgeWeights m.nTypes m.nStates m.nEdgeFeatures t := by
    intro t ht
    unfold edgeWeights
    apply sum_congr rfl
    intro k hk
    have := mem_range.mp hk
    unfold pSize
    simp only
    rw [edgeM_cols hf (by omega)]
    rfl
  have hwpw : npSlice w m.sizeUnaries w.size =
      ⟨m.sizePairwise, fun k => w.get (m.sizeUnaries + k)⟩ := by
    rw [npSlice_eq (by rw [hw]; unfold Model.size; omega) le_rfl, hw]
    unfold Model.size
    rw [Nat.add_sub_cancel_left]
  refine ⟨scan (pBlock m fun k => w.get (m.sizeUnaries + k)) (pSize m) 0
      ((List.range (m.nTypes * m.nTypes)).map fun k => ((k / m.nTypes, k % m.nTypes), edgeM m x k)),
      ?_, ?_, ?_⟩
  · unfold pairwisePotentials
    rw [checkSizeW_ok hw, hz, hwpw]
    simp only [bind, Except.bind]
    rw [pairwiseLoop_ok]
    rw [List.map_map, sum_map_range, zero_add]
    have := hsum _ le_rfl
    simp only [Function.comp] at this ⊢
    rw [this, sizePairwise_eq]
  · rw [scan_range]; simp
  · intro a ha b hb e r hr s hs
    have hk : a * m.nTypes + b < m.nTypes * m.nTypes := flat_lt ha hb
    unfold tenAt
    rw [scan_range, getD_map_range _ _ _ hk, zero_add, hsum _ hk.le]
    unfold pBlock typedPairwise
    have hps : pSize m (((a * m.nTypes + b) / m.nTypes, (a * m.nTypes + b) % m.nTypes),
        edgeM m x (a * m.nTypes + b)) =
        m.nEdgeFeatures a b * m.nStates.getD a 0 * m.nStates.getD b 0 := by
      unfold pSize
      simp only
      rw [edgeM_cols hf hk, flat_div hb, flat_mod hb]
      rfl
    by_cases h0 : m.nEdgeFeatures a b * m.nStates.getD a 0 * m.nStates.getD b 0 = 0
    · rw [hps, if_pos h0]
      have : m.nEdgeFeatures a b = 0 := by
        rcases Nat.mul_eq_zero.mp h0 with h | h
        · rcases Nat.mul_eq_zero.mp h with h | h
          · exact h
          · omega
        · omega
      rw [this]
      simp
    · rw [hps, if_neg h0]
      simp only [Option.map_some, Option.getD_some]
      rw [edgeM_cols hf hk, flat_div hb, flat_mod hb]
      have hlt : r * m.nStates.getD b 0 + s < m.nStates.getD a 0 * m.nStates.getD b 0 := flat_lt hr hs
      have hidx : (e * m.states a + r) * m.states b + s =
          e * (m.nStates.getD a 0 * m.nStates.getD b 0) + (r * m.nStates.getD b 0 + s) := by
        unfold Model.states; ring
      apply sum_congr rfl
      intro f _
      rw [hidx]
      unfold Model.states
      rw [flat_div hlt, flat_mod hlt, edgeM_get, mul_comm, sizeUnaries_eq hm]
      congr 2
      ring

end

/-! ### joint features -/

theorem accumulate_ok (l : List (Mat × Mat)) (h : ∀ p ∈ l, p.1.rows = p.2.rows) :
    accumulate l = .ok (l.map fun p => Mat.ravel ⟨p.1.cols, p.2.cols, fun i j =>
      ∑ k ∈ range p.1.rows, p.1.get k i * p.2.get k j⟩) := by
  induction l with
  | nil => rfl
  | cons p l ih =>
    obtain ⟨a, b⟩ := p
    unfold accumulate
    have hab : a.rows = b.rows := h (a, b) (by simp)
    rw [ih fun q hq => h q (by simp [hq])]
    unfold Mat.mul Mat.T
    simp only [bind, Except.bind]
    rw [if_pos hab]
    rfl

theorem hstack_snoc (l : List Vec) (a v : Vec) (h : hstack l = .ok v) :
    hstack (l ++ [a]) = .ok (v.append a) := by
  cases l with
  | nil => cases h
  | cons b l =>
    unfold hstack at h ⊢
    cases h
    simp [List.foldl_append]

theorem hstack_ok (v : ℕ → Vec) (T : ℕ) (hT : 0 < T) : ∃ V, hstack ((List.range T).map v) = .ok V ∧
    V.size = ∑ t ∈ range T, (v t).size ∧
    ∀ w : ℕ → ℚ, dot V.size w V.get =
      ∑ t ∈ range T, dot (v t).size (fun k => w (∑ q ∈ range t, (v q).size + k)) (v t).get := by
  obtain ⟨T, rfl⟩ : ∃ T', T = T' + 1 := ⟨T - 1, by omega⟩
  clear hT
  induction T with
  | zero => exact ⟨v 0, rfl, by simp, fun w => by simp⟩
  | succ T ih =>
    obtain ⟨V, hV, hs, hd⟩ := ih
    refine ⟨V.append (v (T + 1)), ?_, ?_, ?_⟩
    · rw [List.range_succ, List.map_append]
      exact hstack_snoc _ _ _ hV
    · rw [sum_range_succ, ← hs]; rfl
    · intro w
      rw [dot_append, hd, sum_range_succ _ (T + 1), ← hs]

section
variable {m : Model} {x : X} (hm : Good m) (h1 : m.nTypes ≤ x.nodeFeatures.length)
  (h2 : m.nTypes * m.nTypes ≤ x.edgeFeatures.length)
  (hf : TypedFits m.nTypes m.nFeatures m.nEdgeFeatures x.nodeFeatures x.edges x.edgeFeatures)
include hm h1 h2 hf

/-- The joint feature of a labelling with given marginals: weights times features is the sum of the
potentials weighted with the marginals. -/
theorem jointFeature_of_marginals {y : TVal} {μ ν : ℕ → ℕ → ℕ → ℚ}
    (hy : marginals m x y = .ok
      ((List.range m.nTypes).map fun t => ⟨rowsOf x.nodeFeatures t, m.nStates.getD t 0, μ t⟩,
       (List.range (m.nTypes * m.nTypes)).map fun k => ⟨(edgesOf x.edges k).length,
          m.nStates.getD (k / m.nTypes) 0 * m.nStates.getD (k % m.nTypes) 0, ν k⟩)) :
    ∃ ψ, jointFeature m x y = .ok ψ ∧ ψ.size = m.size ∧ ∀ w : ℕ → ℚ, dot ψ.size w ψ.get =
      ∑ t ∈ range m.nTypes, ∑ i ∈ range (rowsOf x.nodeFeatures t), ∑ s ∈ range (m.nStates.getD t 0),
        μ t i s * typedUnary m.nStates m.nFeatures x.nodeFeatures w t i s +
      ∑ a ∈ range m.nTypes, ∑ b ∈ range m.nTypes,
        ∑ e ∈ range (edgesOf x.edges (a * m.nTypes + b)).length,
        ∑ r ∈ range (m.nStates.getD a 0), ∑ s ∈ range (m.nStates.getD b 0),
        ν (a * m.nTypes + b) e (r * m.nStates.getD b 0 + s) *
          typedPairwise m.nTypes m.nStates m.nFeatures m.nEdgeFeatures x.edgeFeatures w a b e r s := by
  have hx := (checkSizeX_iff hm x).mpr ⟨h1, h2, hf⟩
  set u : ℕ → Vec := fun t => Mat.ravel ⟨m.nStates.getD t 0, (nodeM m x t).cols, fun i j =>
    ∑ k ∈ range (rowsOf x.nodeFeatures t), μ t k i * (nodeM m x t).get k j⟩ with hu
  set p : ℕ → Vec := fun k => Mat.ravel ⟨(edgeM m x k).cols,
    m.nStates.getD (k / m.nTypes) 0 * m.nStates.getD (k % m.nTypes) 0, fun i j =>
      ∑ e ∈ range (edgeM m x k).rows, (edgeM m x k).get e i * ν k e j⟩ with hp
  have husize : ∀ t < m.nTypes, (u t).size = m.nStates.getD t 0 * m.nFeatures.getD t 0 := by
    intro t ht
    simp only [hu, Mat.ravel]
    rw [nodeM_cols hf ht]
  have hpsize : ∀ k < m.nTypes * m.nTypes, (p k).size =
      m.nEdgeFeatures (k / m.nTypes) (k % m.nTypes) * m.nStates.getD (k / m.nTypes) 0 *
        m.nStates.getD (k % m.nTypes) 0 := by
    intro k hk
    simp only [hp, Mat.ravel]
    rw [edgeM_cols hf hk, mul_assoc]
  have hUoff : ∀ t ≤ m.nTypes, ∑ q ∈ range t, (u q).size = nodeWeights m.nStates m.nFeatures t := by
    intro t ht
    apply sum_congr rfl
    intro q hq
    have := mem_range.mp hq
    exact husize q (by omega)
  have hPoff : ∀ t ≤ m.nTypes * m.nTypes, ∑ q ∈ range t, (p q).size =
      edgeWeights m.nTypes m.nStates m.nEdgeFeatures t := by
    intro t ht
    apply sum_congr rfl
    intro q hq
    have := mem_range.mp hq
    exact hpsize q (by omega)
  obtain ⟨V, hV, hVs, hVd⟩ := hstack_ok u m.nTypes hm.pos
  obtain ⟨P, hP, hPs, hPd⟩ := hstack_ok p (m.nTypes * m.nTypes) (Nat.mul_pos hm.pos hm.pos)
  have hacc1 : accumulate (((List.range m.nTypes).map fun t =>
      (⟨rowsOf x.nodeFeatures t, m.nStates.getD t 0, μ t⟩ : Mat)).zip (nodeMats m x)) =
      .ok ((List.range m.nTypes).map u) := by
    rw [nodeMats_eq hm h1, zip_map_range, accumulate_ok]
    · rw [List.map_map]
      rfl
    · intro q hq
      obtain ⟨t, _, rfl⟩ := List.mem_map.mp hq
      exact (nodeM_rows m x t).symm
  have hacc2 : accumulate ((edgeMats m x).zip ((List.range (m.nTypes * m.nTypes)).map fun k =>
      (⟨(edgesOf x.edges k).length,
          m.nStates.getD (k / m.nTypes) 0 * m.nStates.getD (k % m.nTypes) 0, ν k⟩ : Mat))) =
      .ok ((List.range (m.nTypes * m.nTypes)).map p) := by
    rw [edgeMats_eq h2, zip_map_range, accumulate_ok]
    · rw [List.map_map]
      rfl
    · intro q hq
      obtain ⟨k, hk, rfl⟩ := List.mem_map.mp hq
      exact edgeM_rows' hf (List.mem_range.mp hk)
  refine ⟨V.append P, ?_, ?_, ?_⟩
  · unfold jointFeature
    rw [hx, hy]
    simp only [bind, Except.bind]
    rw [hacc1]
    simp only
    rw [hV]
    simp only
    rw [hacc2]
    simp only
    rw [hP]
    rfl
  · change V.size + P.size = m.size
    rw [hVs, hPs, hUoff _ le_rfl, hPoff _ le_rfl]
    unfold Model.size
    rw [sizeUnaries_eq hm, sizePairwise_eq]
  · intro w
    rw [dot_append, hVd, hPd]
    congr 1
    · apply sum_congr rfl
      intro t ht
      have ht' := mem_range.mp ht
      rw [hUoff t ht'.le]
      simp only [hu]
      rw [dot_ravel]
      simp only
      rw [nodeM_cols hf ht', sum_comm]
      simp only [mul_sum]
      rw [sum_comm]
      have : ∀ i s, μ t i s * typedUnary m.nStates m.nFeatures x.nodeFeatures w t i s =
          ∑ f ∈ range (m.nFeatures.getD t 0), μ t i s * (w (nodeWeights m.nStates m.nFeatures t +
            s * m.nFeatures.getD t 0 + f) * entryOf x.nodeFeatures t i f) := by
        intro i s
        unfold typedUnary
        rw [mul_sum]
      simp only [this]
      rw [sum_comm (s := range (rowsOf x.nodeFeatures t))]
      apply sum_congr rfl; intro s _
      rw [sum_comm]
      apply sum_congr rfl; intro i _
      apply sum_congr rfl; intro f _
      rw [nodeM_get, ← add_assoc]
      ring
    · rw [sum_range_mul' m.nTypes m.nTypes]
      apply sum_congr rfl
      intro a ha
      apply sum_congr rfl
      intro b hb
      have ha' := mem_range.mp ha
      have hb' := mem_range.mp hb
      have hk : a * m.nTypes + b < m.nTypes * m.nTypes := flat_lt ha' hb'
      rw [hPoff _ hk.le]
      simp only [hp]
      rw [dot_ravel]
      simp only
      rw [edgeM_cols hf hk, edgeM_rows' hf hk, flat_div hb', flat_mod hb', hVs, hUoff _ le_rfl]
      have : ∀ e r s, ν (a * m.nTypes + b) e (r * m.nStates.getD b 0 + s) *
          typedPairwise m.nTypes m.nStates m.nFeatures m.nEdgeFeatures x.edgeFeatures w a b e r s =
          ∑ f ∈ range (m.nEdgeFeatures a b), w (nodeWeights m.nStates m.nFeatures m.nTypes +
            (edgeWeights m.nTypes m.nStates m.nEdgeFeatures (a * m.nTypes + b) +
            (f * (m.nStates.getD a 0 * m.nStates.getD b 0) + (r * m.nStates.getD b 0 + s)))) *
            ((edgeM m x (a * m.nTypes + b)).get e f *
              ν (a * m.nTypes + b) e (r * m.nStates.getD b 0 + s)) := by
        intro e r s
        unfold typedPairwise
        rw [mul_sum]
        apply sum_congr rfl
        intro f _
        rw [edgeM_get]
        simp only [add_assoc]
        ring
      simp only [this]
      simp only [mul_sum]
      have hq : ∀ (F : ℕ → ℚ), ∑ j ∈ range (m.nStates.getD a 0 * m.nStates.getD b 0), F j =
          ∑ r ∈ range (m.nStates.getD a 0), ∑ s ∈ range (m.nStates.getD b 0),
            F (r * m.nStates.getD b 0 + s) := fun F => sum_range_mul' _ _ F
      simp only [hq]
      calc _ = ∑ f ∈ range (m.nEdgeFeatures a b), ∑ r ∈ range (m.nStates.getD a 0),
            ∑ e ∈ range (edgesOf x.edges (a * m.nTypes + b)).length,
            ∑ s ∈ range (m.nStates.getD b 0), _ :=
            sum_congr rfl fun f _ => sum_congr rfl fun r _ => sum_comm
        _ = ∑ f ∈ range (m.nEdgeFeatures a b),
            ∑ e ∈ range (edgesOf x.edges (a * m.nTypes + b)).length,
            ∑ r ∈ range (m.nStates.getD a 0), ∑ s ∈ range (m.nStates.getD b 0), _ :=
            sum_congr rfl fun f _ => sum_comm
        _ = ∑ e ∈ range (edgesOf x.edges (a * m.nTypes + b)).length,
            ∑ f ∈ range (m.nEdgeFeatures a b),
            ∑ r ∈ range (m.nStates.getD a 0), ∑ s ∈ range (m.nStates.getD b 0), _ := sum_comm
        _ = ∑ e ∈ range (edgesOf x.edges (a * m.nTypes + b)).length,
            ∑ r ∈ range (m.nStates.getD a 0), ∑ f ∈ range (m.nEdgeFeatures a b),
            ∑ s ∈ range (m.nStates.getD b 0), _ := sum_congr rfl fun e _ => sum_comm
        _ = _ := sum_congr rfl fun e _ => sum_congr rfl fun r _ => sum_comm

end

end Verif.Typed
