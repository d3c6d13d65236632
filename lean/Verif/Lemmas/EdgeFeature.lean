import Verif.Model.EdgeFeature
import Verif.Lemmas.GraphCRF
import Verif.Lemmas.Denotes

/-!
# Lemmas on edge-feature models
-/

namespace Verif.EdgeFeature

open Finset Verif.Common Verif.GraphCRF

/-- weight of edge feature `k` for the pair of states `(a, b)`. -/
def EW (m : Model) (w : ℕ → ℚ) (k a b : ℕ) : ℚ :=
  w (m.nStates * m.nFeatures + (k * m.nStates ^ 2 + (a * m.nStates + b)))

/-- pairwise potential of edge `e`. -/
def EP (m : Model) (ef : Mat) (w : ℕ → ℚ) (e a b : ℕ) : ℚ :=
  ∑ k ∈ range m.nEdgeFeatures, ef.get e k * EW m w k a b

/-- unary potentials. -/
def EU (m : Model) (x : Mat) (w : ℕ → ℚ) (i s : ℕ) : ℚ :=
  ∑ f ∈ range m.nFeatures, x.get i f * w (s * m.nFeatures + f)

theorem checkSizeX_ok {m : Model} {x : X} (hF : x.features.cols = m.nFeatures)
    (hE : x.edgeFeatures.rows = x.edges.length) (hK : x.edgeFeatures.cols = m.nEdgeFeatures) :
    checkSizeX m x = .ok () := by
  unfold checkSizeX
  rw [if_neg (by omega), if_neg (by omega), if_neg (by omega)]

theorem checkFeatures_ok {m : Model} {x : X} (hF : x.features.cols = m.nFeatures) :
    checkFeatures m x = .ok () := by
  unfold checkFeatures
  rw [if_neg (by omega)]

variable {check : Model → X → Except PyErr Unit}

theorem unary_ok {m : Model} {x : X} {w : Vec} (hc : check m x = .ok ())
    (hF : x.features.cols = m.nFeatures) (hw : w.size = sizeJointFeature m) :
    unaryPotentials check m x w = .ok ⟨x.features.rows, m.nStates, EU m x.features w.get⟩ := by
  unfold unaryPotentials
  rw [checkSizeW_ok hw, hc]
  simp only [bind, Except.bind, Vec.slice, Vec.reshape2, Nat.sub_zero, Mat.mul, Mat.T, hF,
    if_true, Nat.zero_add]
  rfl

theorem pairwise_ok {m : Model} {x : X} {w : Vec} (hc : check m x = .ok ())
    (hK : x.edgeFeatures.cols = m.nEdgeFeatures) (hpos : 0 < m.nEdgeFeatures)
    (hw : w.size = sizeJointFeature m) :
    ∃ t, pairwisePotentials check m x w = .ok t ∧ t.d0 = x.edgeFeatures.rows ∧
      t.d1 = m.nStates ∧ t.d2 = m.nStates ∧
      ∀ e < x.edgeFeatures.rows, ∀ a < m.nStates, ∀ b < m.nStates,
        t.get e a b = EP m x.edgeFeatures w.get e a b := by
  have hsz : w.size - m.nStates * m.nFeatures = m.nEdgeFeatures * m.nStates ^ 2 := by
    rw [hw]; unfold sizeJointFeature; omega
  unfold pairwisePotentials
  rw [checkSizeW_ok hw, hc]
  simp only [bind, Except.bind, reshapeRows, Vec.slice, hsz]
  rw [if_neg (by omega), if_neg (by simp), Nat.mul_div_cancel_left _ hpos]
  simp only [Vec.reshape2, if_true, Mat.mul, hK]
  simp only [Vec.reshape3, Mat.ravel]
  rw [if_pos (by ring)]
  refine ⟨_, rfl, rfl, rfl, rfl, ?_⟩
  intro e he a ha b hb
  simp only
  unfold EP EW
  have h1 : (e * m.nStates + a) * m.nStates + b = e * m.nStates ^ 2 + (a * m.nStates + b) := by ring
  have h2 : a * m.nStates + b < m.nStates ^ 2 := by rw [pow_two]; exact flat_lt ha hb
  rw [h1, flat_div h2, flat_mod h2]

/-- edge features of the wrong width make the matrix product fail. -/
theorem pairwise_bad {m : Model} {x : X} {w : Vec} (hc : check m x = .ok ())
    (hK : x.edgeFeatures.cols ≠ m.nEdgeFeatures) (hpos : 0 < m.nEdgeFeatures)
    (hw : w.size = sizeJointFeature m) :
    pairwisePotentials check m x w = .error .valueError := by
  have hsz : w.size - m.nStates * m.nFeatures = m.nEdgeFeatures * m.nStates ^ 2 := by
    rw [hw]; unfold sizeJointFeature; omega
  unfold pairwisePotentials
  rw [checkSizeW_ok hw, hc]
  simp only [bind, Except.bind, reshapeRows, Vec.slice, hsz]
  rw [if_neg (by omega), if_neg (by simp), Nat.mul_div_cancel_left _ hpos]
  simp only [Vec.reshape2, if_true, Mat.mul]
  rw [if_neg hK]

/-- the score of an edge-feature model: like the specification of scores, with the potential of edge `e`
being the edge features times the edge weights. -/
theorem energy_ok {m : Model} {x : X} {w : Vec} {y : Labels} (hc : check m x = .ok ())
    (hF : x.features.cols = m.nFeatures) (hE : x.edgeFeatures.rows = x.edges.length)
    (hK : x.edgeFeatures.cols = m.nEdgeFeatures) (hpos : 0 < m.nEdgeFeatures)
    (hw : w.size = sizeJointFeature m) (hy : y.size = x.features.rows)
    (hv : Spec.Valid x.features.rows m.nStates y.get)
    (he : Spec.EdgesIn x.features.rows x.edges) :
    ∃ U P, unaryPotentials check m x w = .ok U ∧ pairwisePotentials check m x w = .ok P ∧
      U.rows = x.features.rows ∧ U.cols = m.nStates ∧
      computeEnergy U (.ten P) x.edges y = .ok (Spec.score x.features.rows x.edges
        (EU m x.features w.get) (EP m x.edgeFeatures w.get) y.get) := by
  obtain ⟨P, hP, h0, h1, h2, hget⟩ := pairwise_ok hc hK hpos hw
  refine ⟨_, P, unary_ok hc hF hw, hP, rfl, rfl, ?_⟩
  rw [computeEnergy_ok ⟨x.features.rows, m.nStates, EU m x.features w.get⟩ (.ten P) x.edges y P
    (by unfold validateParams; simp only; rw [if_pos ⟨by omega, h1, h2⟩]) hy hv he]
  congr 1
  unfold Spec.score
  congr 1
  apply sum_congr rfl
  intro e hee
  have hlt := mem_range.mp hee
  have hm := he _ (edge_mem hlt)
  exact hget e (by omega) _ (hv _ hm.1) _ (hv _ hm.2)

/-! ### symmetrisation -/

/-- effect of the two loops on the block of edge feature `r`, in terms of pairs of states. -/
def proj (sym anti : List ℕ) (r : ℕ) (M : ℕ → ℕ → ℚ) (a b : ℕ) : ℚ :=
  if r ∈ anti then (M a b - M b a) / 2
  else if r ∈ sym then (M a b + M b a) / 2
  else M a b

theorem fold_row (S : ℕ) (s : ℚ) (hs : s = 1 ∨ s = -1) (l : List ℕ) (pw : ℕ → ℕ → ℚ)
    (r a b : ℕ) (ha : a < S) (hb : b < S) :
    l.foldl (symmetriseRow S s) pw r (a * S + b) =
      if r ∈ l then (pw r (a * S + b) + s * pw r (b * S + a)) / 2 else pw r (a * S + b) := by
  induction l generalizing pw with
  | nil => simp
  | cons i l ih =>
    simp only [List.foldl_cons]
    rw [ih]
    have key : ∀ a b, a < S → b < S → symmetriseRow S s pw i r (a * S + b) =
        if r = i then (pw i (a * S + b) + s * pw i (b * S + a)) / 2 else pw r (a * S + b) := by
      intro a b ha hb
      unfold symmetriseRow
      rw [flat_div hb, flat_mod hb]
    rw [key a b ha hb, key b a hb ha]
    by_cases hri : r = i
    · subst hri
      simp only [if_true, List.mem_cons, true_or]
      by_cases hrl : r ∈ l
      · rw [if_pos hrl]
        rcases hs with rfl | rfl <;> ring
      · rw [if_neg hrl]
    · simp only [hri, if_false, List.mem_cons, false_or]

theorem symmetrise_get (S : ℕ) (sym anti : List ℕ) (hdis : ∀ i ∈ sym, i ∉ anti)
    (pw : ℕ → ℕ → ℚ) (r a b : ℕ) (ha : a < S) (hb : b < S) :
    symmetrise S sym anti pw r (a * S + b) =
      proj sym anti r (fun a b => pw r (a * S + b)) a b := by
  unfold symmetrise proj
  rw [fold_row S (-1) (Or.inr rfl) _ _ _ _ _ ha hb, fold_row S 1 (Or.inl rfl) _ _ _ _ _ ha hb,
    fold_row S 1 (Or.inl rfl) _ _ _ _ _ hb ha]
  by_cases h1 : r ∈ anti
  · have h2 : r ∉ sym := fun h => hdis r h h1
    simp only [h1, h2, if_true, if_false]; ring
  · by_cases h2 : r ∈ sym
    · simp only [h1, h2, if_true, if_false]; ring
    · simp only [h1, h2, if_false]

/-- symmetrisation is self-adjoint. -/
theorem proj_adjoint (sym anti : List ℕ) (r S : ℕ) (W M : ℕ → ℕ → ℚ) :
    ∑ a ∈ range S, ∑ b ∈ range S, W a b * proj sym anti r M a b =
      ∑ a ∈ range S, ∑ b ∈ range S, proj sym anti r W a b * M a b := by
  have hT : ∀ f : ℕ → ℕ → ℚ, ∑ a ∈ range S, ∑ b ∈ range S, f a b =
      ∑ a ∈ range S, ∑ b ∈ range S, f b a := fun f => sum_comm
  unfold proj
  by_cases h1 : r ∈ anti
  · simp only [h1, if_true]
    have e1 : ∀ a b, W a b * ((M a b - M b a) / 2) = W a b * M a b / 2 - W a b * M b a / 2 := by
      intros; ring
    have e2 : ∀ a b, (W a b - W b a) / 2 * M a b = W a b * M a b / 2 - W b a * M a b / 2 := by
      intros; ring
    simp only [e1, e2, sum_sub_distrib]
    rw [hT (fun a b => W a b * M b a / 2)]
  · by_cases h2 : r ∈ sym
    · simp only [h1, h2, if_true, if_false]
      have e1 : ∀ a b, W a b * ((M a b + M b a) / 2) = W a b * M a b / 2 + W a b * M b a / 2 := by
        intros; ring
      have e2 : ∀ a b, (W a b + W b a) / 2 * M a b = W a b * M a b / 2 + W b a * M a b / 2 := by
        intros; ring
      simp only [e1, e2, sum_add_distrib]
      rw [hT (fun a b => W a b * M b a / 2)]
    · simp only [h1, h2, if_false]

/-! ### the joint feature -/

/-- joint feature assembled from marginals. -/
def psi (m : Model) (x : X) (U P : ℕ → ℕ → ℚ) : Vec :=
  (Mat.ravel ⟨m.nStates, m.nFeatures,
    fun s f => ∑ i ∈ range x.features.rows, U i s * x.features.get i f⟩).append
    (Mat.ravel ⟨m.nEdgeFeatures, m.nStates ^ 2, symmetrise m.nStates m.sym m.anti
      (fun r k => ∑ e ∈ range x.edgeFeatures.rows, x.edgeFeatures.get e r * P e k)⟩)

theorem psi_size (m : Model) (x : X) (U P : ℕ → ℕ → ℚ) :
    (psi m x U P).size = sizeJointFeature m := rfl

theorem jointFeature_of_marginals {m : Model} {x : X} {y : YVal} {U P : ℕ → ℕ → ℚ}
    (hc : check m x = .ok ()) (hF : x.features.cols = m.nFeatures)
    (hK : x.edgeFeatures.cols = m.nEdgeFeatures)
    (hsa : ∀ i ∈ m.sym ++ m.anti, i < m.nEdgeFeatures)
    (hm : marginals m.nStates x y =
      .ok (⟨x.features.rows, m.nStates, U⟩, ⟨x.edgeFeatures.rows, m.nStates ^ 2, P⟩)) :
    jointFeature check m x y = .ok (psi m x U P) := by
  unfold jointFeature
  rw [hc, hm]
  simp only [bind, Except.bind, Mat.mul, Mat.T, if_true, hK]
  rw [if_neg (not_not.mpr hsa), hF]
  rfl

theorem dot_psi (m : Model) (x : X) (U P : ℕ → ℕ → ℚ) (w : ℕ → ℚ)
    (hdis : ∀ i ∈ m.sym, i ∉ m.anti) :
    dot (sizeJointFeature m) w (psi m x U P).get =
      ∑ i ∈ range x.features.rows, ∑ s ∈ range m.nStates, U i s * EU m x.features w i s +
      ∑ e ∈ range x.edgeFeatures.rows, ∑ a ∈ range m.nStates, ∑ b ∈ range m.nStates,
        (∑ k ∈ range m.nEdgeFeatures, x.edgeFeatures.get e k *
          proj m.sym m.anti k (EW m w k) a b) * P e (a * m.nStates + b) := by
  rw [← psi_size m x U P]
  unfold psi
  rw [dot_append, dot_ravel]
  congr 1
  · simp only
    rw [sum_comm]
    simp only [mul_sum, EU]
    rw [sum_congr rfl fun s _ => sum_comm, sum_comm]
    apply sum_congr rfl; intro i _
    rw [sum_comm]
    apply sum_congr rfl; intro s _
    apply sum_congr rfl; intro f _
    ring
  · rw [dot_ravel]
    simp only [Mat.ravel]
    have hblock : ∀ k, ∑ j ∈ range (m.nStates ^ 2),
        w (m.nStates * m.nFeatures + (k * m.nStates ^ 2 + j)) *
          symmetrise m.nStates m.sym m.anti (fun r k => ∑ e ∈ range x.edgeFeatures.rows,
            x.edgeFeatures.get e r * P e k) k j =
        ∑ a ∈ range m.nStates, ∑ b ∈ range m.nStates, proj m.sym m.anti k (EW m w k) a b *
          ∑ e ∈ range x.edgeFeatures.rows, x.edgeFeatures.get e k * P e (a * m.nStates + b) := by
      intro k
      rw [← proj_adjoint, pow_two, sum_range_mul']
      apply sum_congr rfl; intro a ha
      apply sum_congr rfl; intro b hb
      rw [symmetrise_get _ _ _ hdis _ _ _ _ (mem_range.mp ha) (mem_range.mp hb)]
      unfold EW
      rw [pow_two]
    rw [sum_congr rfl fun k _ => hblock k]
    simp only [mul_sum, sum_mul]
    -- reorder k, a, b, e  →  e, a, b, k
    rw [sum_comm]
    rw [sum_congr rfl fun a _ => sum_comm]
    rw [sum_congr rfl fun a _ => sum_congr rfl fun b _ => sum_comm]
    rw [sum_congr rfl fun a _ => sum_comm]
    rw [sum_comm]
    apply sum_congr rfl; intro e _
    apply sum_congr rfl; intro a _
    apply sum_congr rfl; intro b _
    apply sum_congr rfl; intro k _
    ring

theorem marginals_discrete {S : ℕ} {x : X} {y : Labels} (hs : y.size = x.features.rows)
    (hE : x.edgeFeatures.rows = x.edges.length)
    (hv : Spec.Valid x.features.rows S y.get) (he : Spec.EdgesIn x.features.rows x.edges) :
    marginals S x (.discrete y) =
      .ok (⟨x.features.rows, S, fun i s => if s = y.get i then 1 else 0⟩,
        ⟨x.edgeFeatures.rows, S ^ 2, fun e k =>
          if k = y.get (edge x.edges e).2 + S * y.get (edge x.edges e).1 then 1 else 0⟩) := by
  unfold marginals
  simp only [bind, Except.bind]
  rw [oneHot_ok hs hv]
  simp only
  unfold pairIndicators
  rw [if_neg (not_not.mpr (show ∀ e ∈ x.edges, e.1 < x.features.rows ∧ e.2 < x.features.rows
    from he)), hE]
  rfl

/-- weights times joint feature of a labelling: the score with symmetrised edge weights. -/
theorem dot_psi_discrete (m : Model) (x : X) (w : ℕ → ℚ) (l : ℕ → ℕ)
    (hdis : ∀ i ∈ m.sym, i ∉ m.anti) (hE : x.edgeFeatures.rows = x.edges.length)
    (hv : Spec.Valid x.features.rows m.nStates l) (he : Spec.EdgesIn x.features.rows x.edges) :
    dot (sizeJointFeature m) w (psi m x (fun i s => if s = l i then 1 else 0)
      (fun e k => if k = l (edge x.edges e).2 + m.nStates * l (edge x.edges e).1 then 1 else 0)).get
    = Spec.score x.features.rows x.edges (EU m x.features w)
        (fun e a b => ∑ k ∈ range m.nEdgeFeatures, x.edgeFeatures.get e k *
          proj m.sym m.anti k (EW m w k) a b) l := by
  rw [dot_psi m x _ _ w hdis]
  unfold Spec.score
  congr 1
  · apply sum_congr rfl; intro i hi
    exact sum_onehot m.nStates _ (hv i (mem_range.mp hi)) _
  · rw [hE]
    apply sum_congr rfl; intro e hee
    have hm := he _ (edge_mem (mem_range.mp hee))
    have h1 := hv _ hm.1
    have h2 := hv _ hm.2
    set a0 := l (edge x.edges e).1
    set b0 := l (edge x.edges e).2
    have key : ∀ a b, b < m.nStates →
        (a * m.nStates + b = b0 + m.nStates * a0 ↔ a = a0 ∧ b = b0) := by
      intro a b hb
      rw [add_comm b0, mul_comm m.nStates a0]
      constructor
      · intro h
        have d1 := flat_div (i := a) hb
        have d2 := flat_div (i := a0) h2
        have d3 := flat_mod (i := a) hb
        have d4 := flat_mod (i := a0) h2
        rw [h] at d1 d3
        exact ⟨d1.symm.trans d2, d3.symm.trans d4⟩
      · rintro ⟨rfl, rfl⟩; rfl
    rw [sum_eq_single a0]
    · rw [sum_eq_single b0]
      · rw [if_pos ((key a0 b0 h2).mpr ⟨rfl, rfl⟩), mul_one]
        rfl
      · intro b hb hne
        rw [if_neg (fun h => hne ((key a0 b (mem_range.mp hb)).mp h).2), mul_zero]
      · intro h; exact absurd (mem_range.mpr h2) h
    · intro a _ hne
      apply sum_eq_zero
      intro b hb
      rw [if_neg (fun h => hne ((key a b (mem_range.mp hb)).mp h).1), mul_zero]
    · intro h; exact absurd (mem_range.mpr h1) h

end Verif.EdgeFeature
