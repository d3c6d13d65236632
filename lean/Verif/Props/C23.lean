import Verif.Lemmas.GraphCRF

/-!
# C22, C23 for `GraphCRF`: size of joint features; relaxed and discrete joint features agree
-/

namespace Verif.Props

open Finset Verif.Common Verif.GraphCRF Verif.Spec

theorem marginals_relaxed {S : ℕ} {x : X} {u p : Vec} (hS : 1 ≤ S)
    (hu : u.size = x.features.rows * S) {E : ℕ} (hp : p.size = E * S ^ 2) :
    marginals S x (.relaxed u p) = .ok (⟨x.features.rows, S, fun i s => u.get (i * S + s)⟩,
      ⟨S, S, fun a b => ∑ e ∈ range E, p.get ((e * S + a) * S + b)⟩) := by
  have hpos : 0 < S * S := Nat.mul_pos hS hS
  have h1 : p.size / (S * S) = E := by
    rw [hp, pow_two, Nat.mul_div_cancel _ hpos]
  have h2 : p.size % (S * S) = 0 := by
    rw [hp, pow_two, Nat.mul_mod_left]
  unfold marginals
  simp only [bind, Except.bind, Vec.reshape2, hu, if_true, reshapeInfer]
  rw [if_neg (by omega), if_neg (by omega), h1]
  simp only [Vec.reshape3]
  rw [if_pos (by rw [hp]; ring)]
  rfl

theorem marginals_shape {S : ℕ} {x : X} {y : YVal} {um pm : Mat}
    (h : marginals S x y = .ok (um, pm)) :
    um.rows = x.features.rows ∧ um.cols = S ∧ pm.rows = S ∧ pm.cols = S := by
  cases y with
  | relaxed u p =>
    unfold marginals at h
    obtain ⟨v, hv, h⟩ := bind_eq_ok.mp h
    obtain ⟨t, _, h⟩ := bind_eq_ok.mp h
    unfold Vec.reshape2 at hv
    split at hv
    · injection hv with hv
      injection h with h
      injection h with h1 h2
      subst h1 h2 hv
      exact ⟨rfl, rfl, rfl, rfl⟩
    · cases hv
  | discrete l =>
    unfold marginals at h
    obtain ⟨v, hv, h⟩ := bind_eq_ok.mp h
    obtain ⟨a, ha, h⟩ := bind_eq_ok.mp h
    obtain ⟨b, hb, h⟩ := bind_eq_ok.mp h
    obtain ⟨c, hc, h⟩ := bind_eq_ok.mp h
    unfold oneHot at hv
    split at hv
    · cases hv
    · split at hv
      · cases hv
      · injection hv with hv
        subst hv
        unfold takeRows at ha hb
        split at ha
        · cases ha
        · split at hb
          · cases hb
          · injection ha with ha
            injection hb with hb
            unfold Mat.mul at hc
            split at hc
            · injection hc with hc
              injection h with h
              injection h with h1 h2
              subst h1 h2 hc ha hb
              exact ⟨rfl, rfl, rfl, rfl⟩
            · cases hc

/-- **C22 (`GraphCRF`).** Whenever `joint_feature(x, y)` succeeds - for a discrete or a relaxed labelling,
directed or undirected - its length is `size_joint_feature`. -/
theorem C22_graphcrf_size (m : Model) (x : X) (y : YVal) (ψ : Vec)
    (h : jointFeature m x y = .ok ψ) : ψ.size = sizeJointFeature m := by
  have hF : x.features.cols = m.nFeatures := by
    by_contra hne
    unfold jointFeature checkSizeX at h
    rw [if_pos hne] at h
    cases h
  cases hm : marginals m.nStates x y with
  | error err =>
    unfold jointFeature at h
    rw [checkSizeX_ok hF, hm] at h
    cases h
  | ok r =>
    obtain ⟨um, pm⟩ := r
    obtain ⟨h1, h2, h3, h4⟩ := marginals_shape hm
    obtain ⟨ur, uc, ug⟩ := um
    obtain ⟨pr, pc, pg⟩ := pm
    simp only at h1 h2 h3 h4
    subst h1 h2 h3
    rw [h4] at hm
    rw [jointFeature_of_marginals hF hm] at h
    injection h with h
    rw [← h, psi_size]

/-- **C22 (`GraphCRF`).** Inference accepts exactly weight vectors of that length (for a backend that
accepts all potentials). -/
theorem C22_graphcrf_inference_accepts (m : Model) (x : X) (w : Vec) (inf : Infer)
    (hF : x.features.cols = m.nFeatures) (hinf : ∀ U P, ∃ y, inf U P x.edges = .ok y) :
    (∃ y, inference inf m x w = .ok y) ↔ w.size = sizeJointFeature m := by
  constructor
  · rintro ⟨y, hy⟩
    by_contra hne
    unfold inference checkSizeW at hy
    rw [if_pos hne] at hy
    cases hy
  · intro hw
    unfold inference
    rw [checkSizeW_ok hw, unary_ok hF hw, pairwise_ok hF hw]
    exact hinf _ _

/-- **C23a.** The joint feature is linear in the marginals: for all graphs, all marginals (normalised or
not) and all coefficients. -/
theorem C23_graphcrf_linear (m : Model) (x : X) (u u' p p' : ℕ → ℚ) (E : ℕ) (a b : ℚ)
    (hS : 1 ≤ m.nStates) (hF : x.features.cols = m.nFeatures) :
    let nu := x.features.rows * m.nStates
    let np := E * m.nStates ^ 2
    ∃ ψ ψ' ψ'', jointFeature m x (.relaxed ⟨nu, u⟩ ⟨np, p⟩) = .ok ψ ∧
      jointFeature m x (.relaxed ⟨nu, u'⟩ ⟨np, p'⟩) = .ok ψ' ∧
      jointFeature m x (.relaxed ⟨nu, fun k => a * u k + b * u' k⟩
        ⟨np, fun k => a * p k + b * p' k⟩) = .ok ψ'' ∧
      ∀ k < sizeJointFeature m, ψ''.get k = a * ψ.get k + b * ψ'.get k := by
  intro nu np
  refine ⟨_, _, _, jointFeature_of_marginals hF (marginals_relaxed hS rfl rfl),
    jointFeature_of_marginals hF (marginals_relaxed hS rfl rfl),
    jointFeature_of_marginals hF (marginals_relaxed hS rfl rfl), ?_⟩
  intro k _
  unfold psi Vec.append
  simp only [Mat.ravel]
  split
  · rw [mul_sum, mul_sum, ← sum_add_distrib]
    apply sum_congr rfl; intro i _; ring
  · split
    · simp only [sum_add_distrib, mul_sum]
    · simp only [Sym.mkSym, sum_add_distrib, ← mul_sum]
      split <;> ring

/-- Flattened one-hot vertex indicators of a labelling. -/
def hotUnary (n S : ℕ) (y : ℕ → ℕ) : Vec := ⟨n * S, fun k => if k % S = y (k / S) then 1 else 0⟩

/-- Flattened one-hot edge indicators of a labelling, in the order used by the inference backends. -/
def hotEdges (S : ℕ) (edges : List (ℕ × ℕ)) (y : ℕ → ℕ) : Vec :=
  ⟨edges.length * S ^ 2, fun k =>
    if k / S % S = y (edges.getD (k / S / S) (0, 0)).1 ∧
      k % S = y (edges.getD (k / S / S) (0, 0)).2 then 1 else 0⟩

theorem psi_congr {m : Model} {x : Mat} {U U' P P' : ℕ → ℕ → ℚ}
    (hU : ∀ i < x.rows, ∀ s < m.nStates, U i s = U' i s)
    (hP : ∀ a < m.nStates, ∀ b < m.nStates, P a b = P' a b) :
    ∀ k < sizeJointFeature m, (psi m x U P).get k = (psi m x U' P').get k := by
  intro k hk
  unfold psi Vec.append
  simp only [Mat.ravel]
  split
  · rename_i hlt
    apply sum_congr rfl; intro i hi
    have hF : 0 < m.nFeatures := by
      rcases Nat.eq_zero_or_pos m.nFeatures with h | h
      · rw [h] at hlt; omega
      · exact h
    rw [hU i (mem_range.mp hi) _ (Nat.div_lt_of_lt_mul (by rw [mul_comm]; exact hlt))]
  · rename_i hge
    unfold sizeJointFeature at hk
    by_cases hd : m.directed
    · simp only [hd, if_true] at hk ⊢
      have hk' : k - m.nStates * m.nFeatures < m.nStates * m.nStates := by
        rw [pow_two] at hk; omega
      have hS : 0 < m.nStates := by
        rcases Nat.eq_zero_or_pos m.nStates with h | h
        · rw [h] at hk'; omega
        · exact h
      exact hP _ (Nat.div_lt_of_lt_mul hk') _ (Nat.mod_lt _ hS)
    · have hd' : m.directed = false := by simpa using hd
      simp only [hd', Bool.false_eq_true, if_false] at hk ⊢
      have hk' : k - m.nStates * m.nFeatures < Sym.tri m.nStates := by
        unfold Sym.tri; omega
      obtain ⟨h1, h2, _⟩ := Sym.tri_decomp hk'
      unfold Sym.mkSym
      rw [hP _ h2 _ (by omega), hP _ (lt_of_le_of_lt h1 h2) _ h2, hP _ h2 _ h2]

/-- **C23b.** On the one-hot encoding of a labelling the relaxed joint feature equals the discrete one. -/
theorem C23_graphcrf_onehot (m : Model) (x : X) (y : Labels) (hS : 1 ≤ m.nStates)
    (hF : x.features.cols = m.nFeatures) (hy : y.size = x.features.rows)
    (hv : Valid x.features.rows m.nStates y.get) (he : EdgesIn x.features.rows x.edges) :
    ∃ ψ ψ', jointFeature m x (.discrete y) = .ok ψ ∧
      jointFeature m x (.relaxed (hotUnary x.features.rows m.nStates y.get)
        (hotEdges m.nStates x.edges y.get)) = .ok ψ' ∧
      ψ.size = sizeJointFeature m ∧ ψ'.size = sizeJointFeature m ∧
      ∀ k < sizeJointFeature m, ψ'.get k = ψ.get k := by
  refine ⟨_, _, jointFeature_of_marginals hF (marginals_discrete hy hv he),
    jointFeature_of_marginals hF (marginals_relaxed hS rfl rfl), psi_size .., psi_size .., ?_⟩
  apply psi_congr
  · intro i _ s hs
    simp only [hotUnary]
    rw [flat_div hs, flat_mod hs]
  · intro a ha b hb
    unfold hotPair
    apply sum_congr rfl; intro e _
    simp only [hotEdges]
    rw [flat_div hb, flat_mod hb, flat_div ha, flat_mod ha]
    unfold edge
    generalize x.edges.getD e (0, 0) = pq
    by_cases h1 : a = y.get pq.1 <;> by_cases h2 : b = y.get pq.2 <;> simp [h1, h2]

/-- **C23c.** Consequently the score of a relaxed labelling is linear as well: for marginals of `x.edges`,
`⟨w, joint_feature(x, (μ, ν))⟩` is the sum of potentials weighted by the marginals. -/
theorem C23_graphcrf_relaxed_score (m : Model) (x : X) (u p : ℕ → ℚ) (w : Vec) (hS : 1 ≤ m.nStates)
    (hF : x.features.cols = m.nFeatures) (hw : w.size = sizeJointFeature m) :
    ∃ U P ψ, unaryPotentials m x w = .ok U ∧ pairwisePotentials m x w = .ok P ∧
      jointFeature m x (.relaxed ⟨x.features.rows * m.nStates, u⟩
        ⟨x.edges.length * m.nStates ^ 2, p⟩) = .ok ψ ∧
      w.dot ψ = .ok (
        ∑ i ∈ range x.features.rows, ∑ s ∈ range m.nStates, U.get i s * u (i * m.nStates + s) +
        ∑ e ∈ range x.edges.length, ∑ a ∈ range m.nStates, ∑ b ∈ range m.nStates,
          P.get a b * p ((e * m.nStates + a) * m.nStates + b)) := by
  refine ⟨_, _, _, unary_ok hF hw, pairwise_ok hF hw,
    jointFeature_of_marginals hF (marginals_relaxed hS rfl rfl), ?_⟩
  unfold Vec.dot
  rw [psi_size, if_pos hw, hw, dot_psi]
  congr 2
  · apply sum_congr rfl; intro i _; apply sum_congr rfl; intro s _; ring
  · simp only [mul_sum]
    rw [sum_congr rfl fun a _ => sum_comm, sum_comm]

/-- concrete instance: one edge, two states, label pair `(1, 0)`. -/
example : (do
    let m : Model := ⟨2, 1, true⟩
    let x : X := ⟨⟨2, 1, fun i _ => i + 2⟩, [(0, 1)]⟩
    let y : Labels := ⟨2, fun i => 1 - i⟩
    let ψ ← jointFeature m x (.discrete y)
    let ψ' ← jointFeature m x (.relaxed (hotUnary 2 2 y.get) (hotEdges 2 [(0, 1)] y.get))
    pure ((List.range 6).map ψ.get, (List.range 6).map ψ'.get, ψ.size, ψ'.size)) =
    (.ok ([3, 2, 0, 0, 1, 0], [3, 2, 0, 0, 1, 0], 6, 6) :
      Except PyErr (List ℚ × List ℚ × ℕ × ℕ)) := by decide +kernel

end Verif.Props
