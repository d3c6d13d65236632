import Verif.Props.C15
import Verif.Props.C23
import Verif.Props.C31

/-!
# C22, C23 for edge-feature and grid models
-/

namespace Verif.Props

open Finset Verif.Common Verif.EdgeFeature Verif.Spec
open Verif.GraphCRF (Infer checkSizeW checkSizeW_ok)

theorem checkSizeX_inv {m : EdgeFeature.Model} {x : EdgeFeature.X}
    (h : EdgeFeature.checkSizeX m x = .ok ()) :
    x.features.cols = m.nFeatures ∧ x.edgeFeatures.rows = x.edges.length ∧
      x.edgeFeatures.cols = m.nEdgeFeatures := by
  unfold EdgeFeature.checkSizeX at h
  split at h
  · cases h
  · split at h
    · cases h
    · split at h
      · cases h
      · omega

theorem checkFeatures_inv {m : EdgeFeature.Model} {x : EdgeFeature.X}
    (h : EdgeFeature.checkFeatures m x = .ok ()) : x.features.cols = m.nFeatures := by
  unfold EdgeFeature.checkFeatures at h
  split at h
  · cases h
  · omega

/-- **C22 (`EdgeFeatureGraphCRF`).** Whenever `joint_feature(x, y)` succeeds its length is
`size_joint_feature`. -/
theorem C22_edge_feature_size (m : EdgeFeature.Model) (x : EdgeFeature.X) (y : YVal) (ψ : Vec)
    (h : EdgeFeature.jointFeature EdgeFeature.checkSizeX m x y = .ok ψ) :
    ψ.size = EdgeFeature.sizeJointFeature m := by
  obtain ⟨hc, _, U, P, rfl⟩ := jointFeature_inv (fun hc => (checkSizeX_inv hc).1) h
  unfold EdgeFeature.sizeJointFeature
  rw [← (checkSizeX_inv hc).2.2]
  rfl

/-- **C22 (`EdgeFeatureGraphCRF`).** Inference accepts exactly weight vectors of that length (for a backend
that accepts all potentials). -/
theorem C22_edge_feature_inference_accepts (m : EdgeFeature.Model) (x : EdgeFeature.X) (w : Vec)
    (inf : Infer) (hF : x.features.cols = m.nFeatures)
    (hE : x.edgeFeatures.rows = x.edges.length)
    (hK : x.edgeFeatures.cols = m.nEdgeFeatures) (hpos : 0 < m.nEdgeFeatures)
    (hinf : ∀ U P, ∃ y, inf U P x.edges = .ok y) :
    (∃ y, EdgeFeature.inference EdgeFeature.checkSizeX inf m x w = .ok y) ↔
      w.size = EdgeFeature.sizeJointFeature m := by
  constructor
  · rintro ⟨y, hy⟩
    by_contra hne
    unfold EdgeFeature.inference checkSizeW at hy
    rw [if_pos hne] at hy
    cases hy
  · intro hw
    have hc := EdgeFeature.checkSizeX_ok hF hE hK
    obtain ⟨P, hP, _⟩ := EdgeFeature.pairwise_ok hc hK hpos hw
    unfold EdgeFeature.inference
    rw [checkSizeW_ok hw, EdgeFeature.unary_ok hc hF hw, hP]
    exact hinf _ _

/-! ### DirectionalGridCRF -/

theorem directionalX_inv {nb F : ℕ} {t : Ten} {x : EdgeFeature.X}
    (h : directionalX nb F t = .ok x) :
    (nb = 4 ∨ nb = 8) ∧ x.edgeFeatures.cols = 2 ∧ x.edgeFeatures.rows = x.edges.length ∧
      x.features.cols = F := by
  unfold directionalX at h
  obtain ⟨f, hf, h⟩ := bind_eq_ok.mp h
  obtain ⟨e, he, h⟩ := bind_eq_ok.mp h
  obtain ⟨l, hl, h⟩ := bind_eq_ok.mp h
  injection h with h
  subst h
  have hnb : nb = 4 ∨ nb = 8 := by
    by_contra hne
    rw [not_or] at hne
    rw [C31_bad_neighborhood _ _ _ hne.1 hne.2] at he
    cases he
  refine ⟨hnb, rfl, ?_, ?_⟩
  · unfold Grid.gridEdges at he
    rw [hl] at he
    injection he with he
    rw [← he]
    rfl
  · unfold gridFeatures at hf
    split at hf
    · cases hf
    · split at hf
      · cases hf
      · unfold Vec.reshape2 at hf
        split at hf
        · injection hf with hf
          rw [← hf]
        · cases hf

/-- the joint feature of a `DirectionalGridCRF` always has two edge blocks. -/
theorem directional_size (S F nb : ℕ) (t : Ten) (x : EdgeFeature.X) (y : YVal) (ψ : Vec)
    (hx : directionalX nb F t = .ok x)
    (h : EdgeFeature.jointFeature EdgeFeature.checkFeatures (directionalModel S F nb) x y = .ok ψ) :
    ψ.size = S * F + 2 * S ^ 2 := by
  obtain ⟨_, hc2, _, _⟩ := directionalX_inv hx
  obtain ⟨_, _, U, P, rfl⟩ := jointFeature_inv (fun hc => checkFeatures_inv hc) h
  rw [hc2]
  rfl

/-- **C22 (`DirectionalGridCRF`, the part that holds).** With 4-neighbourhood the joint feature has the
advertised size. Missing: 8-neighbourhood, where the claim is false
(`C22_violated_directional_8`). -/
theorem C22_directional_size_partial (S F : ℕ) (t : Ten) (x : EdgeFeature.X) (y : YVal) (ψ : Vec)
    (hx : directionalX 4 F t = .ok x)
    (h : EdgeFeature.jointFeature EdgeFeature.checkFeatures (directionalModel S F 4) x y = .ok ψ) :
    ψ.size = EdgeFeature.sizeJointFeature (directionalModel S F 4) :=
  directional_size S F 4 t x y ψ hx h

/-- **C22 is false for `DirectionalGridCRF` with 8-neighbourhood.** Whenever a joint feature is computed
its length differs from `size_joint_feature`, and inference fails for every weight vector. -/
theorem C22_violated_directional_8 (S F : ℕ) (hS : 0 < S) (t : Ten) (x : EdgeFeature.X)
    (hx : directionalX 8 F t = .ok x) :
    (∀ y ψ, EdgeFeature.jointFeature EdgeFeature.checkFeatures (directionalModel S F 8) x y = .ok ψ →
      ψ.size ≠ EdgeFeature.sizeJointFeature (directionalModel S F 8)) ∧
    ∀ inf w, EdgeFeature.inference EdgeFeature.checkFeatures inf (directionalModel S F 8) x w
      = .error .valueError := by
  obtain ⟨_, hc2, _, hF⟩ := directionalX_inv hx
  constructor
  · intro y ψ h
    rw [directional_size S F 8 t x y ψ hx h]
    show S * F + 2 * S ^ 2 ≠ S * F + 4 * S ^ 2
    have : 0 < S ^ 2 := Nat.pow_pos hS
    omega
  · intro inf w
    by_cases hw : w.size = EdgeFeature.sizeJointFeature (directionalModel S F 8)
    · have hc : EdgeFeature.checkFeatures (directionalModel S F 8) x = .ok () :=
        EdgeFeature.checkFeatures_ok hF
      have hp : EdgeFeature.pairwisePotentials EdgeFeature.checkFeatures
          (directionalModel S F 8) x w = .error .valueError :=
        pairwise_bad hc (by rw [hc2]; show 2 ≠ 4; decide) (show 0 < 4 by decide) hw
      unfold EdgeFeature.inference
      rw [checkSizeW_ok hw, EdgeFeature.unary_ok hc hF hw, hp]
      rfl
    · unfold EdgeFeature.inference checkSizeW
      rw [if_pos hw]
      rfl

/-- such instances exist: a 2 × 2 grid. -/
example : ∃ x ψ, directionalX 8 1 ⟨2, 2, 1, fun _ _ _ => 1⟩ = .ok x ∧
    EdgeFeature.jointFeature EdgeFeature.checkFeatures (directionalModel 2 1 8) x
      (.discrete ⟨4, fun _ => 0⟩) = .ok ψ ∧ ψ.size = 10 ∧
    EdgeFeature.sizeJointFeature (directionalModel 2 1 8) = 18 := by
  refine ⟨_, _, rfl, rfl, rfl, rfl⟩

/-- **C15 (`DirectionalGridCRF`, 4-neighbourhood).** For every grid, labelling and
weight vector of the advertised size, potentials and joint feature are computed without error and
weights times joint feature equals the energy under the potentials used by inference. -/
theorem C15_directional_energy (S F : ℕ) (t : Ten) (x : EdgeFeature.X) (w : Vec) (y : Labels)
    (hx : directionalX 4 F t = .ok x) (hd : t.d2 = F)
    (hw : w.size = EdgeFeature.sizeJointFeature (directionalModel S F 4))
    (hy : y.size = t.d0 * t.d1) (hv : Valid (t.d0 * t.d1) S y.get) :
    ∃ U P ψ, EdgeFeature.unaryPotentials EdgeFeature.checkFeatures (directionalModel S F 4) x w
        = .ok U ∧
      EdgeFeature.pairwisePotentials EdgeFeature.checkFeatures (directionalModel S F 4) x w
        = .ok P ∧
      EdgeFeature.jointFeature EdgeFeature.checkFeatures (directionalModel S F 4) x (.discrete y)
        = .ok ψ ∧
      w.dot ψ = computeEnergy U (.ten P) x.edges y := by
  obtain ⟨_, hK, hE, hF⟩ := directionalX_inv hx
  have hrows : x.features.rows = t.d0 * t.d1 ∧ Grid.gridEdges t.d0 t.d1 4 = .ok x.edges := by
    unfold directionalX at hx
    obtain ⟨f, hf, hx⟩ := bind_eq_ok.mp hx
    obtain ⟨e, he, hx⟩ := bind_eq_ok.mp hx
    obtain ⟨l, hl, hx⟩ := bind_eq_ok.mp hx
    injection hx with hx
    subst hx
    refine ⟨?_, he⟩
    unfold gridFeatures at hf
    split at hf
    · cases hf
    · rename_i hF0
      split at hf
      · cases hf
      · unfold Vec.reshape2 at hf
        split at hf
        · injection hf with hf
          rw [← hf]
          simp only
          rw [hd]
          exact Nat.mul_div_cancel _ (by omega)
        · cases hf
  obtain ⟨hr, hg⟩ := hrows
  have hedges : EdgesIn x.features.rows x.edges := by
    obtain ⟨E, hE', hin, _⟩ := C31_grid_edges t.d0 t.d1 4 (Or.inl rfl)
    rw [hg] at hE'
    injection hE' with hE'
    subst hE'
    rw [hr]
    exact hin
  rw [← hr] at hv hy
  have hc : EdgeFeature.checkFeatures (directionalModel S F 4) x = .ok () :=
    EdgeFeature.checkFeatures_ok hF
  obtain ⟨U, P, hU, hP, _, _, hen⟩ := energy_ok (m := directionalModel S F 4) hc hF hE hK
    (show 0 < 2 by decide) hw hy hv hedges
  refine ⟨U, P, _, hU, hP, EdgeFeature.jointFeature_of_marginals (m := directionalModel S F 4) hc hF
    hK (by intro i hi; cases hi) (EdgeFeature.marginals_discrete hy hE hv hedges), ?_⟩
  rw [hen]
  unfold Vec.dot
  rw [EdgeFeature.psi_size, if_pos hw, hw]
  have := EdgeFeature.dot_psi_discrete (directionalModel S F 4) x w.get y.get
    (by intro i hi; cases hi) hE hv hedges
  refine (congrArg Except.ok this).trans ?_
  rfl

/-! ### relaxed joint features -/

theorem marginals_relaxed_ef {S : ℕ} {x : EdgeFeature.X} {u p : Vec}
    (hu : u.size = x.features.rows * S) (hp : p.size = x.edgeFeatures.rows * S ^ 2) :
    EdgeFeature.marginals S x (.relaxed u p) =
      .ok (⟨x.features.rows, S, fun i s => u.get (i * S + s)⟩,
        ⟨x.edgeFeatures.rows, S ^ 2, fun e k => p.get (e * S ^ 2 + k)⟩) := by
  unfold EdgeFeature.marginals
  simp only [bind, Except.bind, Vec.reshape2, hu, hp, if_true]
  rfl

/-- entries of the joint feature as a function of the marginals. -/
theorem psi_get_ef (m : EdgeFeature.Model) (x : EdgeFeature.X) (U P : ℕ → ℕ → ℚ)
    (hdis : ∀ i ∈ m.sym, i ∉ m.anti) (k : ℕ) (hk : k < EdgeFeature.sizeJointFeature m) :
    (EdgeFeature.psi m x U P).get k =
      if k < m.nStates * m.nFeatures then
        ∑ i ∈ range x.features.rows, U i (k / m.nFeatures) * x.features.get i (k % m.nFeatures)
      else
        let j := k - m.nStates * m.nFeatures
        proj m.sym m.anti (j / m.nStates ^ 2)
          (fun a b => ∑ e ∈ range x.edgeFeatures.rows, x.edgeFeatures.get e (j / m.nStates ^ 2) *
            P e (a * m.nStates + b))
          (j % m.nStates ^ 2 / m.nStates) (j % m.nStates ^ 2 % m.nStates) := by
  unfold EdgeFeature.psi Vec.append
  simp only [Mat.ravel]
  split
  · rfl
  · rename_i hge
    unfold EdgeFeature.sizeJointFeature at hk
    have hS : 0 < m.nStates := by
      rcases Nat.eq_zero_or_pos m.nStates with h | h
      · simp [h] at hk
      · exact h
    set j := k - m.nStates * m.nFeatures
    have hlt : j % m.nStates ^ 2 < m.nStates * m.nStates := by
      rw [← pow_two]; exact Nat.mod_lt _ (Nat.pow_pos hS)
    have := symmetrise_get m.nStates m.sym m.anti hdis
      (fun r k => ∑ e ∈ range x.edgeFeatures.rows, x.edgeFeatures.get e r * P e k)
      (j / m.nStates ^ 2) (j % m.nStates ^ 2 / m.nStates) (j % m.nStates ^ 2 % m.nStates)
      (Nat.div_lt_of_lt_mul hlt) (Nat.mod_lt _ hS)
    rw [← this]
    congr 1
    rw [mul_comm, Nat.div_add_mod]

/-- **C23a (`EdgeFeatureGraphCRF`).** The joint feature is linear in the marginals. -/
theorem C23_edge_feature_linear (m : EdgeFeature.Model) (x : EdgeFeature.X) (u u' p p' : ℕ → ℚ)
    (a b : ℚ) (hmod : checkModel m = .ok ()) (hF : x.features.cols = m.nFeatures)
    (hE : x.edgeFeatures.rows = x.edges.length)
    (hK : x.edgeFeatures.cols = m.nEdgeFeatures) :
    let nu := x.features.rows * m.nStates
    let np := x.edges.length * m.nStates ^ 2
    ∃ ψ ψ' ψ'',
      EdgeFeature.jointFeature EdgeFeature.checkSizeX m x (.relaxed ⟨nu, u⟩ ⟨np, p⟩) = .ok ψ ∧
      EdgeFeature.jointFeature EdgeFeature.checkSizeX m x (.relaxed ⟨nu, u'⟩ ⟨np, p'⟩) = .ok ψ' ∧
      EdgeFeature.jointFeature EdgeFeature.checkSizeX m x
        (.relaxed ⟨nu, fun k => a * u k + b * u' k⟩ ⟨np, fun k => a * p k + b * p' k⟩) = .ok ψ'' ∧
      ∀ k < EdgeFeature.sizeJointFeature m, ψ''.get k = a * ψ.get k + b * ψ'.get k := by
  intro nu np
  obtain ⟨hsa, hdis⟩ := checkModel_ok hmod
  have hc := EdgeFeature.checkSizeX_ok hF hE hK
  have hnp : np = x.edgeFeatures.rows * m.nStates ^ 2 := by rw [hE]
  refine ⟨_, _, _, EdgeFeature.jointFeature_of_marginals hc hF hK hsa (marginals_relaxed_ef rfl hnp),
    EdgeFeature.jointFeature_of_marginals hc hF hK hsa (marginals_relaxed_ef rfl hnp),
    EdgeFeature.jointFeature_of_marginals hc hF hK hsa (marginals_relaxed_ef rfl hnp), ?_⟩
  intro k hk
  rw [psi_get_ef _ _ _ _ hdis k hk, psi_get_ef _ _ _ _ hdis k hk, psi_get_ef _ _ _ _ hdis k hk]
  split
  · rw [mul_sum, mul_sum, ← sum_add_distrib]
    apply sum_congr rfl; intro i _; ring
  · simp only [mul_add, sum_add_distrib]
    have hs : ∀ (c : ℚ) (g : ℕ → ℚ) (r : ℕ), ∑ e ∈ range x.edgeFeatures.rows,
        x.edgeFeatures.get e r * (c * g e) = c * ∑ e ∈ range x.edgeFeatures.rows,
        x.edgeFeatures.get e r * g e := by
      intro c g r
      rw [mul_sum]; apply sum_congr rfl; intro e _; ring
    unfold proj
    simp only [hs]
    split_ifs <;> ring

/-- **C23b (`EdgeFeatureGraphCRF`).** On the one-hot encoding of a labelling the relaxed joint feature
equals the discrete one. -/
theorem C23_edge_feature_onehot (m : EdgeFeature.Model) (x : EdgeFeature.X) (y : Labels)
    (hmod : checkModel m = .ok ()) (hF : x.features.cols = m.nFeatures)
    (hE : x.edgeFeatures.rows = x.edges.length)
    (hK : x.edgeFeatures.cols = m.nEdgeFeatures) (hy : y.size = x.features.rows)
    (hv : Valid x.features.rows m.nStates y.get) (he : EdgesIn x.features.rows x.edges) :
    ∃ ψ ψ', EdgeFeature.jointFeature EdgeFeature.checkSizeX m x (.discrete y) = .ok ψ ∧
      EdgeFeature.jointFeature EdgeFeature.checkSizeX m x
        (.relaxed (hotUnary x.features.rows m.nStates y.get) (hotEdges m.nStates x.edges y.get))
        = .ok ψ' ∧
      ∀ k < EdgeFeature.sizeJointFeature m, ψ'.get k = ψ.get k := by
  obtain ⟨hsa, hdis⟩ := checkModel_ok hmod
  have hc := EdgeFeature.checkSizeX_ok hF hE hK
  refine ⟨_, _, EdgeFeature.jointFeature_of_marginals hc hF hK hsa
      (EdgeFeature.marginals_discrete hy hE hv he),
    EdgeFeature.jointFeature_of_marginals hc hF hK hsa
      (marginals_relaxed_ef rfl (by rw [hE]; rfl)), ?_⟩
  intro k hk
  rw [psi_get_ef _ _ _ _ hdis k hk, psi_get_ef _ _ _ _ hdis k hk]
  have hS : 0 < m.nStates := by
    rcases Nat.eq_zero_or_pos m.nStates with h | h
    · unfold EdgeFeature.sizeJointFeature at hk; simp [h] at hk
    · exact h
  split
  · rename_i hlt
    apply sum_congr rfl; intro i _
    have hs : k / m.nFeatures < m.nStates := Nat.div_lt_of_lt_mul (by rw [mul_comm]; exact hlt)
    simp only [hotUnary]
    rw [flat_div hs, flat_mod hs]
  · simp only
    set j := k - m.nStates * m.nFeatures
    have hlt : j % m.nStates ^ 2 < m.nStates * m.nStates := by
      rw [← pow_two]; exact Nat.mod_lt _ (Nat.pow_pos hS)
    have ha : j % m.nStates ^ 2 / m.nStates < m.nStates := Nat.div_lt_of_lt_mul hlt
    have hb : j % m.nStates ^ 2 % m.nStates < m.nStates := Nat.mod_lt _ hS
    have key : ∀ a < m.nStates, ∀ b < m.nStates, ∀ e < x.edgeFeatures.rows,
        (hotEdges m.nStates x.edges y.get).get (e * m.nStates ^ 2 + (a * m.nStates + b)) =
        (if a * m.nStates + b = y.get (edge x.edges e).2 + m.nStates * y.get (edge x.edges e).1
          then 1 else 0 : ℚ) := by
      intro a ha b hb e hee
      have hm := he _ (edge_mem (es := x.edges) (e := e) (by omega))
      have h1 := hv _ hm.1
      have h2 := hv _ hm.2
      have h1' : e * m.nStates ^ 2 + (a * m.nStates + b) = (e * m.nStates + a) * m.nStates + b := by
        ring
      simp only [hotEdges]
      rw [h1', flat_div hb, flat_mod hb, flat_div ha, flat_mod ha]
      have : x.edges.getD e (0, 0) = edge x.edges e := rfl
      rw [this]
      generalize edge x.edges e = pq at *
      by_cases hc : a = y.get pq.1 ∧ b = y.get pq.2
      · rw [if_pos hc, if_pos (by rw [hc.1, hc.2]; ring)]
      · rw [if_neg hc, if_neg ?_]
        intro h
        apply hc
        rw [add_comm (y.get pq.2), mul_comm m.nStates] at h
        have d1 := flat_div (i := a) hb
        have d2 := flat_div (i := y.get pq.1) h2
        have d3 := flat_mod (i := a) hb
        have d4 := flat_mod (i := y.get pq.1) h2
        rw [h] at d1 d3
        exact ⟨d1.symm.trans d2, d3.symm.trans d4⟩
    generalize j % m.nStates ^ 2 / m.nStates = a at *
    generalize j % m.nStates ^ 2 % m.nStates = b at *
    have sums : ∀ a < m.nStates, ∀ b < m.nStates,
        ∑ e ∈ range x.edgeFeatures.rows, x.edgeFeatures.get e (j / m.nStates ^ 2) *
          (hotEdges m.nStates x.edges y.get).get (e * m.nStates ^ 2 + (a * m.nStates + b)) =
        ∑ e ∈ range x.edgeFeatures.rows, x.edgeFeatures.get e (j / m.nStates ^ 2) *
          (if a * m.nStates + b = y.get (edge x.edges e).2 + m.nStates * y.get (edge x.edges e).1
            then 1 else 0 : ℚ) := by
      intro a ha b hb
      apply sum_congr rfl; intro e hee
      rw [key a ha b hb e (mem_range.mp hee)]
    unfold proj
    simp only [sums a ha b hb, sums b hb a ha]

/-- concrete instance: the one-hot encoding of a labelling of a one-edge graph with a symmetric edge
feature. -/
example : (do
    let m : EdgeFeature.Model := ⟨2, 1, 1, [0], []⟩
    let x : EdgeFeature.X := ⟨⟨2, 1, fun i _ => i + 1⟩, [(0, 1)], ⟨1, 1, fun _ _ => 3⟩⟩
    let y : Labels := ⟨2, fun i => i⟩
    let ψ ← EdgeFeature.jointFeature EdgeFeature.checkSizeX m x (.discrete y)
    let ψ' ← EdgeFeature.jointFeature EdgeFeature.checkSizeX m x
      (.relaxed (hotUnary 2 2 y.get) (hotEdges 2 [(0, 1)] y.get))
    pure ((List.range 6).map ψ.get, (List.range 6).map ψ'.get)) =
    (.ok ([1, 2, 0, 3 / 2, 3 / 2, 0], [1, 2, 0, 3 / 2, 3 / 2, 0]) :
      Except PyErr (List ℚ × List ℚ)) := by decide +kernel

end Verif.Props
