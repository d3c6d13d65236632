import Verif.Lemmas.EdgeFeature

/-!
# C15, C16: EdgeFeatureGraphCRF — score equals weights times features, symmetric edge weights
-/

namespace Verif.Props

open Finset Verif.Common Verif.GraphCRF Verif.EdgeFeature

/-- Score of a labelling under an edge-feature model, spelled out: per vertex its features times the weight
block of its label; per edge its edge features times the `n_edge_features` weights belonging to the
ordered pair of labels. -/
def edgeFeatureScore (S F K : ℕ) (x : ℕ → ℕ → ℚ) (n : ℕ) (edges : List (ℕ × ℕ))
    (ef : ℕ → ℕ → ℚ) (w : ℕ → ℚ) (y : ℕ → ℕ) : ℚ :=
  ∑ i ∈ range n, ∑ f ∈ range F, w (y i * F + f) * x i f +
  ∑ e ∈ range edges.length, ∑ k ∈ range K,
    w (S * F + k * S ^ 2 + y (edges.getD e (0, 0)).1 * S + y (edges.getD e (0, 0)).2) * ef e k

theorem score_eq_edgeFeatureScore (m : EdgeFeature.Model) (x : EdgeFeature.X) (w : ℕ → ℚ)
    (y : ℕ → ℕ) :
    Spec.score x.features.rows x.edges (EU m x.features w) (EP m x.edgeFeatures w) y =
      edgeFeatureScore m.nStates m.nFeatures m.nEdgeFeatures x.features.get x.features.rows
        x.edges x.edgeFeatures.get w y := by
  unfold Spec.score edgeFeatureScore
  congr 1
  · apply sum_congr rfl; intro i _
    unfold EU
    apply sum_congr rfl; intro f _; ring
  · apply sum_congr rfl; intro e _
    unfold EP EW
    apply sum_congr rfl; intro k _
    rw [add_assoc (m.nStates * m.nFeatures + k * m.nStates ^ 2), add_assoc (m.nStates * m.nFeatures)]
    ring

/-- The edge weights of the features declared (anti)symmetric have that symmetry. -/
def RespectsSymmetry (S F : ℕ) (sym anti : List ℕ) (w : ℕ → ℚ) : Prop :=
  (∀ k ∈ sym, ∀ a < S, ∀ b < S,
    w (S * F + k * S ^ 2 + a * S + b) = w (S * F + k * S ^ 2 + b * S + a)) ∧
  (∀ k ∈ anti, ∀ a < S, ∀ b < S,
    w (S * F + k * S ^ 2 + a * S + b) = -w (S * F + k * S ^ 2 + b * S + a))

theorem EW_flat (m : EdgeFeature.Model) (w : ℕ → ℚ) (k a b : ℕ) :
    EW m w k a b = w (m.nStates * m.nFeatures + k * m.nStates ^ 2 + a * m.nStates + b) := by
  unfold EW; congr 1; ring

theorem checkModel_ok {m : EdgeFeature.Model} (h : checkModel m = .ok ()) :
    (∀ i ∈ m.sym ++ m.anti, i < m.nEdgeFeatures) ∧ ∀ i ∈ m.sym, i ∉ m.anti := by
  unfold checkModel at h
  split at h
  · cases h
  · rename_i h1
    split at h
    · cases h
    · rename_i h2
      exact ⟨not_not.mp h1, not_not.mp h2⟩

/-- **C16 (energy).** For every edge-feature model accepted by its constructor, every graph, labelling and
every weight vector whose edge weights respect the declared symmetries: potentials and joint feature
are computed without error, and the inner product of weights and joint feature equals the energy of
the labelling under the potentials used by inference; both equal the score spelled out in
`edgeFeatureScore`. -/
theorem C16_energy_of_symmetric_weights (m : EdgeFeature.Model) (x : EdgeFeature.X) (w : Vec)
    (y : Labels) (hmod : checkModel m = .ok ())
    (hF : x.features.cols = m.nFeatures) (hE : x.edgeFeatures.rows = x.edges.length)
    (hK : x.edgeFeatures.cols = m.nEdgeFeatures) (hpos : 0 < m.nEdgeFeatures)
    (hw : w.size = EdgeFeature.sizeJointFeature m) (hy : y.size = x.features.rows)
    (hv : Spec.Valid x.features.rows m.nStates y.get)
    (he : Spec.EdgesIn x.features.rows x.edges)
    (hsym : RespectsSymmetry m.nStates m.nFeatures m.sym m.anti w.get) :
    ∃ U P ψ, EdgeFeature.unaryPotentials EdgeFeature.checkSizeX m x w = .ok U ∧
      EdgeFeature.pairwisePotentials EdgeFeature.checkSizeX m x w = .ok P ∧
      EdgeFeature.jointFeature EdgeFeature.checkSizeX m x (.discrete y) = .ok ψ ∧
      w.dot ψ = computeEnergy U (.ten P) x.edges y ∧
      w.dot ψ = .ok (edgeFeatureScore m.nStates m.nFeatures m.nEdgeFeatures x.features.get
        x.features.rows x.edges x.edgeFeatures.get w.get y.get) := by
  obtain ⟨hsa, hdis⟩ := checkModel_ok hmod
  have hc := EdgeFeature.checkSizeX_ok hF hE hK
  obtain ⟨U, P, hU, hP, _, _, hen⟩ := energy_ok hc hF hE hK hpos hw hy hv he
  refine ⟨U, P, _, hU, hP, EdgeFeature.jointFeature_of_marginals hc hF hK hsa
    (EdgeFeature.marginals_discrete hy hE hv he), ?_⟩
  have hd : w.dot (EdgeFeature.psi m x (fun i s => if s = y.get i then 1 else 0)
      (fun e k => if k = y.get (edge x.edges e).2 + m.nStates * y.get (edge x.edges e).1
        then 1 else 0)) =
      .ok (Spec.score x.features.rows x.edges (EU m x.features w.get)
        (EP m x.edgeFeatures w.get) y.get) := by
    unfold Vec.dot
    rw [EdgeFeature.psi_size, if_pos hw, hw,
      EdgeFeature.dot_psi_discrete m x w.get y.get hdis hE hv he]
    congr 1
    unfold Spec.score
    congr 1
    apply sum_congr rfl; intro e hee
    have hm := he _ (edge_mem (mem_range.mp hee))
    have h1 := hv _ hm.1
    have h2 := hv _ hm.2
    unfold EP
    apply sum_congr rfl; intro k _
    congr 1
    unfold proj
    split
    · rename_i hk
      have := hsym.2 k hk _ h1 _ h2
      rw [← EW_flat m w.get k, ← EW_flat m w.get k] at this
      unfold edge at this
      rw [this]; ring
    · split
      · rename_i hk
        have := hsym.1 k hk _ h1 _ h2
        rw [← EW_flat m w.get k, ← EW_flat m w.get k] at this
        unfold edge at this
        rw [this]; ring
      · rfl
  rw [hd, hen]
  exact ⟨rfl, by rw [score_eq_edgeFeatureScore]⟩

/-- **C15 (the part that holds for every weight vector).** Without declared symmetries the energy of a
labelling under the potentials used by inference equals the inner product of weights and joint
feature. Missing: models with (anti)symmetric edge features and arbitrary weights, where the claim
is false (`C15_violated_symmetric`); for weights that respect the symmetries see C16. -/
theorem C15_edge_feature_energy_partial (m : EdgeFeature.Model) (x : EdgeFeature.X) (w : Vec)
    (y : Labels) (hs : m.sym = []) (ha : m.anti = [])
    (hF : x.features.cols = m.nFeatures) (hE : x.edgeFeatures.rows = x.edges.length)
    (hK : x.edgeFeatures.cols = m.nEdgeFeatures) (hpos : 0 < m.nEdgeFeatures)
    (hw : w.size = EdgeFeature.sizeJointFeature m) (hy : y.size = x.features.rows)
    (hv : Spec.Valid x.features.rows m.nStates y.get)
    (he : Spec.EdgesIn x.features.rows x.edges) :
    ∃ U P ψ, EdgeFeature.unaryPotentials EdgeFeature.checkSizeX m x w = .ok U ∧
      EdgeFeature.pairwisePotentials EdgeFeature.checkSizeX m x w = .ok P ∧
      EdgeFeature.jointFeature EdgeFeature.checkSizeX m x (.discrete y) = .ok ψ ∧
      w.dot ψ = computeEnergy U (.ten P) x.edges y ∧
      w.dot ψ = .ok (edgeFeatureScore m.nStates m.nFeatures m.nEdgeFeatures x.features.get
        x.features.rows x.edges x.edgeFeatures.get w.get y.get) := by
  apply C16_energy_of_symmetric_weights m x w y _ hF hE hK hpos hw hy hv he
  · rw [hs, ha]; constructor <;> intro k hk <;> cases hk
  · unfold checkModel; simp [hs, ha]

/-- **C15 is false with symmetric edge features.** Two states, one edge feature declared symmetric, one
edge between labels 0 and 1 and a weight vector that is not symmetric: the energy is 4 but weights
times joint feature is 2. -/
theorem C15_violated_symmetric :
    ∃ (m : EdgeFeature.Model) (x : EdgeFeature.X) (w : Vec) (y : Labels),
      checkModel m = .ok () ∧ w.size = EdgeFeature.sizeJointFeature m ∧
      (do
        let U ← EdgeFeature.unaryPotentials EdgeFeature.checkSizeX m x w
        let P ← EdgeFeature.pairwisePotentials EdgeFeature.checkSizeX m x w
        computeEnergy U (.ten P) x.edges y) = .ok 4 ∧
      (do w.dot (← EdgeFeature.jointFeature EdgeFeature.checkSizeX m x (.discrete y))) = .ok 2 :=
  ⟨⟨2, 1, 1, [0], []⟩, ⟨⟨2, 1, fun _ _ => 0⟩, [(0, 1)], ⟨1, 1, fun _ _ => 1⟩⟩,
    ⟨6, fun k => if k = 3 then 4 else 0⟩, ⟨2, fun i => i⟩, by decide +kernel⟩

/-- **C15 is false with antisymmetric edge features**, in the same way. -/
theorem C15_violated_antisymmetric :
    ∃ (m : EdgeFeature.Model) (x : EdgeFeature.X) (w : Vec) (y : Labels),
      checkModel m = .ok () ∧ w.size = EdgeFeature.sizeJointFeature m ∧
      (do
        let U ← EdgeFeature.unaryPotentials EdgeFeature.checkSizeX m x w
        let P ← EdgeFeature.pairwisePotentials EdgeFeature.checkSizeX m x w
        computeEnergy U (.ten P) x.edges y) = .ok 5 ∧
      (do w.dot (← EdgeFeature.jointFeature EdgeFeature.checkSizeX m x (.discrete y))) = .ok 0 :=
  ⟨⟨2, 1, 1, [], [0]⟩, ⟨⟨2, 1, fun _ _ => 0⟩, [(0, 1)], ⟨1, 1, fun _ _ => 1⟩⟩,
    ⟨6, fun k => if k = 2 then 5 else 0⟩, ⟨2, fun _ => 0⟩, by decide +kernel⟩

theorem marginals_shape_ef {S : ℕ} {x : EdgeFeature.X} {y : YVal} {um pm : Mat}
    (h : EdgeFeature.marginals S x y = .ok (um, pm)) :
    um.rows = x.features.rows ∧ um.cols = S ∧ pm.cols = S ^ 2 ∧
      (pm.rows = x.edgeFeatures.rows ∨ pm.rows = x.edges.length) := by
  cases y with
  | relaxed u p =>
    unfold EdgeFeature.marginals at h
    obtain ⟨v, hv, h⟩ := bind_eq_ok.mp h
    obtain ⟨t, ht, h⟩ := bind_eq_ok.mp h
    unfold Vec.reshape2 at hv ht
    split at hv
    · split at ht
      · injection hv with hv
        injection ht with ht
        injection h with h
        injection h with h1 h2
        subst h1 h2 hv ht
        exact ⟨rfl, rfl, rfl, Or.inl rfl⟩
      · cases ht
    · cases hv
  | discrete l =>
    unfold EdgeFeature.marginals at h
    obtain ⟨v, hv, h⟩ := bind_eq_ok.mp h
    obtain ⟨t, ht, h⟩ := bind_eq_ok.mp h
    unfold oneHot at hv
    split at hv
    · cases hv
    · split at hv
      · cases hv
      · unfold pairIndicators at ht
        split at ht
        · cases ht
        · injection hv with hv
          injection ht with ht
          injection h with h
          injection h with h1 h2
          subst h1 h2 hv ht
          exact ⟨rfl, rfl, rfl, Or.inr rfl⟩

/-- every successful joint feature is assembled from some marginals. -/
theorem jointFeature_inv {check : EdgeFeature.Model → EdgeFeature.X → Except PyErr Unit}
    {m : EdgeFeature.Model} {x : EdgeFeature.X} {y : YVal} {ψ : Vec}
    (hF : check m x = .ok () → x.features.cols = m.nFeatures)
    (h : EdgeFeature.jointFeature check m x y = .ok ψ) :
    check m x = .ok () ∧ (∀ i ∈ m.sym ++ m.anti, i < x.edgeFeatures.cols) ∧
    ∃ U P : ℕ → ℕ → ℚ, ψ = (Mat.ravel ⟨m.nStates, m.nFeatures,
        fun s f => ∑ i ∈ range x.features.rows, U i s * x.features.get i f⟩).append
      (Mat.ravel ⟨x.edgeFeatures.cols, m.nStates ^ 2, symmetrise m.nStates m.sym m.anti
        (fun r k => ∑ e ∈ range x.edgeFeatures.rows, x.edgeFeatures.get e r * P e k)⟩) := by
  unfold EdgeFeature.jointFeature at h
  obtain ⟨_, hc, h⟩ := bind_eq_ok.mp h
  obtain ⟨⟨um, pm⟩, hm, h⟩ := bind_eq_ok.mp h
  obtain ⟨pw, hpw, h⟩ := bind_eq_ok.mp h
  obtain ⟨h1, h2, h3, _⟩ := marginals_shape_ef hm
  unfold Mat.mul Mat.T at hpw
  split at hpw
  · rename_i hrows
    injection hpw with hpw
    subst hpw
    simp only at hrows h
    split at h
    · cases h
    · rename_i hsa
      obtain ⟨acc, hacc, h⟩ := bind_eq_ok.mp h
      unfold Mat.mul Mat.T at hacc
      simp only at hacc
      rw [if_pos h1] at hacc
      injection hacc with hacc
      subst hacc
      injection h with h
      refine ⟨hc, not_not.mp hsa, um.get, pm.get, ?_⟩
      rw [← h]
      simp only [h1, h2, h3, hF hc]
  · cases hpw

theorem append_block (a b : Vec) (k : ℕ) : (a.append b).get (a.size + k) = b.get k := by
  unfold Vec.append
  simp

/-- **C16 (joint features).** Whenever the joint feature of a discrete or relaxed labelling is computed,
its blocks of the features declared (anti)symmetric are (anti)symmetric. -/
theorem C16_joint_feature_blocks (m : EdgeFeature.Model) (x : EdgeFeature.X) (y : YVal) (ψ : Vec)
    (hmod : checkModel m = .ok ())
    (h : EdgeFeature.jointFeature EdgeFeature.checkSizeX m x y = .ok ψ) :
    RespectsSymmetry m.nStates m.nFeatures m.sym m.anti ψ.get := by
  obtain ⟨hsa, hdis⟩ := checkModel_ok hmod
  have hF : EdgeFeature.checkSizeX m x = .ok () → x.features.cols = m.nFeatures := by
    intro hc
    by_contra hne
    unfold EdgeFeature.checkSizeX at hc
    rw [if_pos hne] at hc
    cases hc
  obtain ⟨hc, hin, U, P, rfl⟩ := jointFeature_inv hF h
  set M : ℕ → ℕ → ℚ := fun r k => ∑ e ∈ range x.edgeFeatures.rows, x.edgeFeatures.get e r * P e k
  have key : ∀ k, ∀ a < m.nStates, ∀ b < m.nStates,
      ((Mat.ravel ⟨m.nStates, m.nFeatures,
        fun s f => ∑ i ∈ range x.features.rows, U i s * x.features.get i f⟩).append
      (Mat.ravel ⟨x.edgeFeatures.cols, m.nStates ^ 2, symmetrise m.nStates m.sym m.anti M⟩)).get
        (m.nStates * m.nFeatures + k * m.nStates ^ 2 + a * m.nStates + b) =
      proj m.sym m.anti k (fun a b => M k (a * m.nStates + b)) a b := by
    intro k a ha b hb
    have h2 : a * m.nStates + b < m.nStates ^ 2 := by rw [pow_two]; exact flat_lt ha hb
    rw [add_assoc, add_assoc]
    have := append_block (Mat.ravel ⟨m.nStates, m.nFeatures,
        fun s f => ∑ i ∈ range x.features.rows, U i s * x.features.get i f⟩)
      (Mat.ravel ⟨x.edgeFeatures.cols, m.nStates ^ 2, symmetrise m.nStates m.sym m.anti M⟩)
      (k * m.nStates ^ 2 + (a * m.nStates + b))
    refine this.trans ?_
    unfold Mat.ravel
    simp only
    rw [flat_div h2, flat_mod h2, symmetrise_get _ _ _ hdis _ _ _ _ ha hb]
  constructor
  · intro k hk a ha b hb
    rw [key k a ha b hb, key k b hb a ha]
    unfold proj
    rw [if_neg (hdis k hk), if_pos hk, if_neg (hdis k hk), if_pos hk, add_comm]
  · intro k hk a ha b hb
    rw [key k a ha b hb, key k b hb a ha]
    unfold proj
    rw [if_pos hk, if_pos hk]
    ring

/-- **C16 (learned weights).** Let `w` be any linear combination of joint features (as produced by
perceptron, subgradient, Frank-Wolfe and cutting-plane training from zero initial weights). Then its
edge weights respect the declared symmetries, and for every instance and labelling the energy under
the potentials used by inference equals weights times joint feature. -/
theorem C16_learned_weights (m : EdgeFeature.Model) (hmod : checkModel m = .ok ())
    (hpos : 0 < m.nEdgeFeatures) (N : ℕ) (xs : ℕ → EdgeFeature.X) (ys : ℕ → YVal) (ψs : ℕ → Vec)
    (c : ℕ → ℚ)
    (hψ : ∀ i < N, EdgeFeature.jointFeature EdgeFeature.checkSizeX m (xs i) (ys i) = .ok (ψs i))
    (w : Vec) (hw : w.size = EdgeFeature.sizeJointFeature m)
    (hlin : ∀ k, w.get k = ∑ i ∈ range N, c i * (ψs i).get k) :
    RespectsSymmetry m.nStates m.nFeatures m.sym m.anti w.get ∧
    ∀ (x : EdgeFeature.X) (y : Labels), x.features.cols = m.nFeatures →
      x.edgeFeatures.rows = x.edges.length → x.edgeFeatures.cols = m.nEdgeFeatures →
      y.size = x.features.rows → Spec.Valid x.features.rows m.nStates y.get →
      Spec.EdgesIn x.features.rows x.edges →
      ∃ U P ψ, EdgeFeature.unaryPotentials EdgeFeature.checkSizeX m x w = .ok U ∧
        EdgeFeature.pairwisePotentials EdgeFeature.checkSizeX m x w = .ok P ∧
        EdgeFeature.jointFeature EdgeFeature.checkSizeX m x (.discrete y) = .ok ψ ∧
        w.dot ψ = computeEnergy U (.ten P) x.edges y := by
  have hs : RespectsSymmetry m.nStates m.nFeatures m.sym m.anti w.get := by
    constructor
    · intro k hk a ha b hb
      rw [hlin, hlin]
      apply sum_congr rfl; intro i hi
      rw [(C16_joint_feature_blocks m _ _ _ hmod (hψ i (mem_range.mp hi))).1 k hk a ha b hb]
    · intro k hk a ha b hb
      rw [hlin, hlin, ← sum_neg_distrib]
      apply sum_congr rfl; intro i hi
      rw [(C16_joint_feature_blocks m _ _ _ hmod (hψ i (mem_range.mp hi))).2 k hk a ha b hb]
      ring
  refine ⟨hs, ?_⟩
  intro x y hF hE hK hy hv he
  obtain ⟨U, P, ψ, h1, h2, h3, h4, _⟩ :=
    C16_energy_of_symmetric_weights m x w y hmod hF hE hK hpos hw hy hv he hs
  exact ⟨U, P, ψ, h1, h2, h3, h4⟩

/-- The constructor rejects contradictory declarations. -/
theorem C16_contradictory_declarations_rejected (m : EdgeFeature.Model)
    (h : (∃ i ∈ m.sym, i ∈ m.anti) ∨ ∃ i ∈ m.sym ++ m.anti, m.nEdgeFeatures ≤ i) :
    checkModel m = .error .valueError := by
  unfold checkModel
  by_cases h1 : ∀ i ∈ m.sym ++ m.anti, i < m.nEdgeFeatures
  · rw [if_neg (not_not.mpr h1)]
    rcases h with ⟨i, hi, hi'⟩ | ⟨i, hi, hi'⟩
    · rw [if_pos (fun hh => hh i hi hi')]
    · exact absurd (h1 i hi) (by omega)
  · rw [if_pos h1]

/-- concrete instance: two states, two edge features, the first symmetric and the second antisymmetric,
one edge; a weight vector that respects the symmetries. -/
example : (do
    let m : EdgeFeature.Model := ⟨2, 1, 2, [0], [1]⟩
    checkModel m
    let x : EdgeFeature.X := ⟨⟨2, 1, fun i _ => i + 1⟩, [(1, 0)], ⟨1, 2, fun _ k => k + 2⟩⟩
    let y : Labels := ⟨2, fun i => i⟩
    let w : Vec := ⟨10, fun k => [1, 3, 5, 7, 7, 2, 0, 4, -4, 0].getD k 0⟩
    let ψ ← EdgeFeature.jointFeature EdgeFeature.checkSizeX m x (.discrete y)
    let U ← EdgeFeature.unaryPotentials EdgeFeature.checkSizeX m x w
    let P ← EdgeFeature.pairwisePotentials EdgeFeature.checkSizeX m x w
    pure (ψ.size, ← w.dot ψ, ← computeEnergy U (.ten P) x.edges y)) =
      (.ok (10, 9, 9) : Except PyErr (ℕ × ℚ × ℚ)) := by decide +kernel

end Verif.Props
