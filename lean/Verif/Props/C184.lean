import Verif.Props.C183
import Verif.Model.EdgeInstance

/-!
# C184: an `EdgeFeatureLatentNodeCRF` without hidden nodes
-/

namespace Verif.Props

open Finset Verif.Common Verif.Spec Verif.Learner

/-- the `EdgeFeatureLatentNodeCRF` with the parameters of an `EdgeFeatureGraphCRF` and no hidden states. -/
def edgeNoHidden (m : EdgeFeature.Model) (lf : Bool) : LatentNode.EModel := ⟨⟨m.nStates, 0, m.nFeatures, lf⟩, m.nEdgeFeatures, m.sym, m.anti⟩

/-- a graph with edge features as an instance without hidden nodes. -/
def edgeNoHiddenX (x : EdgeFeature.X) : LatentNode.EX := ⟨x.features, x.edges, x.edgeFeatures, 0⟩

theorem edgeNoHidden_states (m : EdgeFeature.Model) (lf : Bool) : (edgeNoHidden m lf).base.nStates = m.nStates := Nat.zero_add _

theorem edgeNoHidden_input (m : EdgeFeature.Model) (lf : Bool) : (edgeNoHidden m lf).base.nInput = m.nStates :=
  noHidden_input m.nStates m.nFeatures lf

/-- **C184, size.** The joint feature has the size of that of an `EdgeFeatureGraphCRF`. -/
theorem C184_size (m : EdgeFeature.Model) (lf : Bool) :
    LatentNode.eSize ⟨⟨m.nStates, 0, m.nFeatures, lf⟩, m.nEdgeFeatures, m.sym, m.anti⟩ = EdgeFeature.sizeJointFeature m := by
  change (edgeNoHidden m lf).base.nInput * m.nFeatures + m.nEdgeFeatures * (edgeNoHidden m lf).base.nStates ^ 2 = _
  rw [edgeNoHidden_states, edgeNoHidden_input]
  rfl

theorem pair_indicator {S a b k : ℕ} (hb : b < S) :
    ((if k / S = a then 1 else 0) * (if k % S = b then 1 else 0) : ℚ) = if k = b + S * a then 1 else 0 := by
  have hS : 0 < S := by omega
  by_cases h : k = b + S * a
  · have h1 : k / S = a := by rw [h, Nat.add_mul_div_left _ _ hS, Nat.div_eq_of_lt hb, Nat.zero_add]
    have h2 : k % S = b := by rw [h, Nat.add_mul_mod_self_left, Nat.mod_eq_of_lt hb]
    rw [if_pos h1, if_pos h2, if_pos h, mul_one]
  · rw [if_neg h]
    by_cases h1 : k / S = a
    · have h2 : k % S ≠ b := fun h2 => h (by rw [← h1, ← h2]; exact (Nat.mod_add_div k S).symm)
      rw [if_neg h2, mul_zero]
    · rw [if_neg h1, zero_mul]

/-- **C184, joint features.** For labellings of all nodes of a graph with at least one edge, and for marginals of the right size, the
joint feature is that of an `EdgeFeatureGraphCRF`; the same exceptions are raised. -/
theorem C184_joint_feature (m : EdgeFeature.Model) (lf : Bool) (x : EdgeFeature.X) (y : YVal)
    (hd : ∀ l, y = .discrete l → l.size = x.features.rows ∧ x.edges ≠ [])
    (hr : ∀ u p, y = .relaxed u p → u.size = x.features.rows * m.nStates ∧ 0 < m.nStates) :
    LatentNode.eJointFeature ⟨⟨m.nStates, 0, m.nFeatures, lf⟩, m.nEdgeFeatures, m.sym, m.anti⟩ ⟨x.features, x.edges, x.edgeFeatures, 0⟩ y =
      EdgeFeature.jointFeature EdgeFeature.checkSizeX m x y := by
  have hM : LatentNode.eMarginals m.nStates (edgeNoHiddenX x) y = EdgeFeature.marginals m.nStates x y := by
    cases y with
    | discrete l =>
      obtain ⟨h1, h2⟩ := hd l rfl
      unfold LatentNode.eMarginals EdgeFeature.marginals
      change (GraphCRF.oneHot l.size m.nStates l >>= fun V => if ¬ ∀ e ∈ x.edges, e.1 < l.size ∧ e.2 < l.size then .error .indexError
        else if x.edges = [] then .error .valueError else _) = (GraphCRF.oneHot x.features.rows m.nStates l >>= _)
      rw [h1]
      unfold GraphCRF.oneHot
      rw [if_neg (not_not.mpr h1)]
      by_cases hl : ∀ i < x.features.rows, l.get i < m.nStates
      · rw [if_neg (not_not.mpr hl)]
        simp only [bind, Except.bind]
        unfold EdgeFeature.pairIndicators
        by_cases he : ∀ e ∈ x.edges, e.1 < x.features.rows ∧ e.2 < x.features.rows
        · rw [if_neg (not_not.mpr he), if_neg (not_not.mpr he), if_neg h2]
          change Except.ok (_, (⟨_, _, _⟩ : Mat)) = Except.ok (_, (⟨_, _, _⟩ : Mat))
          congr 3
          funext e k
          have hb : l.get (edge x.edges e).2 < m.nStates := by
            apply hl
            by_cases hlt : e < x.edges.length
            · have : edge x.edges e ∈ x.edges := by
                unfold edge
                rw [List.getD_eq_getElem _ _ hlt]
                exact List.getElem_mem hlt
              exact (he _ this).2
            · obtain ⟨q, hq⟩ := List.exists_mem_of_ne_nil _ h2
              have h0 : edge x.edges e = (0, 0) := by
                unfold edge
                rw [List.getD_eq_default _ _ (not_lt.mp hlt)]
              rw [h0]
              exact Nat.zero_lt_of_lt (he q hq).1
          exact pair_indicator hb
        · rw [if_pos he, if_pos he]
      · rw [if_pos hl]
        rfl
    | relaxed u p =>
      obtain ⟨h1, h2⟩ := hr u p rfl
      unfold LatentNode.eMarginals EdgeFeature.marginals
      simp only [h1, Nat.mul_div_cancel _ h2]
      rfl
  have hU : ∀ U pw, EdgeFeature.marginals m.nStates x y = .ok (U, pw) → U.rows = x.features.rows ∧ U.cols = m.nStates := by
    intro U pw h
    cases y with
    | discrete l =>
      unfold EdgeFeature.marginals at h
      obtain ⟨V, hV, h⟩ := bind_eq_ok.mp h
      obtain ⟨a, _, h⟩ := bind_eq_ok.mp h
      injection h with h
      injection h with h _
      subst h
      unfold GraphCRF.oneHot at hV
      split at hV
      · cases hV
      split at hV
      · cases hV
      injection hV with hV
      subst hV
      exact ⟨rfl, rfl⟩
    | relaxed u p =>
      unfold EdgeFeature.marginals at h
      obtain ⟨V, hV, h⟩ := bind_eq_ok.mp h
      obtain ⟨t, _, h⟩ := bind_eq_ok.mp h
      injection h with h
      injection h with h _
      subst h
      unfold Vec.reshape2 at hV
      split at hV
      · injection hV with hV
        subst hV
        exact ⟨rfl, rfl⟩
      · cases hV
  change LatentNode.eJointFeature (edgeNoHidden m lf) (edgeNoHiddenX x) y = _
  unfold LatentNode.eJointFeature EdgeFeature.jointFeature
  rw [edgeNoHidden_states, edgeNoHidden_input, hM]
  change (EdgeFeature.checkSizeX m x >>= _) = _
  congr 1
  funext _
  cases hc : EdgeFeature.marginals m.nStates x y with
  | error e => rfl
  | ok p =>
    obtain ⟨U, pw⟩ := p
    obtain ⟨h1, h2⟩ := hU U pw hc
    have ha : LatentNode.accumulate U m.nStates x.features = U.T.mul x.features := by
      unfold LatentNode.accumulate
      rw [h1, h2, min_self, min_self, ← h1, ← h2]
    change (x.edgeFeatures.T.mul pw >>= fun q => if ¬ ∀ i ∈ m.sym ++ m.anti, i < q.rows then .error .indexError else
      (LatentNode.accumulate U m.nStates x.features >>= _)) = _
    rw [ha]
    rfl

theorem edgeNoHidden_unary (m : EdgeFeature.Model) (lf : Bool) (x : EdgeFeature.X) (w : Vec) (hn : 0 < x.features.rows) (hL : 0 < m.nStates) :
    (∃ e, LatentNode.eUnary (edgeNoHidden m lf) (edgeNoHiddenX x) w = .error e ∧
      EdgeFeature.unaryPotentials EdgeFeature.checkSizeX m x w = .error e) ∨
    ∃ U U', LatentNode.eUnary (edgeNoHidden m lf) (edgeNoHiddenX x) w = .ok U' ∧
      EdgeFeature.unaryPotentials EdgeFeature.checkSizeX m x w = .ok U ∧ SameArray U U' ∧ U.rows = x.features.rows ∧ U.cols = m.nStates := by
  unfold LatentNode.eUnary EdgeFeature.unaryPotentials
  rw [edgeNoHidden_input, show LatentNode.eSize (edgeNoHidden m lf) = _ from C184_size m lf]
  cases GraphCRF.checkSizeW (EdgeFeature.sizeJointFeature m) w with
  | error e => exact .inl ⟨e, rfl, rfl⟩
  | ok _ =>
    change (∃ e, (EdgeFeature.checkSizeX m x >>= _) = _ ∧ (EdgeFeature.checkSizeX m x >>= _) = _) ∨
      ∃ U U', (EdgeFeature.checkSizeX m x >>= _) = _ ∧ (EdgeFeature.checkSizeX m x >>= _) = _ ∧ _
    cases EdgeFeature.checkSizeX m x with
    | error e => exact .inl ⟨e, rfl, rfl⟩
    | ok _ =>
      have hp : (w.slice 0 (m.nStates * m.nFeatures)).reshape2 m.nStates m.nFeatures =
          .ok ⟨m.nStates, m.nFeatures, fun i j => (w.slice 0 (m.nStates * m.nFeatures)).get (i * m.nFeatures + j)⟩ := by
        unfold Vec.reshape2
        exact if_pos rfl
      change (∃ e, ((w.slice 0 (m.nStates * m.nFeatures)).reshape2 m.nStates m.nFeatures >>= _) = _ ∧
          ((w.slice 0 (m.nStates * m.nFeatures)).reshape2 m.nStates m.nFeatures >>= _) = _) ∨
        ∃ U U', ((w.slice 0 (m.nStates * m.nFeatures)).reshape2 m.nStates m.nFeatures >>= _) = _ ∧
          ((w.slice 0 (m.nStates * m.nFeatures)).reshape2 m.nStates m.nFeatures >>= _) = _ ∧ _
      rw [hp]
      exact noHidden_core m.nStates m.nFeatures lf x.features _ hn hL rfl

theorem edgeNoHidden_pairwise (m : EdgeFeature.Model) (lf : Bool) (x : EdgeFeature.X) (w : Vec) :
    LatentNode.ePairwise (edgeNoHidden m lf) (edgeNoHiddenX x) w = EdgeFeature.pairwisePotentials EdgeFeature.checkSizeX m x w := by
  unfold LatentNode.ePairwise
  rw [edgeNoHidden_input, edgeNoHidden_states, show LatentNode.eSize (edgeNoHidden m lf) = _ from C184_size m lf]
  rfl

/-- **C184, inference.** On a graph with at least one node, inference returns what an `EdgeFeatureGraphCRF` with the same weights
returns, or raises the same exception, for every inference method. -/
theorem C184_inference {inf : GraphCRF.Infer} (hi : ReadsUnaries inf) (m : EdgeFeature.Model) (lf : Bool) (x : EdgeFeature.X) (w : Vec)
    (hn : 0 < x.features.rows) (hL : 0 < m.nStates) :
    edgeNodeInference inf ⟨⟨m.nStates, 0, m.nFeatures, lf⟩, m.nEdgeFeatures, m.sym, m.anti⟩ ⟨x.features, x.edges, x.edgeFeatures, 0⟩ w =
      EdgeFeature.inference EdgeFeature.checkSizeX inf m x w := by
  change edgeNodeInference inf (edgeNoHidden m lf) (edgeNoHiddenX x) w = _
  unfold edgeNodeInference EdgeFeature.inference
  rw [edgeNoHidden_pairwise, show LatentNode.eSize (edgeNoHidden m lf) = _ from C184_size m lf]
  congr 1
  funext _
  rcases edgeNoHidden_unary m lf x w hn hL with ⟨e, h1, h2⟩ | ⟨U, U', h1, h2, h3, _⟩
  · rw [h1, h2]; rfl
  · rw [h1, h2]
    simp only [bind, Except.bind]
    cases EdgeFeature.pairwisePotentials EdgeFeature.checkSizeX m x w with
    | error e => rfl
    | ok P => exact hi _ _ _ _ h3

/-- **C184, loss-augmented inference.** The same for loss-augmented inference with the true labels of all nodes. -/
theorem C184_loss_augmented {inf : GraphCRF.Infer} (hi : ReadsUnaries inf) (m : EdgeFeature.Model) (lf : Bool) (x : EdgeFeature.X) (w cw : Vec)
    (y : Labels) (hn : 0 < x.features.rows) (hL : 0 < m.nStates) (hc : cw.size = m.nStates) (hy : y.size = x.features.rows)
    (hl : ∀ i < y.size, y.get i < m.nStates) :
    LatentNode.eLossAugmentedInference inf cw ⟨⟨m.nStates, 0, m.nFeatures, lf⟩, m.nEdgeFeatures, m.sym, m.anti⟩
        ⟨x.features, x.edges, x.edgeFeatures, 0⟩ y w =
      EdgeFeature.lossAugmentedInference EdgeFeature.checkSizeX inf cw m x y w := by
  change LatentNode.eLossAugmentedInference inf cw (edgeNoHidden m lf) (edgeNoHiddenX x) y w = _
  unfold LatentNode.eLossAugmentedInference EdgeFeature.lossAugmentedInference
  rw [edgeNoHidden_pairwise, edgeNoHidden_states, show LatentNode.eSize (edgeNoHidden m lf) = _ from C184_size m lf]
  congr 1
  funext _
  rcases edgeNoHidden_unary m lf x w hn hL with ⟨e, h1, h2⟩ | ⟨U, U', h1, h2, h3, h4, h5⟩
  · rw [h1, h2]; rfl
  · rw [h1, h2]
    simp only [bind, Except.bind]
    cases EdgeFeature.pairwisePotentials EdgeFeature.checkSizeX m x w with
    | error e => rfl
    | ok P =>
      obtain ⟨V, V', ha, hb, h6⟩ := noHidden_augment h3 h4 h5 hc hy hl
      rw [ha]
      change Except.bind (LatentNode.augment m.nStates m.nStates cw U' y) _ = _
      rw [hb]
      exact hi _ _ _ _ h6

/-- **C184, completion.** There is nothing to complete: if inference returns as many labels as there are nodes, `latent` returns the given
labels; an answer that contradicts them is overwritten, not reported. -/
theorem C184_latent (inf : GraphCRF.Infer) (hs : ∀ u P E, ∃ l, inf u P E = .ok (.discrete l) ∧ l.size = u.rows) (m : EdgeFeature.Model)
    (lf : Bool) (x : EdgeFeature.X) (y : Labels) (w : Vec) (hn : 0 < x.features.rows) (hL : 0 < m.nStates) (hy : y.size = x.features.rows)
    (hl : ∀ i < y.size, y.get i < m.nStates)
    (hU : ∃ U, EdgeFeature.unaryPotentials EdgeFeature.checkSizeX m x w = .ok U)
    (hP : ∃ P, EdgeFeature.pairwisePotentials EdgeFeature.checkSizeX m x w = .ok P) :
    ∃ h, LatentNode.eLatent inf ⟨⟨m.nStates, 0, m.nFeatures, lf⟩, m.nEdgeFeatures, m.sym, m.anti⟩ ⟨x.features, x.edges, x.edgeFeatures, 0⟩ y w = .ok h ∧
      h.size = y.size ∧ ∀ i < y.size, h.get i = y.get i := by
  obtain ⟨U, hU⟩ := hU
  obtain ⟨P, hP⟩ := hP
  change ∃ h, LatentNode.eLatent inf (edgeNoHidden m lf) (edgeNoHiddenX x) y w = .ok h ∧ _
  rcases edgeNoHidden_unary m lf x w hn hL with ⟨e, _, h2⟩ | ⟨U0, U', h1, _, h3, h4, h5⟩
  · rw [hU] at h2; cases h2
  have hc : LatentNode.clamp U' y = .ok _ := clamp_ok
    (by rw [h3.1, h3.2.1, h4, h5]; exact Nat.mul_pos hn hL) (by rw [h3.1, h4, hy]) (by rw [h3.2.1, h5]; exact hl)
  unfold LatentNode.eLatent
  rw [h1]
  simp only [bind, Except.bind]
  rw [hc]
  simp only
  rw [edgeNoHidden_pairwise, hP]
  simp only
  obtain ⟨l, e1, e2⟩ := hs ⟨U'.rows, U'.cols, _⟩ (.ten P) (edgeNoHiddenX x).edges
  rw [e1]
  simp only at e2 ⊢
  have hsz : l.size = y.size := by rw [e2, h3.1, h4, hy]
  rw [if_neg (by rw [hsz]; exact lt_irrefl _)]
  by_cases hq : LatentNode.Inconsistent y l
  · rw [if_pos hq]
    refine ⟨_, rfl, hsz, fun i hi => ?_⟩
    exact if_pos hi
  · rw [if_neg hq]
    refine ⟨_, rfl, hsz, fun i hi => ?_⟩
    by_contra hne
    exact hq ⟨i, hi, hne⟩

/-! ### the hypotheses can be met -/

/-- max-product, given an array of unary potentials that has no values outside. -/
def trimmedUnaryMaxProduct : GraphCRF.Infer := fun u P E => MaxProd.maxProductInfer ⟨5, 1 / 2, 1 / 100000⟩ (trimmed u) P E

theorem trimmedUnaryMaxProduct_reads : ReadsUnaries trimmedUnaryMaxProduct := fun u u' P E h => by
  unfold trimmedUnaryMaxProduct
  rw [trimmed_same h]

/-- two states, one feature per node, two features per edge, the first of which is symmetric. -/
def noHiddenEdgeModel : EdgeFeature.Model := ⟨2, 1, 2, [0], []⟩

/-- three nodes in a chain with features of the edges. -/
def noHiddenEdgeChain : EdgeFeature.X :=
  ⟨⟨3, 1, fun i _ => if i = 0 then 2 else if i = 1 then -1 else 1⟩, [(0, 1), (1, 2)], ⟨2, 2, fun e k => (e : ℚ) + k⟩⟩

/-- weights of the chain. -/
def noHiddenEdgeWeights : Vec := ⟨10, fun k => if k = 0 then -1 else if k = 1 then 1 else if k = 3 ∨ k = 4 then 1 / 2 else 0⟩

example : edgeNodeInference trimmedUnaryMaxProduct ⟨⟨2, 0, 1, true⟩, 2, [0], []⟩
      ⟨noHiddenEdgeChain.features, noHiddenEdgeChain.edges, noHiddenEdgeChain.edgeFeatures, 0⟩ noHiddenEdgeWeights =
      EdgeFeature.inference EdgeFeature.checkSizeX trimmedUnaryMaxProduct noHiddenEdgeModel noHiddenEdgeChain noHiddenEdgeWeights ∧
    ((EdgeFeature.inference EdgeFeature.checkSizeX trimmedUnaryMaxProduct noHiddenEdgeModel noHiddenEdgeChain noHiddenEdgeWeights).toOption.map
      fun v => match v with
      | .discrete l => (List.range l.size).map l.get
      | .relaxed _ _ => []) = some [1, 0, 1] :=
  ⟨C184_inference trimmedUnaryMaxProduct_reads noHiddenEdgeModel true noHiddenEdgeChain noHiddenEdgeWeights (by decide) (by decide),
    by decide +kernel⟩

example : LatentNode.eLossAugmentedInference trimmedUnaryMaxProduct ⟨2, fun _ => 1⟩ ⟨⟨2, 0, 1, true⟩, 2, [0], []⟩
      ⟨noHiddenEdgeChain.features, noHiddenEdgeChain.edges, noHiddenEdgeChain.edgeFeatures, 0⟩ ⟨3, fun _ => 0⟩ noHiddenEdgeWeights =
    EdgeFeature.lossAugmentedInference EdgeFeature.checkSizeX trimmedUnaryMaxProduct ⟨2, fun _ => 1⟩ noHiddenEdgeModel noHiddenEdgeChain
      ⟨3, fun _ => 0⟩ noHiddenEdgeWeights :=
  C184_loss_augmented trimmedUnaryMaxProduct_reads noHiddenEdgeModel true noHiddenEdgeChain noHiddenEdgeWeights ⟨2, fun _ => 1⟩ ⟨3, fun _ => 0⟩
    (by decide) (by decide) rfl rfl fun _ _ => Nat.zero_lt_two

example : LatentNode.eJointFeature ⟨⟨2, 0, 1, false⟩, 2, [0], []⟩
      ⟨noHiddenEdgeChain.features, noHiddenEdgeChain.edges, noHiddenEdgeChain.edgeFeatures, 0⟩ (.discrete ⟨3, fun i => (i + 1) % 2⟩) =
      EdgeFeature.jointFeature EdgeFeature.checkSizeX noHiddenEdgeModel noHiddenEdgeChain (.discrete ⟨3, fun i => (i + 1) % 2⟩) ∧
    ((EdgeFeature.jointFeature EdgeFeature.checkSizeX noHiddenEdgeModel noHiddenEdgeChain (.discrete ⟨3, fun i => (i + 1) % 2⟩)).toOption.map
      fun v => (List.range v.size).map v.get) = some [-1, 3, 0, 1 / 2, 1 / 2, 0, 0, 2, 1, 0] :=
  ⟨C184_joint_feature noHiddenEdgeModel false noHiddenEdgeChain _ (fun l h => by injection h with h; rw [← h]; exact ⟨rfl, by decide⟩)
    (fun u p h => by cases h), by decide +kernel⟩

/-- The labels 1, 1, 1 against inference that always returns zeros. -/
example : ∃ h, LatentNode.eLatent (fun u _ _ => .ok (.discrete ⟨u.rows, fun _ => 0⟩)) ⟨⟨2, 0, 1, false⟩, 2, [0], []⟩
      ⟨noHiddenEdgeChain.features, noHiddenEdgeChain.edges, noHiddenEdgeChain.edgeFeatures, 0⟩ ⟨3, fun _ => 1⟩ noHiddenEdgeWeights = .ok h ∧
    h.size = 3 ∧ ∀ i < 3, h.get i = 1 := by
  have h1 : (EdgeFeature.unaryPotentials EdgeFeature.checkSizeX noHiddenEdgeModel noHiddenEdgeChain noHiddenEdgeWeights).toOption.isSome = true := by
    decide +kernel
  have h2 : (EdgeFeature.pairwisePotentials EdgeFeature.checkSizeX noHiddenEdgeModel noHiddenEdgeChain noHiddenEdgeWeights).toOption.isSome = true := by
    decide +kernel
  refine C184_latent _ (fun u _ _ => ⟨⟨u.rows, fun _ => 0⟩, rfl, rfl⟩) noHiddenEdgeModel false noHiddenEdgeChain ⟨3, fun _ => 1⟩
    noHiddenEdgeWeights (by decide) (by decide) rfl (fun _ _ => Nat.one_lt_two) ?_ ?_
  · cases h : EdgeFeature.unaryPotentials EdgeFeature.checkSizeX noHiddenEdgeModel noHiddenEdgeChain noHiddenEdgeWeights with
    | error e => rw [h] at h1; cases h1
    | ok U => exact ⟨U, rfl⟩
  · cases h : EdgeFeature.pairwisePotentials EdgeFeature.checkSizeX noHiddenEdgeModel noHiddenEdgeChain noHiddenEdgeWeights with
    | error e => rw [h] at h2; cases h2
    | ok U => exact ⟨U, rfl⟩

end Verif.Props
