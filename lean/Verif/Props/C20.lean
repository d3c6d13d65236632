import Verif.Lemmas.LatentNode
import Verif.Props.C24
import Verif.Props.C15

/-!
# C20: LatentNodeCRF and EdgeFeatureLatentNodeCRF — score equals weights times features

Also the parts of C24 (loss augmentation), C27 (relaxed loss), C34 (completions), C35 (initialisation)
that concern models with latent nodes.
-/

namespace Verif.Props

open Finset Verif.Common Verif.LatentNode

/-- Visible vertices (the first `nv`) carry one of the `L` labels, hidden vertices (the following `nh`) one
of the states `L … S-1`. -/
def Legal (nv nh L S : ℕ) (h : ℕ → ℕ) : Prop :=
  (∀ i < nv, h i < L) ∧ ∀ i, nv ≤ i → i < nv + nh → L ≤ h i ∧ h i < S

theorem Legal.valid {nv nh L S : ℕ} {h : ℕ → ℕ} (hl : Legal nv nh L S h) (hLS : L ≤ S) :
    Spec.Valid (nv + nh) S h := by
  intro i hi
  by_cases h1 : i < nv
  · have := hl.1 i h1; omega
  · exact (hl.2 i (by omega) hi).2

/-- Unary score of a labelling, spelled out: every vertex that has features (the hidden ones only if `lf`)
contributes its features times the weight block of its state. -/
def latentUnaryScore (F : ℕ) (lf : Bool) (x : ℕ → ℕ → ℚ) (nv nh : ℕ) (w : ℕ → ℚ) (h : ℕ → ℕ) : ℚ :=
  ∑ i ∈ range nv, ∑ f ∈ range F, w (h i * F + f) * x i f +
  if lf then ∑ i ∈ range nh, ∑ f ∈ range F, w (h (nv + i) * F + f) * x (nv + i) f else 0

/-- Score of a labelling of a `LatentNodeCRF`, spelled out: unary scores and per edge the weight of the
unordered pair of states, stored behind the unary weights. -/
def latentNodeScore (S L F : ℕ) (lf : Bool) (x : ℕ → ℕ → ℚ) (nv nh : ℕ) (edges : List (ℕ × ℕ))
    (w : ℕ → ℚ) (h : ℕ → ℕ) : ℚ :=
  latentUnaryScore F lf x nv nh w h +
  ∑ e ∈ range edges.length,
    let a := h (edges.getD e (0, 0)).1
    let b := h (edges.getD e (0, 0)).2
    w ((if lf then S else L) * F + (max a b * (max a b + 1) / 2 + min a b))

theorem nLabels_le (m : LatentNode.Model) : m.nLabels ≤ m.nStates := by
  unfold LatentNode.Model.nStates; omega

theorem nInput_le (m : LatentNode.Model) : m.nInput ≤ m.nStates := by
  unfold LatentNode.Model.nInput; split
  · exact le_rfl
  · exact nLabels_le m

theorem states_pos {m : LatentNode.Model} {nv nh : ℕ} {h : ℕ → ℕ}
    (hl : Legal nv nh m.nLabels m.nStates h) (hn : 0 < nv + nh) : 0 < m.nStates := by
  have := hl.valid (nLabels_le m) 0 hn
  omega

theorem LP_eq (m : LatentNode.Model) (w : ℕ → ℚ) (a b : ℕ) :
    LP m w a b = w ((if m.latentFeatures then m.nStates else m.nLabels) * m.nFeatures +
      (max a b * (max a b + 1) / 2 + min a b)) := by
  unfold LP
  rcases Nat.le_total b a with h | h
  · rw [Sym.symEntry_lower _ h, max_eq_left h, min_eq_right h]; rfl
  · rw [Sym.symEntry_comm, Sym.symEntry_lower _ h, max_eq_right h, min_eq_left h]; rfl

/-- a legal labelling only uses cells that are not penalised. -/
theorem unary_sum {m : LatentNode.Model} {x : Mat} {w : ℕ → ℚ} {nv nh : ℕ} {U : Mat} {M : ℚ}
    (hU : UnarySpec m x w nv nh U M) {h : ℕ → ℕ} (hl : Legal nv nh m.nLabels m.nStates h) :
    ∑ i ∈ range (nv + nh), U.get i (h i) =
      latentUnaryScore m.nFeatures m.latentFeatures x.get nv nh w h := by
  rw [sum_range_add]
  unfold latentUnaryScore
  congr 1
  · apply sum_congr rfl; intro i hi
    have hi' := mem_range.mp hi
    rw [hU.visible i hi' _ (hl.1 i hi')]
    unfold LU
    apply sum_congr rfl; intro f _; ring
  · have hr : ∀ i ∈ range nh, U.get (nv + i) (h (nv + i)) =
        if m.latentFeatures then LU m x w (nv + i) (h (nv + i)) else 0 := by
      intro i hi
      have hi' := mem_range.mp hi
      have := hl.2 (nv + i) (by omega) (by omega)
      exact hU.hidden (nv + i) (by omega) (by omega) _ this.1 this.2
    rw [sum_congr rfl hr]
    by_cases hlf : m.latentFeatures
    · simp only [hlf, if_true]
      apply sum_congr rfl; intro i _
      unfold LU
      apply sum_congr rfl; intro f _; ring
    · simp [hlf]

/-- the unary part of weights times joint feature. -/
theorem dot_unary_legal {m : LatentNode.Model} {x : Mat} {w : ℕ → ℚ} {nv nh : ℕ}
    (hr : x.rows = if m.latentFeatures then nv + nh else nv) {h : ℕ → ℕ}
    (hl : Legal nv nh m.nLabels m.nStates h) :
    ∑ i ∈ range x.rows, ∑ s ∈ range m.nInput, (if s = h i then (1 : ℚ) else 0) *
        ∑ f ∈ range m.nFeatures, x.get i f * w (s * m.nFeatures + f) =
      latentUnaryScore m.nFeatures m.latentFeatures x.get nv nh w h := by
  have key : ∀ i, h i < m.nInput → ∑ s ∈ range m.nInput, (if s = h i then (1 : ℚ) else 0) *
        ∑ f ∈ range m.nFeatures, x.get i f * w (s * m.nFeatures + f) =
      ∑ f ∈ range m.nFeatures, w (h i * m.nFeatures + f) * x.get i f := by
    intro i hi
    rw [sum_onehot m.nInput _ hi]
    apply sum_congr rfl; intro f _; ring
  have hin : ∀ i < x.rows, h i < m.nInput := by
    intro i hi
    unfold LatentNode.Model.nInput
    by_cases hlf : m.latentFeatures
    · simp only [hlf, if_true] at hr ⊢
      exact hl.valid (nLabels_le m) i (by omega)
    · simp only [hlf, if_false, Bool.false_eq_true] at hr ⊢
      exact hl.1 i (by omega)
  rw [sum_congr rfl fun i hi => key i (hin i (mem_range.mp hi))]
  unfold latentUnaryScore
  by_cases hlf : m.latentFeatures
  · simp only [hlf, if_true] at hr ⊢
    rw [hr, sum_range_add]
  · simp only [hlf, if_false, Bool.false_eq_true] at hr ⊢
    rw [hr, add_zero]

/-- **C20 (LatentNodeCRF).** For every model (hidden vertices with or without features), every graph with
`nv` visible and `nh` hidden vertices, every weight vector of the right size and every labelling that
gives visible vertices labels and hidden vertices hidden states: potentials and joint feature are
computed without error and weights times joint feature equals the energy of the labelling under the
potentials used by inference; both equal the score spelled out in `latentNodeScore`. -/
theorem C20_latent_node_energy (m : LatentNode.Model) (x : LatentNode.X) (w : Vec) (h : Labels)
    (nv : ℕ) (hF : x.features.cols = m.nFeatures)
    (hr : x.features.rows = if m.latentFeatures then nv + x.nHidden else nv)
    (hn : 0 < nv + x.nHidden) (hw : w.size = LatentNode.sizeJointFeature m)
    (hh : h.size = nv + x.nHidden) (hl : Legal nv x.nHidden m.nLabels m.nStates h.get)
    (he : Spec.EdgesIn (nv + x.nHidden) x.edges) :
    ∃ U P ψ, LatentNode.unaryPotentials m x w = .ok U ∧
      LatentNode.pairwisePotentials m x w = .ok P ∧
      LatentNode.jointFeature m x (.discrete h) = .ok ψ ∧
      ψ.size = LatentNode.sizeJointFeature m ∧
      w.dot ψ = computeEnergy U (.mat P) x.edges h ∧
      w.dot ψ = .ok (latentNodeScore m.nStates m.nLabels m.nFeatures m.latentFeatures
        x.features.get nv x.nHidden x.edges w.get h.get) := by
  have hS := states_pos hl hn
  have hv := hl.valid (nLabels_le m)
  obtain ⟨U, M, hU, hs⟩ := LatentNode.unary_ok hF hr hn hS hw
  have hrows : x.features.rows ≤ nv + x.nHidden := by rw [hr]; split <;> omega
  have hj : LatentNode.jointFeature m x (.discrete h) = .ok
      ((Mat.ravel ⟨m.nInput, x.features.cols, fun s f => ∑ i ∈ range x.features.rows,
        (if s = h.get i then 1 else 0) * x.features.get i f⟩).append
      ⟨Sym.tri m.nStates, fun k => Sym.mkSym (GraphCRF.hotPair x.edges h.get) (Sym.triRow k)
        (Sym.triCol k)⟩) := by
    unfold LatentNode.jointFeature
    rw [LatentNode.checkSizeX_ok hF, LatentNode.marginals_ok (by rw [hh]; exact hv)
      (by rw [hh]; exact he)]
    simp only [bind, Except.bind]
    rw [accumulate_ok (by simp only [hh]; exact hrows) (nInput_le m)]
    simp only
    rw [Sym.compressSym_ok _ m.nStates rfl rfl]
    rfl
  have hsz : ∀ g : ℕ → ℕ → ℚ, (Mat.ravel ⟨m.nInput, x.features.cols, g⟩).size =
      m.nInput * m.nFeatures := by
    intro g; unfold Mat.ravel; simp only [hF]
  have hdot : dot (LatentNode.sizeJointFeature m) w.get
      ((Mat.ravel ⟨m.nInput, x.features.cols, fun s f => ∑ i ∈ range x.features.rows,
        (if s = h.get i then 1 else 0) * x.features.get i f⟩).append
      ⟨Sym.tri m.nStates, fun k => Sym.mkSym (GraphCRF.hotPair x.edges h.get) (Sym.triRow k)
        (Sym.triCol k)⟩).get = latentNodeScore m.nStates m.nLabels m.nFeatures m.latentFeatures
        x.features.get nv x.nHidden x.edges w.get h.get := by
    unfold LatentNode.sizeJointFeature
    rw [dot_append_size _ _ _ _ (m.nStates * (m.nStates + 1) / 2) (hsz _) rfl,
      dot_unary m.nInput m.nFeatures x.features hF, dot_unary_legal hr hl]
    unfold latentNodeScore
    congr 1
    have := Sym.dot_compress m.nStates (fun k => w.get (m.nInput * m.nFeatures + k))
      (GraphCRF.hotPair x.edges h.get)
    refine this.trans ?_
    rw [GraphCRF.sum_hotPair m.nStates x.edges h.get (nv + x.nHidden) hv he]
    apply sum_congr rfl; intro e _
    exact LP_eq m w.get _ _
  refine ⟨U, _, _, hU, LatentNode.pairwise_ok hF hw, hj, ?_, ?_⟩
  · unfold Vec.append; simp only [hsz]; rfl
  have hvd : w.dot ((Mat.ravel ⟨m.nInput, x.features.cols, fun s f => ∑ i ∈ range x.features.rows,
        (if s = h.get i then 1 else 0) * x.features.get i f⟩).append
      ⟨Sym.tri m.nStates, fun k => Sym.mkSym (GraphCRF.hotPair x.edges h.get) (Sym.triRow k)
        (Sym.triCol k)⟩) = .ok (latentNodeScore m.nStates m.nLabels m.nFeatures m.latentFeatures
        x.features.get nv x.nHidden x.edges w.get h.get) := by
    unfold Vec.dot
    rw [if_pos (by rw [hw]; unfold Vec.append; simp only [hsz]; rfl), hw, hdot]
  rw [hvd]
  refine ⟨?_, rfl⟩
  symm
  rw [computeEnergy_ok U (.mat ⟨m.nStates, m.nStates, LP m w.get⟩) x.edges h
    ⟨x.edges.length, m.nStates, m.nStates, fun _ => LP m w.get⟩
    (by unfold validateParams; simp only [hs.cols, and_self, if_true])
    (by rw [hs.rows, hh]) (by rw [hs.rows, hs.cols]; exact hv) (by rw [hs.rows]; exact he)]
  congr 1
  unfold Spec.score latentNodeScore
  rw [hs.rows, unary_sum hs hl]
  congr 1
  apply sum_congr rfl; intro e _
  exact LP_eq m w.get _ _

/-- concrete instance: two labels, two hidden states, two visible vertices joined to a hidden one. -/
example : (do
    let m : LatentNode.Model := ⟨2, 2, 1, false⟩
    let x : LatentNode.X := ⟨⟨2, 1, fun i _ => i + 1⟩, [(0, 2), (1, 2)], 1⟩
    let w : Vec := ⟨12, fun k => k⟩
    let h : Labels := ⟨3, fun i => [1, 0, 3].getD i 0⟩
    let U ← LatentNode.unaryPotentials m x w
    let P ← LatentNode.pairwisePotentials m x w
    let e ← computeEnergy U (.mat P) x.edges h
    let d ← w.dot (← LatentNode.jointFeature m x (.discrete h))
    pure (e, d)) = (.ok (18, 18) : Except PyErr (ℚ × ℚ)) := by decide +kernel

example : Legal 2 1 2 4 (fun i => [1, 0, 3].getD i 0) := by
  constructor
  · decide
  · intro i h1 h2
    have : i = 2 := by omega
    subst this; decide

/-! ### EdgeFeatureLatentNodeCRF -/

/-- Score of a labelling of an `EdgeFeatureLatentNodeCRF`, spelled out. -/
def latentEdgeScore (S L F K : ℕ) (lf : Bool) (x : ℕ → ℕ → ℚ) (nv nh : ℕ) (edges : List (ℕ × ℕ))
    (ef : ℕ → ℕ → ℚ) (w : ℕ → ℚ) (h : ℕ → ℕ) : ℚ :=
  latentUnaryScore F lf x nv nh w h +
  ∑ e ∈ range edges.length, ∑ k ∈ range K,
    w ((if lf then S else L) * F + k * S ^ 2 + h (edges.getD e (0, 0)).1 * S +
      h (edges.getD e (0, 0)).2) * ef e k

/-- The edge weights behind position `o` have the declared symmetries. -/
def EdgeSymmetric (S o : ℕ) (sym anti : List ℕ) (w : ℕ → ℚ) : Prop :=
  (∀ k ∈ sym, ∀ a < S, ∀ b < S, w (o + k * S ^ 2 + a * S + b) = w (o + k * S ^ 2 + b * S + a)) ∧
  (∀ k ∈ anti, ∀ a < S, ∀ b < S, w (o + k * S ^ 2 + a * S + b) = -w (o + k * S ^ 2 + b * S + a))

/-- the model without unary features that has the same edge part. -/
abbrev edgePart (m : EModel) : EdgeFeature.Model := ⟨m.base.nStates, 0, m.nEdgeFeatures, m.sym, m.anti⟩

theorem eCheckSizeX_ok {m : EModel} {x : EX} (hF : x.features.cols = m.base.nFeatures)
    (hE : x.edgeFeatures.rows = x.edges.length) (hK : x.edgeFeatures.cols = m.nEdgeFeatures) :
    eCheckSizeX m x = .ok () := by
  unfold eCheckSizeX
  rw [if_neg (by omega), if_neg (by omega), if_neg (by omega)]

theorem eUnary_ok {m : EModel} {x : EX} {w : Vec} {nv : ℕ}
    (hF : x.features.cols = m.base.nFeatures)
    (hE : x.edgeFeatures.rows = x.edges.length) (hK : x.edgeFeatures.cols = m.nEdgeFeatures)
    (hr : x.features.rows = if m.base.latentFeatures then nv + x.nHidden else nv)
    (hn : 0 < nv + x.nHidden) (hS : 0 < m.base.nStates) (hw : w.size = eSize m) :
    ∃ U M, eUnary m x w = .ok U ∧ UnarySpec m.base x.features w.get nv x.nHidden U M := by
  obtain ⟨U, M, h, hs⟩ := unaryCore_ok (w := w.get) hF hr hn hS
  refine ⟨U, M, ?_, hs⟩
  unfold eUnary
  rw [GraphCRF.checkSizeW_ok hw, eCheckSizeX_ok hF hE hK]
  simp only [bind, Except.bind, Vec.slice, Vec.reshape2, Nat.sub_zero, Nat.zero_add, if_true]
  exact h

theorem ePairwise_ok {m : EModel} {x : EX} {w : Vec} (hF : x.features.cols = m.base.nFeatures)
    (hE : x.edgeFeatures.rows = x.edges.length) (hK : x.edgeFeatures.cols = m.nEdgeFeatures)
    (hpos : 0 < m.nEdgeFeatures) (hw : w.size = eSize m) :
    ∃ t, ePairwise m x w = .ok t ∧ t.d0 = x.edges.length ∧
      t.d1 = m.base.nStates ∧ t.d2 = m.base.nStates ∧
      ∀ e < x.edges.length, ∀ a < m.base.nStates, ∀ b < m.base.nStates,
        t.get e a b = EdgeFeature.EP (edgePart m) x.edgeFeatures
          (fun k => w.get (m.base.nInput * m.base.nFeatures + k)) e a b := by
  have hsz : w.size - m.base.nInput * m.base.nFeatures = m.nEdgeFeatures * m.base.nStates ^ 2 := by
    rw [hw]; unfold eSize; omega
  have := EdgeFeature.pairwise_ok (check := fun _ _ => .ok ()) (m := edgePart m)
    (x := ⟨⟨0, 0, fun _ _ => 0⟩, x.edges, x.edgeFeatures⟩)
    (w := w.slice (m.base.nInput * m.base.nFeatures) w.size) rfl hK hpos
    (by simp only [Vec.slice, EdgeFeature.sizeJointFeature, hsz]; omega)
  rw [hE] at this
  obtain ⟨t, ht, h⟩ := this
  refine ⟨t, ?_, h⟩
  rw [← ht]
  unfold ePairwise EdgeFeature.pairwisePotentials
  rw [GraphCRF.checkSizeW_ok hw, eCheckSizeX_ok hF hE hK, GraphCRF.checkSizeW_ok (by
    simp only [Vec.slice, EdgeFeature.sizeJointFeature, hsz]; omega)]
  simp only [bind, Except.bind, Vec.slice, Nat.mul_zero, Nat.zero_add, Nat.sub_zero]

theorem eMarginals_ok {S : ℕ} {x : EX} {h : Labels} (hv : Spec.Valid h.size S h.get)
    (he : Spec.EdgesIn h.size x.edges) (hne : x.edges ≠ []) :
    eMarginals S x (.discrete h) =
      .ok (⟨h.size, S, fun i s => if s = h.get i then 1 else 0⟩,
        ⟨x.edges.length, S ^ 2, fun e k =>
          (if k / S = h.get (edge x.edges e).1 then 1 else 0) *
            (if k % S = h.get (edge x.edges e).2 then 1 else 0)⟩) := by
  unfold eMarginals
  simp only [bind, Except.bind]
  rw [GraphCRF.oneHot_ok rfl hv]
  simp only
  have he' : ∀ e ∈ x.edges, e.1 < h.size ∧ e.2 < h.size := he
  rw [if_neg (not_not.mpr he'), if_neg hne]

/-- the edge part of weights times joint feature. -/
theorem dot_edge (m : EModel) (x : EX) (P : ℕ → ℕ → ℚ) (w : ℕ → ℚ)
    (hdis : ∀ i ∈ m.sym, i ∉ m.anti) :
    dot (m.nEdgeFeatures * m.base.nStates ^ 2) w (Mat.ravel ⟨m.nEdgeFeatures, m.base.nStates ^ 2,
      EdgeFeature.symmetrise m.base.nStates m.sym m.anti
      (fun r k => ∑ e ∈ range x.edgeFeatures.rows, x.edgeFeatures.get e r * P e k)⟩).get =
      ∑ e ∈ range x.edgeFeatures.rows, ∑ a ∈ range m.base.nStates, ∑ b ∈ range m.base.nStates,
        (∑ k ∈ range m.nEdgeFeatures, x.edgeFeatures.get e k *
          EdgeFeature.proj m.sym m.anti k (EdgeFeature.EW (edgePart m) w k) a b) *
          P e (a * m.base.nStates + b) := by
  have := EdgeFeature.dot_psi (edgePart m) ⟨⟨0, 0, fun _ _ => 0⟩, x.edges, x.edgeFeatures⟩
    (fun _ _ => 0) P w hdis
  simp only [range_zero, sum_empty, zero_add] at this
  rw [← this]
  unfold EdgeFeature.psi EdgeFeature.sizeJointFeature
  rw [dot_append_size _ _ _ ((edgePart m).nStates * (edgePart m).nFeatures)
    ((edgePart m).nEdgeFeatures * (edgePart m).nStates ^ 2) rfl rfl]
  simp only [Nat.mul_zero, Nat.zero_add]
  unfold dot
  rw [range_zero, sum_empty, zero_add]

/-- **C20 (EdgeFeatureLatentNodeCRF).** For every model accepted by its constructor, every graph with at
least one edge, every labelling that gives visible vertices labels and hidden vertices hidden states,
and every weight vector whose edge weights respect the declared symmetries: weights times joint feature
equals the energy of the labelling under the potentials used by inference; both equal the score spelled
out in `latentEdgeScore`. (Without declared symmetries every weight vector qualifies; with them see
`C20_violated_symmetric`. Without edges `joint_feature` raises, `C20_violated_no_edges`.) -/
theorem C20_edge_latent_node_energy_partial (m : EModel) (x : EX) (w : Vec) (h : Labels)
    (nv : ℕ) (hmod : eCheckModel m = .ok ())
    (hsa : ∀ i ∈ m.sym ++ m.anti, i < m.nEdgeFeatures)
    (hF : x.features.cols = m.base.nFeatures)
    (hE : x.edgeFeatures.rows = x.edges.length) (hK : x.edgeFeatures.cols = m.nEdgeFeatures)
    (hpos : 0 < m.nEdgeFeatures)
    (hr : x.features.rows = if m.base.latentFeatures then nv + x.nHidden else nv)
    (hne : x.edges ≠ []) (hw : w.size = eSize m)
    (hh : h.size = nv + x.nHidden) (hl : Legal nv x.nHidden m.base.nLabels m.base.nStates h.get)
    (he : Spec.EdgesIn (nv + x.nHidden) x.edges)
    (hsym : EdgeSymmetric m.base.nStates (m.base.nInput * m.base.nFeatures) m.sym m.anti w.get) :
    ∃ U P ψ, eUnary m x w = .ok U ∧ ePairwise m x w = .ok P ∧
      eJointFeature m x (.discrete h) = .ok ψ ∧ ψ.size = eSize m ∧
      w.dot ψ = computeEnergy U (.ten P) x.edges h ∧
      w.dot ψ = .ok (latentEdgeScore m.base.nStates m.base.nLabels m.base.nFeatures
        m.nEdgeFeatures m.base.latentFeatures x.features.get nv x.nHidden x.edges
        x.edgeFeatures.get w.get h.get) := by
  have hn : 0 < nv + x.nHidden := by
    rcases hed : x.edges with _ | ⟨e, es⟩
    · exact absurd hed hne
    · have := (he e (by rw [hed]; exact List.mem_cons_self)).1; omega
  have hdis : ∀ i ∈ m.sym, i ∉ m.anti := by
    unfold eCheckModel at hmod
    split at hmod
    · cases hmod
    · rename_i h1; exact not_not.mp h1
  have hS := states_pos hl hn
  have hv := hl.valid (nLabels_le m.base)
  obtain ⟨U, M, hU, hs⟩ := eUnary_ok hF hE hK hr hn hS hw
  obtain ⟨P, hP, hP0, hP1, hP2, hPe⟩ := ePairwise_ok hF hE hK hpos hw
  have hrows : x.features.rows ≤ nv + x.nHidden := by rw [hr]; split <;> omega
  set PM : ℕ → ℕ → ℚ := fun e k => (if k / m.base.nStates = h.get (edge x.edges e).1 then 1 else 0) *
    (if k % m.base.nStates = h.get (edge x.edges e).2 then 1 else 0) with hPM
  set ψ : Vec := (Mat.ravel ⟨m.base.nInput, x.features.cols, fun s f =>
      ∑ i ∈ range x.features.rows, (if s = h.get i then 1 else 0) * x.features.get i f⟩).append
      (Mat.ravel ⟨m.nEdgeFeatures, m.base.nStates ^ 2,
        EdgeFeature.symmetrise m.base.nStates m.sym m.anti
        (fun r k => ∑ e ∈ range x.edgeFeatures.rows, x.edgeFeatures.get e r * PM e k)⟩) with hψ
  have hj : eJointFeature m x (.discrete h) = .ok ψ := by
    unfold eJointFeature
    rw [eCheckSizeX_ok hF hE hK, eMarginals_ok (by rw [hh]; exact hv)
      (by rw [hh]; exact he) hne]
    simp only [bind, Except.bind, Mat.mul, Mat.T, hE, if_true, hK]
    rw [if_neg (not_not.mpr hsa), accumulate_ok (by simp only [hh]; exact hrows) (nInput_le m.base)]
    simp only [hψ, hE, hPM]
    rfl
  have hsz : ψ.size = eSize m := by
    rw [hψ]; unfold Vec.append Mat.ravel eSize; simp only [hF]
  have hdot : dot (eSize m) w.get ψ.get = latentEdgeScore m.base.nStates m.base.nLabels
        m.base.nFeatures m.nEdgeFeatures m.base.latentFeatures x.features.get nv x.nHidden x.edges
        x.edgeFeatures.get w.get h.get := by
    unfold eSize
    rw [hψ, dot_append_size _ _ _ (m.base.nInput * m.base.nFeatures)
      (m.nEdgeFeatures * m.base.nStates ^ 2) (by unfold Mat.ravel; simp only [hF]) rfl,
      dot_unary m.base.nInput m.base.nFeatures x.features hF, dot_unary_legal hr hl,
      dot_edge m x PM _ hdis]
    unfold latentEdgeScore
    congr 1
    rw [hE]
    apply sum_congr rfl; intro e hee
    have hm := he _ (edge_mem (mem_range.mp hee))
    have h1 := hv _ hm.1
    have h2 := hv _ hm.2
    have hb : ∀ a, ∀ W : ℕ → ℚ, ∑ b ∈ range m.base.nStates, W b * PM e (a * m.base.nStates + b) =
        W (h.get (edge x.edges e).2) * (if a = h.get (edge x.edges e).1 then 1 else 0) := by
      intro a W
      have : ∀ b ∈ range m.base.nStates, W b * PM e (a * m.base.nStates + b) =
          (W b * (if a = h.get (edge x.edges e).1 then 1 else 0)) *
            (if b = h.get (edge x.edges e).2 then 1 else 0) := by
        intro b hb
        rw [hPM]
        simp only
        rw [flat_div (mem_range.mp hb), flat_mod (mem_range.mp hb)]
        ring
      rw [sum_congr rfl this, sum_onehot' _ _ h2]
    rw [sum_congr rfl fun a _ => hb a _]
    rw [sum_onehot' _ _ h1 (fun a => ∑ k ∈ range m.nEdgeFeatures, x.edgeFeatures.get e k *
      EdgeFeature.proj m.sym m.anti k (EdgeFeature.EW (edgePart m) _ k) a
        (h.get (edge x.edges e).2))]
    apply sum_congr rfl; intro k _
    rw [mul_comm]
    congr 1
    have hEW : ∀ a b, EdgeFeature.EW (edgePart m)
        (fun k => w.get (m.base.nInput * m.base.nFeatures + k)) k a b =
        w.get (m.base.nInput * m.base.nFeatures + k * m.base.nStates ^ 2 + a * m.base.nStates + b) := by
      intro a b
      unfold EdgeFeature.EW
      simp only
      congr 1
      ring
    have : EdgeFeature.proj m.sym m.anti k (EdgeFeature.EW (edgePart m)
        (fun k => w.get (m.base.nInput * m.base.nFeatures + k)) k) (h.get (edge x.edges e).1)
        (h.get (edge x.edges e).2) =
        w.get (m.base.nInput * m.base.nFeatures + k * m.base.nStates ^ 2 +
          h.get (edge x.edges e).1 * m.base.nStates + h.get (edge x.edges e).2) := by
      unfold EdgeFeature.proj
      rw [hEW, hEW]
      split
      · rename_i hk
        rw [hsym.2 k hk _ h1 _ h2]; ring
      · split
        · rename_i hk
          rw [hsym.1 k hk _ h1 _ h2]; ring
        · rfl
    exact this
  refine ⟨U, P, ψ, hU, hP, hj, hsz, ?_⟩
  have hvd : w.dot ψ = .ok (latentEdgeScore m.base.nStates m.base.nLabels m.base.nFeatures
        m.nEdgeFeatures m.base.latentFeatures x.features.get nv x.nHidden x.edges
        x.edgeFeatures.get w.get h.get) := by
    unfold Vec.dot
    rw [if_pos (by rw [hw, hsz]), hw, hdot]
  rw [hvd]
  refine ⟨?_, rfl⟩
  symm
  rw [computeEnergy_ok U (.ten P) x.edges h P
    (by unfold validateParams; simp only [hs.cols, hP0, hP1, hP2, and_self, if_true])
    (by rw [hs.rows, hh]) (by rw [hs.rows, hs.cols]; exact hv) (by rw [hs.rows]; exact he)]
  congr 1
  unfold Spec.score latentEdgeScore
  rw [hs.rows, unary_sum hs hl]
  congr 1
  apply sum_congr rfl; intro e hee
  have hm := he _ (edge_mem (mem_range.mp hee))
  refine (hPe e (mem_range.mp hee) _ (hv _ hm.1) _ (hv _ hm.2)).trans ?_
  unfold EdgeFeature.EP EdgeFeature.EW
  apply sum_congr rfl; intro k _
  rw [mul_comm]
  congr 1
  have : m.base.nInput * m.base.nFeatures + (m.base.nStates * 0 + (k * m.base.nStates ^ 2 +
      (h.get (edge x.edges e).1 * m.base.nStates + h.get (edge x.edges e).2))) =
      (if m.base.latentFeatures then m.base.nStates else m.base.nLabels) * m.base.nFeatures +
        k * m.base.nStates ^ 2 + h.get (edge x.edges e).1 * m.base.nStates +
        h.get (edge x.edges e).2 := by
    unfold LatentNode.Model.nInput; ring
  exact congrArg w.get this

end Verif.Props
