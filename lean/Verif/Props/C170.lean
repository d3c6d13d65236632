import Verif.Props.C137
import Verif.Lemmas.EdgeNodeTraining
import Verif.Lemmas.EdgeOutputs
import Verif.Lemmas.Pushforward

/-!
# C170: relaxed labellings of models with hidden nodes
-/

namespace Verif.Props

open Finset Verif.Common Verif.Spec Verif.Learner Verif.LatentNode Verif.Lemmas Verif.Dispatch
open Verif.GraphCRF (Infer)

/-- Marginals that respect the kinds of nodes: no mass on hidden states at the first `nv` nodes, and none on labels at the following
`nh` nodes. -/
def LegalMass (nv nh L S : ℕ) (μ : ℕ → ℕ → ℚ) : Prop :=
  (∀ i < nv, ∀ s, L ≤ s → s < S → μ i s = 0) ∧ ∀ i, nv ≤ i → i < nv + nh → ∀ s < L, μ i s = 0

/-- A labelling respects the kinds of nodes exactly if its indicators do. -/
theorem legalMass_discrete {nv nh L S : ℕ} {h : Labels} (hv : Valid (nv + nh) S h.get)
    (hm : LegalMass nv nh L S (nodeMarg S (.discrete h))) : Legal nv nh L S h.get := by
  refine ⟨fun i hi => ?_, fun i h1 h2 => ⟨?_, hv i h2⟩⟩
  · by_contra hc
    have := hm.1 i hi (h.get i) (by omega) (hv i (by omega))
    simp [nodeMarg] at this
  · by_contra hc
    have := hm.2 i h1 h2 (h.get i) (by omega)
    simp [nodeMarg] at this

/-- on marginals that respect the kinds of nodes the penalties do not count. -/
theorem unary_mass {m : LatentNode.Model} {x : Mat} {w : ℕ → ℚ} {nv nh : ℕ} {U : Mat} {M : ℚ}
    (hU : UnarySpec m x w nv nh U M) (hr : x.rows = if m.latentFeatures then nv + nh else nv) {μ : ℕ → ℕ → ℚ}
    (hμ : LegalMass nv nh m.nLabels m.nStates μ) :
    ∑ i ∈ range (nv + nh), ∑ s ∈ range m.nStates, U.get i s * μ i s =
      ∑ i ∈ range x.rows, ∑ s ∈ range m.nInput, μ i s * ∑ f ∈ range m.nFeatures, x.get i f * w (s * m.nFeatures + f) := by
  have hL := nLabels_le m
  by_cases hl : m.latentFeatures = true
  · have hI : m.nInput = m.nStates := by unfold LatentNode.Model.nInput; simp [hl]
    rw [hr, if_pos hl, hI]
    refine sum_congr rfl fun i hi => sum_congr rfl fun s hs => ?_
    rw [mul_comm]
    have hi := mem_range.mp hi
    have hs := mem_range.mp hs
    by_cases h1 : i < nv <;> by_cases h2 : s < m.nLabels
    · rw [hU.visible i h1 s h2]
      rfl
    · rw [hμ.1 i h1 s (by omega) hs, zero_mul, zero_mul]
    · rw [hμ.2 i (by omega) hi s h2, zero_mul, zero_mul]
    · rw [hU.hidden i (by omega) hi s (by omega) hs, if_pos hl]
      rfl
  · have hI : m.nInput = m.nLabels := by unfold LatentNode.Model.nInput; simp [hl]
    rw [hr, if_neg hl, hI, sum_range_add]
    have h0 : ∑ i ∈ range nh, ∑ s ∈ range m.nStates, U.get (nv + i) s * μ (nv + i) s = 0 := by
      refine sum_eq_zero fun i hi => sum_eq_zero fun s hs => ?_
      have hi := mem_range.mp hi
      have hs := mem_range.mp hs
      by_cases h2 : s < m.nLabels
      · rw [hμ.2 _ (by omega) (by omega) s h2, mul_zero]
      · rw [hU.hidden _ (by omega) (by omega) s (by omega) hs, if_neg hl, zero_mul]
    rw [h0, add_zero]
    refine sum_congr rfl fun i hi => ?_
    have hi := mem_range.mp hi
    rw [← sum_subset (range_mono hL) fun s hs hs' => by
      rw [hμ.1 i hi s (by simpa using hs') (mem_range.mp hs), mul_zero]]
    refine sum_congr rfl fun s hs => ?_
    rw [hU.visible i hi s (mem_range.mp hs), mul_comm]
    rfl

/-! ### `LatentNodeCRF` -/

theorem node_marginals_relaxed {S n E : ℕ} {edges : Edges} {u p : Vec} (hS : 1 ≤ S) (hu : u.size = n * S) (hp : p.size = E * S ^ 2) :
    LatentNode.marginals S edges (.relaxed u p) = .ok (⟨n, S, fun i s => u.get (i * S + s)⟩,
      ⟨S, S, fun a b => ∑ e ∈ range E, p.get ((e * S + a) * S + b)⟩) := by
  have hpos : 0 < S * S := Nat.mul_pos hS hS
  have h1 : p.size / (S * S) = E := by rw [hp, pow_two, Nat.mul_div_cancel _ hpos]
  have h2 : p.size % (S * S) = 0 := by rw [hp, pow_two, Nat.mul_mod_left]
  have h3 : u.size / S = n := by rw [hu, Nat.mul_div_cancel _ hS]
  unfold LatentNode.marginals
  simp only [bind, Except.bind, Vec.reshape2, GraphCRF.reshapeInfer]
  rw [h3, if_pos hu]
  simp only
  rw [if_neg (by omega), if_neg (by omega), h1]
  simp only [Vec.reshape3]
  rw [if_pos (by rw [hp]; ring)]
  rfl

/-- **C170 (LatentNodeCRF).** For arbitrary marginals (not necessarily in the local polytope) that put no mass on hidden states of
visible nodes or on labels of hidden nodes, weights times joint feature is the linear objective of the potentials used by inference. -/
theorem C170_node_energy (m : LatentNode.Model) (x : LatentNode.X) (w : Vec) (nv : ℕ) (hF : x.features.cols = m.nFeatures)
    (hr : x.features.rows = if m.latentFeatures then nv + x.nHidden else nv) (hn : 0 < nv + x.nHidden) (hS : 1 ≤ m.nStates)
    (hw : w.size = LatentNode.sizeJointFeature m) (u p : Vec) (hu : u.size = (nv + x.nHidden) * m.nStates)
    (hp : p.size = x.edges.length * m.nStates ^ 2)
    (hμ : LegalMass nv x.nHidden m.nLabels m.nStates (nodeMarg m.nStates (.relaxed u p))) :
    ∃ U P ψ, LatentNode.unaryPotentials m x w = .ok U ∧ LatentNode.pairwisePotentials m x w = .ok P ∧
      LatentNode.jointFeature m x (.relaxed u p) = .ok ψ ∧ ψ.size = LatentNode.sizeJointFeature m ∧
      w.dot ψ = .ok (outputScore (nv + x.nHidden) m.nStates x.edges U.get P.get (.relaxed u p)) := by
  obtain ⟨U, M, hU, hs⟩ := LatentNode.unary_ok hF hr hn hS hw
  have hrows : x.features.rows ≤ nv + x.nHidden := by rw [hr]; split <;> omega
  have hj : LatentNode.jointFeature m x (.relaxed u p) = .ok
      ((Mat.ravel ⟨m.nInput, x.features.cols, fun s f => ∑ i ∈ range x.features.rows,
        u.get (i * m.nStates + s) * x.features.get i f⟩).append
      ⟨Sym.tri m.nStates, fun k => Sym.mkSym (fun a b => ∑ e ∈ range x.edges.length, p.get ((e * m.nStates + a) * m.nStates + b))
        (Sym.triRow k) (Sym.triCol k)⟩) := by
    unfold LatentNode.jointFeature
    rw [LatentNode.checkSizeX_ok hF, node_marginals_relaxed hS hu hp]
    simp only [bind, Except.bind]
    rw [accumulate_ok (by simp only; exact hrows) (nInput_le m)]
    simp only
    rw [Sym.compressSym_ok _ m.nStates rfl rfl]
    rfl
  have hsz : ∀ g : ℕ → ℕ → ℚ, (Mat.ravel ⟨m.nInput, x.features.cols, g⟩).size = m.nInput * m.nFeatures := by
    intro g; unfold Mat.ravel; simp only [hF]
  refine ⟨U, _, _, hU, LatentNode.pairwise_ok hF hw, hj, ?_, ?_⟩
  · unfold Vec.append; simp only [hsz]; rfl
  unfold Vec.dot
  rw [if_pos (by rw [hw]; unfold Vec.append; simp only [hsz]; rfl), hw]
  congr 1
  unfold LatentNode.sizeJointFeature
  rw [dot_append_size _ _ _ _ (m.nStates * (m.nStates + 1) / 2) (hsz _) rfl,
    dot_unary m.nInput m.nFeatures x.features hF (fun i s => u.get (i * m.nStates + s))]
  unfold outputScore marginalScore
  rw [unary_mass hs hr hμ]
  refine congrArg₂ (· + ·) rfl ?_
  refine (Sym.dot_compress m.nStates (fun k => w.get (m.nInput * m.nFeatures + k))
    (fun a b => ∑ e ∈ range x.edges.length, p.get ((e * m.nStates + a) * m.nStates + b))).trans ?_
  simp only [mul_sum]
  rw [sum_congr rfl fun a _ => sum_comm, sum_comm]
  rfl

/-- scores of outputs that respect the kinds of nodes. -/
theorem node_output_value {backend : Bool → Infer} {cw : Vec} {m : LatentNode.Model} {x : LatentNode.X} {a : ℕ}
    (hF : x.features.cols = m.nFeatures) (hr : x.features.rows = if m.latentFeatures then a + x.nHidden else a) (ha : 1 ≤ a)
    (hS : 1 ≤ m.nStates) (hE : EdgesIn (a + x.nHidden) x.edges) {v : YVal} (hv : IsRelaxed (a + x.nHidden) m.nStates x.edges v)
    (hl : LegalMass a x.nHidden m.nLabels m.nStates (nodeMarg m.nStates v)) (w : ℕ → ℚ) {U : Mat} {M : ℚ}
    (hU : UnarySpec m x.features w a x.nHidden U M)
    (hUm : LatentNode.unaryPotentials m x ⟨sizeJointFeature m, w⟩ = .ok U) :
    dot (sizeJointFeature m) w ((latentNodeModel backend cw m).jointFeature x v) =
      outputScore (a + x.nHidden) m.nStates x.edges U.get (LP m w) v := by
  rcases hv with ⟨h, rfl, hs, hv⟩ | ⟨u, p, rfl, hu, hp, -⟩
  · have := node_value (backend := backend) (cw := cw) (outputs := fun _ => ∅) hF hr ha hs (legalMass_discrete hv hl) hE
      (.discrete h) w hU
    rw [outputScore_labelling hE hv]
    exact this
  · obtain ⟨U', P, ψ, h1, h2, h3, h4, h5⟩ := C170_node_energy m x ⟨sizeJointFeature m, w⟩ a hF hr (by omega) hS rfl u p hu hp hl
    rw [hUm] at h1
    rw [LatentNode.pairwise_ok hF rfl] at h2
    cases h1
    cases h2
    change dot (sizeJointFeature m) w (okD _ (LatentNode.jointFeature m x (.relaxed u p))).get = _
    rw [h3]
    unfold Vec.dot at h5
    rw [if_pos h4.symm] at h5
    exact Except.ok.inj h5

/-- the loss of an output that respects the kinds of nodes. -/
theorem node_output_loss {L S a b : ℕ} {cw : Vec} (hLS : L ≤ S) (hS : 1 ≤ S) (hcw : cw.size = L) {edges : Edges} {t : Labels} (ts : t.size = a + b)
    (tl : Legal a b L S t.get) {v : YVal} (hv : IsRelaxed (a + b) S edges v) (hl : LegalMass a b L S (nodeMarg S v)) :
    (if nodeTuple v then nodeContinuousLoss L S cw (.discrete t) v else nodeLoss L S cw (.discrete t) v) =
      marginalLoss a cw.get S t.get v := by
  rcases hv with ⟨h, rfl, hs, hv⟩ | ⟨u, p, rfl, hu, hp, -⟩
  · change nodeLoss L S cw (.discrete t) (.discrete h) = _
    rw [node_loss_ok hcw ts hs tl (legalMass_discrete hv hl)]
    unfold weightedHamming marginalLoss nodeMarg
    refine sum_congr rfl fun i _ => ?_
    simp only
    by_cases he : t.get i = h.get i
    · rw [if_pos he, if_pos he]; ring
    · rw [if_neg he, if_neg he]; ring
  · change okD 0 (LatentNode.continuousLoss L cw t _) = _
    have h3 : u.size / S = a + b := by rw [hu, Nat.mul_div_cancel _ hS]
    rw [h3, C137_node_continuous_loss a b L S cw t hcw ts tl _ (by simp only; omega) (by simp only; omega)]
    rfl

theorem relaxed_normalised {n S : ℕ} {edges : Edges} {v : YVal} (hv : IsRelaxed n S edges v) :
    ∀ i < n, ∑ s ∈ range S, nodeMarg S v i s = 1 := by
  intro i hi
  rcases hv with ⟨h, rfl, hs, hv⟩ | ⟨u, p, rfl, hu, hp, hpoly⟩
  · unfold nodeMarg
    simp [mem_range.mpr (hv i hi)]
  · exact hpoly.normalised i hi

/-- augmentation at visible nodes adds the loss. -/
theorem augmented_edgeScore {S a b : ℕ} {edges : Edges} (U : ℕ → ℕ → ℚ) (P : ℕ → ℕ → ℕ → ℚ) (c : ℕ → ℚ) (t : ℕ → ℕ)
    (ht : ∀ i < a, t i < S) {v : YVal} (hv : ∀ i < a + b, ∑ s ∈ range S, nodeMarg S v i s = 1) :
    edgeScore (a + b) S edges (augmented S a c t U) P v = edgeScore (a + b) S edges U P v + marginalLoss a c S t v := by
  unfold edgeScore marginalScore marginalLoss
  have hA : ∑ i ∈ range a, ∑ s ∈ range S, augmented S a c t U i s * nodeMarg S v i s =
      ∑ i ∈ range a, ∑ s ∈ range S, U i s * nodeMarg S v i s + ∑ i ∈ range a, c (t i) * (1 - nodeMarg S v i (t i)) := by
    rw [← sum_add_distrib]
    refine sum_congr rfl fun i hi => ?_
    have hi := mem_range.mp hi
    have e : ∀ s ∈ range S, augmented S a c t U i s * nodeMarg S v i s = U i s * nodeMarg S v i s + c (t i) * nodeMarg S v i s -
        c (t i) * (nodeMarg S v i s * if s = t i then 1 else 0) := by
      intro s hs
      unfold augmented
      by_cases heq : s = t i
      · rw [if_neg (by simp [heq]), if_pos heq]
        ring
      · rw [if_pos ⟨mem_range.mp hs, hi, fun H => heq H.symm⟩, if_neg heq]
        ring
    rw [sum_congr rfl e, sum_sub_distrib, sum_add_distrib, ← mul_sum, ← mul_sum, hv i (by omega)]
    have h3 : ∑ s ∈ range S, nodeMarg S v i s * (if s = t i then (1 : ℚ) else 0) = nodeMarg S v i (t i) := by
      simp [mem_range.mpr (ht i hi)]
    rw [h3]
    ring
  have hB : ∑ i ∈ range b, ∑ s ∈ range S, augmented S a c t U (a + i) s * nodeMarg S v (a + i) s =
      ∑ i ∈ range b, ∑ s ∈ range S, U (a + i) s * nodeMarg S v (a + i) s := by
    refine sum_congr rfl fun i _ => sum_congr rfl fun s _ => ?_
    unfold augmented
    rw [if_neg (by omega)]
  rw [sum_range_add, sum_range_add, hA, hB]
  ring

/-- **C170 (LatentNodeCRF, relaxed inference).** With a method that solves the relaxation, relaxed inference returns a labelling or a
point of the local polytope; if that respects the kinds of nodes, it has the largest weights times joint feature among all labellings and
points of the local polytope which do. -/
theorem C170_node_inference (inf : Infer) (m : LatentNode.Model) (x : LatentNode.X) (w : ℕ → ℚ) (nv : ℕ) (hnv : 1 ≤ nv)
    (hF : x.features.cols = m.nFeatures) (hr : x.features.rows = if m.latentFeatures then nv + x.nHidden else nv)
    (hS : 1 ≤ m.nStates) (hE : EdgesIn (nv + x.nHidden) x.edges) (hsolve : SolvesOver m.nStates (relaxedOutputs m.nStates) inf)
    (cw : Vec) (backend : Bool → Infer) :
    let M := latentNodeModel backend cw m
    ∃ o, nodeInference inf m x ⟨M.dim, w⟩ = .ok o ∧ IsRelaxed (nv + x.nHidden) m.nStates x.edges o ∧
      (LegalMass nv x.nHidden m.nLabels m.nStates (nodeMarg m.nStates o) →
        ∀ v, IsRelaxed (nv + x.nHidden) m.nStates x.edges v → LegalMass nv x.nHidden m.nLabels m.nStates (nodeMarg m.nStates v) →
          dot M.dim w (M.jointFeature x v) ≤ dot M.dim w (M.jointFeature x o)) := by
  intro M
  obtain ⟨U, K, hU, hs⟩ := LatentNode.unary_ok (w := ⟨sizeJointFeature m, w⟩) hF hr (by omega) hS rfl
  obtain ⟨o, ho, h1, h2⟩ := hsolve (nv + x.nHidden) x.edges (by omega) hE (relaxed_nonempty hS x.edges) U.get (LP m w)
  refine ⟨o, ?_, ho, fun hl v hv hvl => ?_⟩
  · unfold nodeInference
    change ((GraphCRF.checkSizeW (sizeJointFeature m) ⟨sizeJointFeature m, w⟩).bind fun _ =>
      (LatentNode.unaryPotentials m x ⟨sizeJointFeature m, w⟩).bind fun U =>
      (LatentNode.pairwisePotentials m x ⟨sizeJointFeature m, w⟩).bind fun P => inf U (.mat P) x.edges) = _
    rw [GraphCRF.checkSizeW_ok (w := ⟨sizeJointFeature m, w⟩) rfl, hU, LatentNode.pairwise_ok hF rfl]
    simp only [Except.bind]
    rw [← h1, ← hs.rows, ← hs.cols]
  · change dot (sizeJointFeature m) w _ ≤ dot (sizeJointFeature m) w _
    rw [node_output_value hF hr hnv hS hE hv hvl w hs hU, node_output_value hF hr hnv hS hE ho hl w hs hU]
    exact h2 v hv

/-- **C170 (LatentNodeCRF, relaxed loss-augmented inference).** The same with the loss added. -/
theorem C170_node_loss_augmented (backend : Bool → Infer) (relaxed : Bool) (m : LatentNode.Model) (x : LatentNode.X) (w : ℕ → ℚ)
    (nv : ℕ) (hnv : 1 ≤ nv) (hF : x.features.cols = m.nFeatures)
    (hr : x.features.rows = if m.latentFeatures then nv + x.nHidden else nv)
    (hE : EdgesIn (nv + x.nHidden) x.edges) (hsolve : SolvesOver m.nStates (relaxedOutputs m.nStates) (backend relaxed))
    (cw : Vec) (hcw : cw.size = m.nLabels) (t : Labels) (ts : t.size = nv + x.nHidden)
    (tl : Legal nv x.nHidden m.nLabels m.nStates t.get) :
    let M := latentNodeModel backend cw m
    let o := M.lossAug x (.discrete t) w relaxed
    IsRelaxed (nv + x.nHidden) m.nStates x.edges o ∧
      (LegalMass nv x.nHidden m.nLabels m.nStates (nodeMarg m.nStates o) →
        ∀ v, IsRelaxed (nv + x.nHidden) m.nStates x.edges v → LegalMass nv x.nHidden m.nLabels m.nStates (nodeMarg m.nStates v) →
          dot M.dim w (M.jointFeature x v) + M.lossOf (.discrete t) v ≤
            dot M.dim w (M.jointFeature x o) + M.lossOf (.discrete t) o) := by
  intro M o
  have hS := states_pos tl (by omega)
  obtain ⟨U, K, hU, hs⟩ := LatentNode.unary_ok (w := ⟨sizeJointFeature m, w⟩) hF hr (by omega) hS rfl
  obtain ⟨z, hz, h1, h2⟩ := hsolve (nv + x.nHidden) x.edges (by omega) hE (relaxed_nonempty hS x.edges)
    (augmented m.nStates nv cw.get t.get U.get) (LP m w)
  have ho : o = z := by
    change okD _ (LatentNode.lossAugmentedInference (backend relaxed) cw m x t ⟨sizeJointFeature m, w⟩) = _
    unfold LatentNode.lossAugmentedInference
    rw [GraphCRF.checkSizeW_ok (w := ⟨sizeJointFeature m, w⟩) rfl, hU, LatentNode.pairwise_ok hF rfl]
    simp only [bind, Except.bind]
    rw [augment_legal hcw ts tl hs.rows]
    simp only
    rw [hs.rows, hs.cols, h1]
    rfl
  rw [ho]
  refine ⟨hz, fun hl v hv hvl => ?_⟩
  have e : ∀ v, IsRelaxed (nv + x.nHidden) m.nStates x.edges v → LegalMass nv x.nHidden m.nLabels m.nStates (nodeMarg m.nStates v) →
      dot M.dim w (M.jointFeature x v) + M.lossOf (.discrete t) v =
        outputScore (nv + x.nHidden) m.nStates x.edges (augmented m.nStates nv cw.get t.get U.get) (LP m w) v := by
    intro v hv hvl
    have h3 := node_output_value (backend := backend) (cw := cw) hF hr hnv hS hE hv hvl w hs hU
    have h4 := node_output_loss (nLabels_le m) hS hcw ts tl hv hvl
    have h5 := augmented_edgeScore (edges := x.edges) U.get (fun _ => LP m w) cw.get t.get
      (fun i hi => lt_of_lt_of_le (tl.1 i hi) (nLabels_le m)) (relaxed_normalised hv)
    change dot (sizeJointFeature m) w _ + (if nodeTuple v then nodeContinuousLoss m.nLabels m.nStates cw (.discrete t) v
      else nodeLoss m.nLabels m.nStates cw (.discrete t) v) = _
    rw [h3, h4]
    exact h5.symm
  rw [e v hv hvl, e z hz hl]
  exact h2 v hv

/-! ### `EdgeFeatureLatentNodeCRF` -/

theorem edge_node_marginals_relaxed {S n : ℕ} {x : EX} {u p : Vec} (hS : 1 ≤ S) (hu : u.size = n * S)
    (hp : p.size = x.edgeFeatures.rows * S ^ 2) :
    eMarginals S x (.relaxed u p) = .ok (⟨n, S, fun i s => u.get (i * S + s)⟩,
      ⟨x.edgeFeatures.rows, S ^ 2, fun e k => p.get (e * S ^ 2 + k)⟩) := by
  have h3 : u.size / S = n := by rw [hu, Nat.mul_div_cancel _ hS]
  unfold eMarginals
  simp only [bind, Except.bind, Vec.reshape2]
  rw [h3, if_pos hu]
  simp only
  rw [if_pos hp]
  rfl

/-- the declared symmetries of the weights. -/
theorem symmetric_proj {m : EModel} {w : ℕ → ℚ} (hsym : NodeSymmetric m w) {k a b : ℕ}
    (ha : a < m.base.nStates) (hb : b < m.base.nStates) :
    EdgeFeature.proj m.sym m.anti k (EdgeFeature.EW (edgePart m) (fun k => w (m.base.nInput * m.base.nFeatures + k)) k) a b =
      EdgeFeature.EW (edgePart m) (fun k => w (m.base.nInput * m.base.nFeatures + k)) k a b := by
  have hEW : ∀ a b, EdgeFeature.EW (edgePart m) (fun k => w (m.base.nInput * m.base.nFeatures + k)) k a b =
      w (m.base.nInput * m.base.nFeatures + k * m.base.nStates ^ 2 + a * m.base.nStates + b) := by
    intro a b
    unfold EdgeFeature.EW
    simp only
    congr 1
    ring
  unfold EdgeFeature.proj
  rw [hEW, hEW]
  split
  · rename_i hk
    rw [hsym.2 k hk a ha b hb]
    ring
  · split
    · rename_i hk
      rw [hsym.1 k hk a ha b hb]
      ring
    · rfl

/-- **C170 (EdgeFeatureLatentNodeCRF).** The same for weights with the declared symmetries (without declared symmetries every weight
vector qualifies; with them see `C20_violated_symmetric`). Unlike for labellings, there need not be any edges. -/
theorem C170_edge_node_energy (m : EModel) (hm : EdgeNodeModel m) (x : EX) (w : Vec) (nv : ℕ)
    (hF : x.features.cols = m.base.nFeatures) (hE : x.edgeFeatures.rows = x.edges.length)
    (hK : x.edgeFeatures.cols = m.nEdgeFeatures) (hr : x.features.rows = if m.base.latentFeatures then nv + x.nHidden else nv)
    (hn : 0 < nv + x.nHidden) (hS : 1 ≤ m.base.nStates) (hw : w.size = eSize m) (u p : Vec)
    (hu : u.size = (nv + x.nHidden) * m.base.nStates) (hp : p.size = x.edges.length * m.base.nStates ^ 2)
    (hμ : LegalMass nv x.nHidden m.base.nLabels m.base.nStates (nodeMarg m.base.nStates (.relaxed u p)))
    (hsym : EdgeSymmetric m.base.nStates (m.base.nInput * m.base.nFeatures) m.sym m.anti w.get) :
    ∃ U P ψ, eUnary m x w = .ok U ∧ ePairwise m x w = .ok P ∧ eJointFeature m x (.relaxed u p) = .ok ψ ∧ ψ.size = eSize m ∧
      w.dot ψ = .ok (edgeScore (nv + x.nHidden) m.base.nStates x.edges U.get P.get (.relaxed u p)) := by
  have hdis : ∀ i ∈ m.sym, i ∉ m.anti := by
    have hmod := hm.disjoint
    unfold eCheckModel at hmod
    split at hmod
    · cases hmod
    · rename_i h1; exact not_not.mp h1
  obtain ⟨U, M, hU, hs⟩ := eUnary_ok hF hE hK hr hn hS hw
  obtain ⟨P, hP, hP0, hP1, hP2, hPe⟩ := ePairwise_ok hF hE hK hm.features hw
  have hrows : x.features.rows ≤ nv + x.nHidden := by rw [hr]; split <;> omega
  set PM : ℕ → ℕ → ℚ := fun e k => p.get (e * m.base.nStates ^ 2 + k) with hPM
  set ψ : Vec := (Mat.ravel ⟨m.base.nInput, x.features.cols, fun s f =>
      ∑ i ∈ range x.features.rows, u.get (i * m.base.nStates + s) * x.features.get i f⟩).append
      (Mat.ravel ⟨m.nEdgeFeatures, m.base.nStates ^ 2,
        EdgeFeature.symmetrise m.base.nStates m.sym m.anti
        (fun r k => ∑ e ∈ range x.edgeFeatures.rows, x.edgeFeatures.get e r * PM e k)⟩) with hψ
  have hj : eJointFeature m x (.relaxed u p) = .ok ψ := by
    unfold eJointFeature
    rw [eCheckSizeX_ok hF hE hK, edge_node_marginals_relaxed hS hu (by rw [hE]; exact hp)]
    simp only [bind, Except.bind, Mat.mul, Mat.T, hE, if_true, hK]
    rw [if_neg (not_not.mpr hm.declared), accumulate_ok (by simp only; exact hrows) (nInput_le m.base)]
    simp only [hψ, hE, hPM]
    rfl
  have hsz : ψ.size = eSize m := by
    rw [hψ]; unfold Vec.append Mat.ravel eSize; simp only [hF]
  refine ⟨U, P, ψ, hU, hP, hj, hsz, ?_⟩
  unfold Vec.dot
  rw [if_pos (by rw [hw, hsz]), hw]
  congr 1
  unfold eSize
  rw [hψ, dot_append_size _ _ _ (m.base.nInput * m.base.nFeatures)
    (m.nEdgeFeatures * m.base.nStates ^ 2) (by unfold Mat.ravel; simp only [hF]) rfl,
    dot_unary m.base.nInput m.base.nFeatures x.features hF (fun i s => u.get (i * m.base.nStates + s)), dot_edge m x PM _ hdis]
  unfold edgeScore marginalScore
  rw [unary_mass hs hr hμ, hE]
  refine congrArg₂ (· + ·) rfl ?_
  refine sum_congr rfl fun e he => sum_congr rfl fun a ha => sum_congr rfl fun b hb => ?_
  have ha := mem_range.mp ha
  have hb := mem_range.mp hb
  rw [hPe e (mem_range.mp he) a ha b hb, sum_congr rfl fun k _ => by rw [symmetric_proj hsym ha hb]]
  unfold EdgeFeature.EP edgeMarg
  simp only [hPM]
  congr 2
  ring

/-- scores of outputs that respect the kinds of nodes. -/
theorem edge_node_output_value {backend : Bool → Infer} {cw : Vec} {m : EModel} (hm : EdgeNodeModel m) {x : EX} {a : ℕ}
    (hF : x.features.cols = m.base.nFeatures) (hEf : x.edgeFeatures.rows = x.edges.length)
    (hK : x.edgeFeatures.cols = m.nEdgeFeatures) (hne : x.edges ≠ [])
    (hr : x.features.rows = if m.base.latentFeatures then a + x.nHidden else a) (ha : 1 ≤ a)
    (hS : 1 ≤ m.base.nStates) (hE : EdgesIn (a + x.nHidden) x.edges) {v : YVal}
    (hv : IsRelaxed (a + x.nHidden) m.base.nStates x.edges v)
    (hl : LegalMass a x.nHidden m.base.nLabels m.base.nStates (nodeMarg m.base.nStates v)) (w : ℕ → ℚ) (hw : NodeSymmetric m w)
    {U : Mat} {T : Ten} {M : ℚ} (hU : UnarySpec m.base x.features w a x.nHidden U M)
    (hUm : eUnary m x ⟨eSize m, w⟩ = .ok U) (hTm : ePairwise m x ⟨eSize m, w⟩ = .ok T) :
    dot (eSize m) w ((edgeLatentNodeModel backend cw m).jointFeature x v) =
      edgeScore (a + x.nHidden) m.base.nStates x.edges U.get T.get v := by
  rcases hv with ⟨h, rfl, hs, hv⟩ | ⟨u, p, rfl, hu, hp, -⟩
  · obtain ⟨P, hP, hP0, hP1, hP2, hPe⟩ := ePairwise_ok (w := ⟨eSize m, w⟩) hF hEf hK hm.features rfl
    rw [hTm] at hP
    cases hP
    have := edgeNode_value (backend := backend) (cw := cw) (outputs := fun _ => ∅) hm hF hEf hK hne hr hs (legalMass_discrete hv hl) hE
      (.discrete h) w hw hU hPe
    rw [edgeScore_labelling hE hv]
    exact this
  · obtain ⟨U', P, ψ, h1, h2, h3, h4, h5⟩ := C170_edge_node_energy m hm x ⟨eSize m, w⟩ a hF hEf hK hr (by omega) hS rfl u p hu
      hp hl hw
    rw [hUm] at h1
    rw [hTm] at h2
    cases h1
    cases h2
    change dot (eSize m) w (okD _ (eJointFeature m x (.relaxed u p))).get = _
    rw [h3]
    unfold Vec.dot at h5
    rw [if_pos h4.symm] at h5
    exact Except.ok.inj h5

/-- **C170 (EdgeFeatureLatentNodeCRF, relaxed inference).** -/
theorem C170_edge_node_inference (inf : Infer) (m : EModel) (hm : EdgeNodeModel m) (x : EX) (w : ℕ → ℚ) (hw : NodeSymmetric m w)
    (nv : ℕ) (hnv : 1 ≤ nv) (hF : x.features.cols = m.base.nFeatures) (hEf : x.edgeFeatures.rows = x.edges.length)
    (hK : x.edgeFeatures.cols = m.nEdgeFeatures) (hne : x.edges ≠ [])
    (hr : x.features.rows = if m.base.latentFeatures then nv + x.nHidden else nv)
    (hS : 1 ≤ m.base.nStates) (hE : EdgesIn (nv + x.nHidden) x.edges)
    (hsolve : SolvesEdges m.base.nStates (relaxedOutputs m.base.nStates) inf) (cw : Vec) (backend : Bool → Infer) :
    let M := edgeLatentNodeModel backend cw m
    ∃ o, edgeNodeInference inf m x ⟨M.dim, w⟩ = .ok o ∧ IsRelaxed (nv + x.nHidden) m.base.nStates x.edges o ∧
      (LegalMass nv x.nHidden m.base.nLabels m.base.nStates (nodeMarg m.base.nStates o) →
        ∀ v, IsRelaxed (nv + x.nHidden) m.base.nStates x.edges v →
          LegalMass nv x.nHidden m.base.nLabels m.base.nStates (nodeMarg m.base.nStates v) →
          dot M.dim w (M.jointFeature x v) ≤ dot M.dim w (M.jointFeature x o)) := by
  intro M
  obtain ⟨U, K, hU, hs⟩ := eUnary_ok (w := ⟨eSize m, w⟩) hF hEf hK hr (by omega) hS rfl
  obtain ⟨T, hT, hT0, hT1, hT2, -⟩ := ePairwise_ok (w := ⟨eSize m, w⟩) hF hEf hK hm.features rfl
  obtain ⟨d0, d1, d2, P⟩ := T
  simp only at hT0 hT1 hT2
  subst hT0 hT1 hT2
  obtain ⟨o, ho, h1, h2⟩ := hsolve (nv + x.nHidden) x.edges (by omega) hE (relaxed_nonempty hS x.edges) U.get P
  refine ⟨o, ?_, ho, fun hl v hv hvl => ?_⟩
  · unfold edgeNodeInference
    change ((GraphCRF.checkSizeW (eSize m) ⟨eSize m, w⟩).bind fun _ => (eUnary m x ⟨eSize m, w⟩).bind fun U =>
      (ePairwise m x ⟨eSize m, w⟩).bind fun P => inf U (.ten P) x.edges) = _
    rw [GraphCRF.checkSizeW_ok (w := ⟨eSize m, w⟩) rfl, hU, hT]
    simp only [Except.bind]
    rw [← h1]
    obtain ⟨r, c, g⟩ := U
    have e1 := hs.rows
    have e2 := hs.cols
    simp only at e1 e2
    rw [e1, e2]
  · change dot (eSize m) w _ ≤ dot (eSize m) w _
    rw [edge_node_output_value hm hF hEf hK hne hr hnv hS hE hv hvl w hw hs hU hT,
      edge_node_output_value hm hF hEf hK hne hr hnv hS hE ho hl w hw hs hU hT]
    exact h2 v hv

/-- **C170 (EdgeFeatureLatentNodeCRF, relaxed loss-augmented inference).** -/
theorem C170_edge_node_loss_augmented (backend : Bool → Infer) (relaxed : Bool) (m : EModel) (hm : EdgeNodeModel m) (x : EX)
    (w : ℕ → ℚ) (hw : NodeSymmetric m w) (nv : ℕ) (hnv : 1 ≤ nv) (hF : x.features.cols = m.base.nFeatures)
    (hEf : x.edgeFeatures.rows = x.edges.length) (hK : x.edgeFeatures.cols = m.nEdgeFeatures) (hne : x.edges ≠ [])
    (hr : x.features.rows = if m.base.latentFeatures then nv + x.nHidden else nv) (hE : EdgesIn (nv + x.nHidden) x.edges)
    (hsolve : SolvesEdges m.base.nStates (relaxedOutputs m.base.nStates) (backend relaxed))
    (cw : Vec) (hcw : cw.size = m.base.nLabels) (t : Labels) (ts : t.size = nv + x.nHidden)
    (tl : Legal nv x.nHidden m.base.nLabels m.base.nStates t.get) :
    let M := edgeLatentNodeModel backend cw m
    let o := M.lossAug x (.discrete t) w relaxed
    IsRelaxed (nv + x.nHidden) m.base.nStates x.edges o ∧
      (LegalMass nv x.nHidden m.base.nLabels m.base.nStates (nodeMarg m.base.nStates o) →
        ∀ v, IsRelaxed (nv + x.nHidden) m.base.nStates x.edges v →
          LegalMass nv x.nHidden m.base.nLabels m.base.nStates (nodeMarg m.base.nStates v) →
          dot M.dim w (M.jointFeature x v) + M.lossOf (.discrete t) v ≤
            dot M.dim w (M.jointFeature x o) + M.lossOf (.discrete t) o) := by
  intro M o
  have hS := states_pos tl (by omega)
  obtain ⟨U, K, hU, hs⟩ := eUnary_ok (w := ⟨eSize m, w⟩) hF hEf hK hr (by omega) hS rfl
  obtain ⟨T, hT, hT0, hT1, hT2, -⟩ := ePairwise_ok (w := ⟨eSize m, w⟩) hF hEf hK hm.features rfl
  obtain ⟨d0, d1, d2, P⟩ := T
  simp only at hT0 hT1 hT2
  subst hT0 hT1 hT2
  obtain ⟨z, hz, h1, h2⟩ := hsolve (nv + x.nHidden) x.edges (by omega) hE (relaxed_nonempty hS x.edges)
    (augmented m.base.nStates nv cw.get t.get U.get) P
  have ho : o = z := by
    change okD _ (eLossAugmentedInference (backend relaxed) cw m x t ⟨eSize m, w⟩) = _
    unfold eLossAugmentedInference
    rw [GraphCRF.checkSizeW_ok (w := ⟨eSize m, w⟩) rfl, hU, hT]
    simp only [bind, Except.bind]
    rw [augment_legal hcw ts tl hs.rows]
    simp only
    rw [hs.rows, hs.cols, h1]
    rfl
  rw [ho]
  refine ⟨hz, fun hl v hv hvl => ?_⟩
  have e : ∀ v, IsRelaxed (nv + x.nHidden) m.base.nStates x.edges v →
      LegalMass nv x.nHidden m.base.nLabels m.base.nStates (nodeMarg m.base.nStates v) →
      dot M.dim w (M.jointFeature x v) + M.lossOf (.discrete t) v =
        edgeScore (nv + x.nHidden) m.base.nStates x.edges (augmented m.base.nStates nv cw.get t.get U.get) P v := by
    intro v hv hvl
    have h3 := edge_node_output_value (backend := backend) (cw := cw) hm hF hEf hK hne hr hnv hS hE hv hvl w hw hs hU hT
    have h4 := node_output_loss (nLabels_le m.base) hS hcw ts tl hv hvl
    have h5 := augmented_edgeScore (edges := x.edges) U.get P cw.get t.get
      (fun i hi => lt_of_lt_of_le (tl.1 i hi) (nLabels_le m.base)) (relaxed_normalised hv)
    change dot (eSize m) w _ + (if nodeTuple v then nodeContinuousLoss m.base.nLabels m.base.nStates cw (.discrete t) v
      else nodeLoss m.base.nLabels m.base.nStates cw (.discrete t) v) = _
    rw [h3, h4]
    exact h5.symm
  rw [e v hv hvl, e z hz hl]
  exact h2 v hv

/-! ### small weights -/

/-- A best output under the augmented potentials respects the kinds of nodes if weights are small. -/
theorem relaxed_augmented_legal {mm : LatentNode.Model} {x : Mat} {w : ℕ → ℚ} {a b : ℕ} {U : Mat} {M : ℚ}
    (hU : UnarySpec mm x w a b U M) {edges : Edges} (hE : EdgesIn (a + b) edges) (hloop : ∀ e ∈ edges, e.1 ≠ e.2)
    {P : ℕ → ℕ → ℕ → ℚ} {q : ℕ → ℚ} (hP : ∀ e < edges.length, ∀ s < mm.nStates, ∀ s' < mm.nStates, |P e s s'| ≤ q e) {β : ℕ → ℚ}
    (hvis : ∀ i < a, ∀ s < mm.nLabels, -β i ≤ U.get i s)
    (hhid : ∀ i, a ≤ i → i < a + b → ∀ s, mm.nLabels ≤ s → s < mm.nStates → -β i ≤ U.get i s)
    {c : ℕ → ℚ} {κ : ℚ} (hκ0 : 0 ≤ κ) (hκ : ∀ l < mm.nLabels, c l ≤ κ) {t : ℕ → ℕ} (ht : Legal a b mm.nLabels mm.nStates t)
    (hsmall : ∀ i < a + b, β i + 2 * load edges q i + κ < 99) {v : YVal} (hv : IsRelaxed (a + b) mm.nStates edges v)
    (hbest : ∀ v', IsRelaxed (a + b) mm.nStates edges v' →
      edgeScore (a + b) mm.nStates edges (augmented mm.nStates a c t U.get) P v' ≤
        edgeScore (a + b) mm.nStates edges (augmented mm.nStates a c t U.get) P v) :
    LegalMass a b mm.nLabels mm.nStates (nodeMarg mm.nStates v) := by
  have htv := ht.valid (nLabels_le mm)
  have key : ∀ i < a + b, ∀ s < mm.nStates, -β i ≤ U.get i (t i) → U.get i s = -100 * M → nodeMarg mm.nStates v i s = 0 := by
    intro i hi s hs hlow heq
    refine no_bad_mass hE hloop hv hP hbest hi (htv i hi) hs ?_
    have h3 : augmented mm.nStates a c t U.get i (t i) = U.get i (t i) := by
      unfold augmented
      rw [if_neg (fun h => h.2.2 rfl)]
    have h4 : augmented mm.nStates a c t U.get i s ≤ -100 * M + κ := by
      unfold augmented
      split
      · rename_i h
        have := hκ _ (ht.1 i h.2.1)
        rw [heq]
        linarith
      · rw [heq]
        linarith
    have h5 := hsmall i hi
    have h6 := hU.one_le
    rw [h3]
    linarith
  refine ⟨fun i hi s h1 h2 => ?_, fun i h1 h2 s hs => ?_⟩
  · exact key i (by omega) s h2 (hvis i hi _ (ht.1 i hi)) (hU.forbidden_visible i hi s h1)
  · have := ht.2 i h1 h2
    exact key i h2 s (lt_of_lt_of_le hs (nLabels_le mm)) (hhid i h1 h2 _ this.1 this.2) (hU.forbidden_hidden i h1 s hs)

theorem augmented_zero (S a : ℕ) (t : ℕ → ℕ) (U : ℕ → ℕ → ℚ) : augmented S a (fun _ => 0) t U = U := by
  funext i s
  unfold augmented
  simp

/-- **C170 (LatentNodeCRF, small weights).** If weights and features are small compared with the penalty of the code, and no edge
connects a node with itself, the output of relaxed loss-augmented inference respects the kinds of nodes, hence has the largest sum of
weights times joint feature and loss. -/
theorem C170_node_small (backend : Bool → Infer) (relaxed : Bool) (m : LatentNode.Model) (x : LatentNode.X) (w : ℕ → ℚ)
    (nv : ℕ) (hnv : 1 ≤ nv) (hF : x.features.cols = m.nFeatures)
    (hr : x.features.rows = if m.latentFeatures then nv + x.nHidden else nv)
    (hE : EdgesIn (nv + x.nHidden) x.edges) (hloop : ∀ e ∈ x.edges, e.1 ≠ e.2)
    (hsolve : SolvesOver m.nStates (relaxedOutputs m.nStates) (backend relaxed))
    (cw : Vec) (hcw : cw.size = m.nLabels) (t : Labels) (ts : t.size = nv + x.nHidden)
    (tl : Legal nv x.nHidden m.nLabels m.nStates t.get) (ρ κ : ℚ) (hρ : 0 ≤ ρ) (hw : InBall (sizeJointFeature m) (ρ ^ 2) w)
    (hκ0 : 0 ≤ κ) (hκ : ∀ l : ℕ, l < m.nLabels → cw.get l ≤ κ) (hsmall : NodeSmall ρ κ (nv + x.nHidden) x) :
    let M := latentNodeModel backend cw m
    let o := M.lossAug x (.discrete t) w relaxed
    IsRelaxed (nv + x.nHidden) m.nStates x.edges o ∧ LegalMass nv x.nHidden m.nLabels m.nStates (nodeMarg m.nStates o) ∧
      ∀ v, IsRelaxed (nv + x.nHidden) m.nStates x.edges v → LegalMass nv x.nHidden m.nLabels m.nStates (nodeMarg m.nStates v) →
        dot M.dim w (M.jointFeature x v) + M.lossOf (.discrete t) v ≤
          dot M.dim w (M.jointFeature x o) + M.lossOf (.discrete t) o := by
  intro M o
  obtain ⟨h1, h2⟩ := C170_node_loss_augmented backend relaxed m x w nv hnv hF hr hE hsolve cw hcw t ts tl
  have hl : LegalMass nv x.nHidden m.nLabels m.nStates (nodeMarg m.nStates o) := by
    have hS := states_pos tl (by omega)
    obtain ⟨U, K, hU, hs⟩ := LatentNode.unary_ok (w := ⟨sizeJointFeature m, w⟩) hF hr (by omega) hS rfl
    obtain ⟨z, hz, h3, h4⟩ := hsolve (nv + x.nHidden) x.edges (by omega) hE (relaxed_nonempty hS x.edges)
      (augmented m.nStates nv cw.get t.get U.get) (LP m w)
    have ho : o = z := by
      change okD _ (LatentNode.lossAugmentedInference (backend relaxed) cw m x t ⟨sizeJointFeature m, w⟩) = _
      unfold LatentNode.lossAugmentedInference
      rw [GraphCRF.checkSizeW_ok (w := ⟨sizeJointFeature m, w⟩) rfl, hU, LatentNode.pairwise_ok hF rfl]
      simp only [bind, Except.bind]
      rw [augment_legal hcw ts tl hs.rows]
      simp only
      rw [hs.rows, hs.cols, h3]
      rfl
    rw [ho]
    obtain ⟨hv1, hv2⟩ := node_unary_ge hs hF hr (ρ := ρ) (fun k hk => hw.abs_le hρ (lt_of_lt_of_le hk (LatentNode.size_ge m)))
    exact relaxed_augmented_legal hs hE hloop (P := fun _ => LP m w) (q := fun _ => ρ)
      (fun _ _ _ ha _ hb => node_pairwise_le hρ hw ha hb) hv1 hv2 hκ0 hκ tl (by
        intro i hi
        have := hsmall i hi
        rw [load_const]
        linarith) hz h4
  exact ⟨h1, hl, h2 hl⟩

/-- **C170 (LatentNodeCRF, predictions with small weights).** Relaxed inference likewise. -/
theorem C170_node_inference_small (inf : Infer) (m : LatentNode.Model) (x : LatentNode.X) (w : ℕ → ℚ) (nv : ℕ) (hnv : 1 ≤ nv)
    (hF : x.features.cols = m.nFeatures) (hr : x.features.rows = if m.latentFeatures then nv + x.nHidden else nv)
    (hL : 1 ≤ m.nLabels) (hH : 0 < x.nHidden → 1 ≤ m.nHiddenStates) (hE : EdgesIn (nv + x.nHidden) x.edges)
    (hloop : ∀ e ∈ x.edges, e.1 ≠ e.2) (hsolve : SolvesOver m.nStates (relaxedOutputs m.nStates) inf) (ρ : ℚ) (hρ : 0 ≤ ρ)
    (hw : InBall (sizeJointFeature m) (ρ ^ 2) w) (hsmall : NodeSmall ρ 0 (nv + x.nHidden) x) (cw : Vec) (backend : Bool → Infer) :
    let M := latentNodeModel backend cw m
    ∃ o, nodeInference inf m x ⟨M.dim, w⟩ = .ok o ∧ IsRelaxed (nv + x.nHidden) m.nStates x.edges o ∧
      LegalMass nv x.nHidden m.nLabels m.nStates (nodeMarg m.nStates o) ∧
      ∀ v, IsRelaxed (nv + x.nHidden) m.nStates x.edges v → LegalMass nv x.nHidden m.nLabels m.nStates (nodeMarg m.nStates v) →
        dot M.dim w (M.jointFeature x v) ≤ dot M.dim w (M.jointFeature x o) := by
  intro M
  have hS : 1 ≤ m.nStates := hL.trans (nLabels_le m)
  obtain ⟨o, h1, h2, h3⟩ := C170_node_inference inf m x w nv hnv hF hr hS hE hsolve cw backend
  have hl : LegalMass nv x.nHidden m.nLabels m.nStates (nodeMarg m.nStates o) := by
    obtain ⟨U, K, hU, hs⟩ := LatentNode.unary_ok (w := ⟨sizeJointFeature m, w⟩) hF hr (by omega) hS rfl
    obtain ⟨z, hz, h4, h5⟩ := hsolve (nv + x.nHidden) x.edges (by omega) hE (relaxed_nonempty hS x.edges) U.get (LP m w)
    have ho : nodeInference inf m x ⟨M.dim, w⟩ = .ok z := by
      unfold nodeInference
      change ((GraphCRF.checkSizeW (sizeJointFeature m) ⟨sizeJointFeature m, w⟩).bind fun _ =>
        (LatentNode.unaryPotentials m x ⟨sizeJointFeature m, w⟩).bind fun U =>
        (LatentNode.pairwisePotentials m x ⟨sizeJointFeature m, w⟩).bind fun P => inf U (.mat P) x.edges) = _
      rw [GraphCRF.checkSizeW_ok (w := ⟨sizeJointFeature m, w⟩) rfl, hU, LatentNode.pairwise_ok hF rfl]
      simp only [Except.bind]
      rw [← h4, ← hs.rows, ← hs.cols]
    rw [h1] at ho
    cases ho
    obtain ⟨hv1, hv2⟩ := node_unary_ge hs hF hr (ρ := ρ) (fun k hk => hw.abs_le hρ (lt_of_lt_of_le hk (LatentNode.size_ge m)))
    refine relaxed_augmented_legal hs hE hloop (P := fun _ => LP m w) (q := fun _ => ρ) (c := fun _ => 0)
      (t := fun i => if i < nv then 0 else m.nLabels)
      (fun _ _ _ ha _ hb => node_pairwise_le hρ hw ha hb) hv1 hv2 le_rfl (fun _ _ => le_rfl) ⟨fun i hi => ?_, fun i hi hi' => ?_⟩ (by
        intro i hi
        have := hsmall i hi
        rw [load_const]
        linarith) hz (by rw [augmented_zero]; exact h5)
    · simp only [if_pos hi]
      exact hL
    · simp only [if_neg (by omega : ¬ i < nv)]
      have := hH (by omega)
      refine ⟨le_rfl, ?_⟩
      unfold LatentNode.Model.nStates
      omega
  exact ⟨o, h1, h2, hl, h3 hl⟩

/-- **C170 (EdgeFeatureLatentNodeCRF, small weights).** -/
theorem C170_edge_node_small (backend : Bool → Infer) (relaxed : Bool) (m : EModel) (hm : EdgeNodeModel m) (x : EX)
    (w : ℕ → ℚ) (hw : NodeSymmetric m w) (nv : ℕ) (hnv : 1 ≤ nv) (hF : x.features.cols = m.base.nFeatures)
    (hEf : x.edgeFeatures.rows = x.edges.length) (hK : x.edgeFeatures.cols = m.nEdgeFeatures) (hne : x.edges ≠ [])
    (hr : x.features.rows = if m.base.latentFeatures then nv + x.nHidden else nv) (hE : EdgesIn (nv + x.nHidden) x.edges)
    (hloop : ∀ e ∈ x.edges, e.1 ≠ e.2)
    (hsolve : SolvesEdges m.base.nStates (relaxedOutputs m.base.nStates) (backend relaxed))
    (cw : Vec) (hcw : cw.size = m.base.nLabels) (t : Labels) (ts : t.size = nv + x.nHidden)
    (tl : Legal nv x.nHidden m.base.nLabels m.base.nStates t.get) (ρ κ : ℚ) (hρ : 0 ≤ ρ) (hb : InBall (eSize m) (ρ ^ 2) w)
    (hκ0 : 0 ≤ κ) (hκ : ∀ l : ℕ, l < m.base.nLabels → cw.get l ≤ κ) (hsmall : EdgeNodeSmall ρ κ (nv + x.nHidden) x) :
    let M := edgeLatentNodeModel backend cw m
    let o := M.lossAug x (.discrete t) w relaxed
    IsRelaxed (nv + x.nHidden) m.base.nStates x.edges o ∧
      LegalMass nv x.nHidden m.base.nLabels m.base.nStates (nodeMarg m.base.nStates o) ∧
      ∀ v, IsRelaxed (nv + x.nHidden) m.base.nStates x.edges v →
        LegalMass nv x.nHidden m.base.nLabels m.base.nStates (nodeMarg m.base.nStates v) →
        dot M.dim w (M.jointFeature x v) + M.lossOf (.discrete t) v ≤
          dot M.dim w (M.jointFeature x o) + M.lossOf (.discrete t) o := by
  intro M o
  obtain ⟨h1, h2⟩ := C170_edge_node_loss_augmented backend relaxed m hm x w hw nv hnv hF hEf hK hne hr hE hsolve cw hcw t ts tl
  have hl : LegalMass nv x.nHidden m.base.nLabels m.base.nStates (nodeMarg m.base.nStates o) := by
    have hS := states_pos tl (by omega)
    obtain ⟨U, K, hU, hs⟩ := eUnary_ok (w := ⟨eSize m, w⟩) hF hEf hK hr (by omega) hS rfl
    obtain ⟨T, hT, hT0, hT1, hT2, hTe⟩ := ePairwise_ok (w := ⟨eSize m, w⟩) hF hEf hK hm.features rfl
    obtain ⟨d0, d1, d2, P⟩ := T
    simp only at hT0 hT1 hT2 hTe
    subst hT0 hT1 hT2
    obtain ⟨z, hz, h3, h4⟩ := hsolve (nv + x.nHidden) x.edges (by omega) hE (relaxed_nonempty hS x.edges)
      (augmented m.base.nStates nv cw.get t.get U.get) P
    have ho : o = z := by
      change okD _ (eLossAugmentedInference (backend relaxed) cw m x t ⟨eSize m, w⟩) = _
      unfold eLossAugmentedInference
      rw [GraphCRF.checkSizeW_ok (w := ⟨eSize m, w⟩) rfl, hU, hT]
      simp only [bind, Except.bind]
      rw [augment_legal hcw ts tl hs.rows]
      simp only
      rw [hs.rows, hs.cols, h3]
      rfl
    rw [ho]
    obtain ⟨hv1, hv2⟩ := node_unary_ge hs hF hr (ρ := ρ) (fun k hk => hb.abs_le hρ (lt_of_lt_of_le hk (Nat.le_add_right _ _)))
    exact relaxed_augmented_legal hs hE hloop (q := fun e => ρ * edgeMass x.edgeFeatures e)
      (fun e he _ ha _ hb' => by rw [hTe e he _ ha _ hb']; exact edgeNode_pairwise_le hρ hb hK ha hb') hv1 hv2 hκ0 hκ tl (by
        intro i hi
        have := hsmall i hi
        rw [load_smul]
        linarith) hz h4
  exact ⟨h1, hl, h2 hl⟩

/-! ### examples -/

/-- two visible nodes and a hidden one connected with both; two labels, two hidden states, one feature. -/
def nodeTriple : LatentNode.X := ⟨⟨2, 1, fun i _ => i⟩, [(0, 2), (1, 2)], 1⟩

def nodeTripleModel : LatentNode.Model := ⟨2, 2, 1, false⟩

/-- marginals that split the mass evenly between the two states allowed at a node. -/
def nodeTripleMarg : YVal := .relaxed ⟨12, fun k => if k < 8 then (if k % 4 < 2 then 1 / 2 else 0) else (if k % 4 < 2 then 0 else 1 / 2)⟩
  ⟨32, fun k => if (k / 4) % 4 < 2 ∧ 2 ≤ k % 4 then 1 / 4 else 0⟩

theorem nodeTriple_mass : LegalMass 2 1 2 4 (nodeMarg 4 nodeTripleMarg) := by
  unfold LegalMass
  refine ⟨by decide +kernel, ?_⟩
  intro i h1 h2
  have : i = 2 := by omega
  subst this
  decide +kernel

theorem nodeTriple_relaxed : IsRelaxed 3 4 [(0, 2), (1, 2)] nodeTripleMarg := by
  refine .inr ⟨_, _, rfl, rfl, rfl, ?_⟩
  constructor <;> decide +kernel

example : ∃ U P ψ, LatentNode.unaryPotentials nodeTripleModel nodeTriple ⟨12, fun k => k⟩ = .ok U ∧
    LatentNode.pairwisePotentials nodeTripleModel nodeTriple ⟨12, fun k => k⟩ = .ok P ∧
    LatentNode.jointFeature nodeTripleModel nodeTriple nodeTripleMarg = .ok ψ ∧ ψ.size = 12 ∧
    Vec.dot ⟨12, fun k => k⟩ ψ = .ok (outputScore 3 4 [(0, 2), (1, 2)] U.get P.get nodeTripleMarg) :=
  C170_node_energy nodeTripleModel nodeTriple ⟨12, fun k => k⟩ 2 rfl rfl (by decide) (by decide) rfl _ _ rfl rfl nodeTriple_mass

theorem nodeTriple_solves : SolvesOver 4 (relaxedOutputs 4) (backend idealPackages (.name "lp") true) ∧
    SolvesEdges 4 (relaxedOutputs 4) (backend idealPackages (.name "lp") true) :=
  ⟨relaxes_solves (by decide) (idealPackages_relaxes _ (by decide)), relaxes_solves_edges (by decide) (idealPackages_relaxes _ (by decide))⟩

/-- relaxed inference with the LP. -/
example : ∃ o, nodeInference (backend idealPackages (.name "lp") true) nodeTripleModel nodeTriple ⟨12, fun k => k⟩ = .ok o ∧
    IsRelaxed 3 4 [(0, 2), (1, 2)] o := by
  obtain ⟨o, h1, h2, -⟩ := C170_node_inference (backend idealPackages (.name "lp") true) nodeTripleModel nodeTriple (fun k => k) 2
    (by decide) rfl rfl (by decide) (by unfold EdgesIn; decide) nodeTriple_solves.1 ⟨2, fun _ => 1⟩ (backend idealPackages (.name "lp"))
  exact ⟨o, h1, h2⟩

example : ∃ o, nodeInference (backend idealPackages (.name "lp") true) nodeTripleModel nodeTriple ⟨12, fun k => k / 12⟩ = .ok o ∧
    IsRelaxed 3 4 [(0, 2), (1, 2)] o ∧ LegalMass 2 1 2 4 (nodeMarg 4 o) := by
  obtain ⟨o, h1, h2, h3, -⟩ := C170_node_inference_small (backend idealPackages (.name "lp") true) nodeTripleModel nodeTriple
    (fun k => k / 12) 2 (by decide) rfl rfl (by decide) (by decide) (by unfold EdgesIn; decide) (by decide) nodeTriple_solves.1 4
    (by norm_num) (by unfold InBall; decide +kernel) (by unfold NodeSmall; decide +kernel) ⟨2, fun _ => 1⟩
    (backend idealPackages (.name "lp"))
  exact ⟨o, h1, h2, h3⟩

/-- loss-augmented inference is not worse than the even marginals. -/
example : let M := latentNodeModel (backend idealPackages (.name "lp")) ⟨2, fun _ => 1⟩ nodeTripleModel
    let o := M.lossAug nodeTriple (.discrete ⟨3, fun i => if i < 2 then i else 3⟩) (fun k => k / 12) true
    dot M.dim (fun k => k / 12) (M.jointFeature nodeTriple nodeTripleMarg) +
      M.lossOf (.discrete ⟨3, fun i => if i < 2 then i else 3⟩) nodeTripleMarg ≤
    dot M.dim (fun k => k / 12) (M.jointFeature nodeTriple o) + M.lossOf (.discrete ⟨3, fun i => if i < 2 then i else 3⟩) o := by
  intro M o
  exact (C170_node_small (backend idealPackages (.name "lp")) true nodeTripleModel nodeTriple (fun k => k / 12) 2 (by decide) rfl rfl
    (by unfold EdgesIn; decide) (by decide) nodeTriple_solves.1 ⟨2, fun _ => 1⟩ rfl ⟨3, fun i => if i < 2 then i else 3⟩ rfl
    nodePair_legal 4 1 (by norm_num) (by unfold InBall; decide +kernel) (by norm_num) (fun _ _ => le_rfl)
    (by unfold NodeSmall; decide +kernel)).2.2 _ nodeTriple_relaxed nodeTriple_mass

/-- the same with one feature per edge. -/
def edgeNodeTriple : EX := ⟨⟨2, 1, fun i _ => i⟩, [(0, 2), (1, 2)], ⟨2, 1, fun e _ => e + 1⟩, 1⟩

def edgeNodeTripleModel : EModel := ⟨nodeTripleModel, 1, [], []⟩

theorem edgeNodeTriple_model : EdgeNodeModel edgeNodeTripleModel :=
  ⟨by decide +kernel, by decide, by decide⟩

theorem edgeNodeTriple_symmetric (w : ℕ → ℚ) : NodeSymmetric edgeNodeTripleModel w :=
  ⟨fun _ hk => absurd hk (List.not_mem_nil), fun _ hk => absurd hk (List.not_mem_nil)⟩

example : ∃ U P ψ, eUnary edgeNodeTripleModel edgeNodeTriple ⟨18, fun k => k⟩ = .ok U ∧
    ePairwise edgeNodeTripleModel edgeNodeTriple ⟨18, fun k => k⟩ = .ok P ∧
    eJointFeature edgeNodeTripleModel edgeNodeTriple nodeTripleMarg = .ok ψ ∧ ψ.size = 18 ∧
    Vec.dot ⟨18, fun k => k⟩ ψ = .ok (edgeScore 3 4 [(0, 2), (1, 2)] U.get P.get nodeTripleMarg) :=
  C170_edge_node_energy edgeNodeTripleModel edgeNodeTriple_model edgeNodeTriple ⟨18, fun k => k⟩ 2 rfl rfl rfl rfl (by decide)
    (by decide) rfl _ _ rfl rfl nodeTriple_mass (edgeNodeTriple_symmetric _)

example : ∃ o, edgeNodeInference (backend idealPackages (.name "lp") true) edgeNodeTripleModel edgeNodeTriple ⟨18, fun k => k⟩ = .ok o ∧
    IsRelaxed 3 4 [(0, 2), (1, 2)] o := by
  obtain ⟨o, h1, h2, -⟩ := C170_edge_node_inference (backend idealPackages (.name "lp") true) edgeNodeTripleModel
    edgeNodeTriple_model edgeNodeTriple (fun k => k) (edgeNodeTriple_symmetric _) 2 (by decide) rfl rfl rfl (by decide) rfl (by decide)
    (by unfold EdgesIn; decide) nodeTriple_solves.2 ⟨2, fun _ => 1⟩ (backend idealPackages (.name "lp"))
  exact ⟨o, h1, h2⟩

example : let M := edgeLatentNodeModel (backend idealPackages (.name "lp")) ⟨2, fun _ => 1⟩ edgeNodeTripleModel
    let o := M.lossAug edgeNodeTriple (.discrete ⟨3, fun i => if i < 2 then i else 3⟩) (fun k => k / 18) true
    dot M.dim (fun k => k / 18) (M.jointFeature edgeNodeTriple nodeTripleMarg) +
      M.lossOf (.discrete ⟨3, fun i => if i < 2 then i else 3⟩) nodeTripleMarg ≤
    dot M.dim (fun k => k / 18) (M.jointFeature edgeNodeTriple o) + M.lossOf (.discrete ⟨3, fun i => if i < 2 then i else 3⟩) o := by
  intro M o
  exact (C170_edge_node_small (backend idealPackages (.name "lp")) true edgeNodeTripleModel edgeNodeTriple_model edgeNodeTriple
    (fun k => k / 18) (edgeNodeTriple_symmetric _) 2 (by decide) rfl rfl rfl (by decide) rfl
    (by unfold EdgesIn; decide) (by decide) nodeTriple_solves.2 ⟨2, fun _ => 1⟩ rfl ⟨3, fun i => if i < 2 then i else 3⟩ rfl
    nodePair_legal 4 1 (by norm_num) (by unfold InBall; decide +kernel) (by norm_num) (fun _ _ => le_rfl)
    (by unfold EdgeNodeSmall; decide +kernel)).2.2 _ nodeTriple_relaxed nodeTriple_mass

end Verif.Props
