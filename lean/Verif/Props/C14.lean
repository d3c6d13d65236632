import Verif.Lemmas.Chain
import Verif.Props.C24

/-!
# C14: ChainCRF with max-product inference is exact, end to end
-/

namespace Verif.Props

open Finset Verif.Common Verif.GraphCRF Verif.MaxProd

/-- **C14a.** For every sequence of `n ≥ 1` positions, every number of states `S ≥ 1`, directed or
undirected interactions, every feature matrix and every weight vector of the advertised size:
prediction succeeds and returns a label sequence of length `n` with labels below `S`, such that no
other label sequence has a larger inner product of the weights with its joint feature. -/
theorem C14_chain_inference_exact (opts : Opts) (m : Model) (features : Mat) (w : Vec)
    (hn : 1 ≤ features.rows) (hS : 1 ≤ m.nStates) (hF : features.cols = m.nFeatures)
    (hw : w.size = sizeJointFeature m) :
    ∃ y ψ, inference (maxProductInfer opts) m (chainX features) w = .ok (.discrete y) ∧
      y.size = features.rows ∧ Spec.Valid features.rows m.nStates y.get ∧
      jointFeature m (chainX features) (.discrete y) = .ok ψ ∧
      ∀ y' : Labels, y'.size = features.rows → Spec.Valid features.rows m.nStates y'.get →
        ∃ ψ', jointFeature m (chainX features) (.discrete y') = .ok ψ' ∧
          ψ'.size = w.size ∧ ψ.size = w.size ∧
          dot w.size w.get ψ'.get ≤ dot w.size w.get ψ.get := by
  have hedges : (chainX features).edges = Spec.chainEdges features.rows := makeChainEdges_eq _
  have he : Spec.EdgesIn features.rows (chainX features).edges := by
    rw [hedges]; exact chainEdges_in _
  obtain ⟨y, hy, hys, hyv, hymax⟩ := inferenceMaxProduct_chain opts
    ⟨features.rows, m.nStates, UN m features w.get⟩ (.mat ⟨m.nStates, m.nStates, PW m w.get⟩)
    ⟨features.rows - 1, m.nStates, m.nStates, fun _ => PW m w.get⟩
    (by simp [validateParams, chainEdges_length]) hn hS
  simp only at hy hys hyv hymax
  refine ⟨y, _, ?_, hys, hyv, jointFeature_of_marginals (x := chainX features) hF
    (marginals_discrete hys hyv he), ?_⟩
  · unfold inference
    rw [checkSizeW_ok hw, unary_ok (x := chainX features) hF hw,
      pairwise_ok (x := chainX features) hF hw]
    simp only [bind, Except.bind, maxProductInfer]
    rw [hedges]
    simp only [chainX] at *
    rw [hy]
  · intro y' hy's hy'v
    refine ⟨_, jointFeature_of_marginals (x := chainX features) hF
      (marginals_discrete hy's hy'v he), ?_, ?_, ?_⟩
    · rw [psi_size, hw]
    · rw [psi_size, hw]
    · rw [hw, dot_psi_discrete m (chainX features).features (chainX features).edges
        y.get w.get hyv he,
        dot_psi_discrete m (chainX features).features (chainX features).edges
        y'.get w.get hy'v he, hedges]
      exact hymax y'.get hy'v

/-- **C14b.** Loss-augmented inference of a `ChainCRF` with max-product returns a labelling maximising
the score plus the loss relative to the true labelling `yt`. -/
theorem C14_chain_loss_augmented_exact (opts : Opts) (m : Model) (features : Mat) (w cw : Vec)
    (yt : Labels) (hn : 1 ≤ features.rows) (hS : 1 ≤ m.nStates)
    (hF : features.cols = m.nFeatures) (hw : w.size = sizeJointFeature m)
    (hyt : yt.size = features.rows) (hcw : ∀ i < features.rows, yt.get i < cw.size) :
    ∃ y ψ L, lossAugmentedInference (maxProductInfer opts) cw m (chainX features) yt w
        = .ok (.discrete y) ∧
      y.size = features.rows ∧ Spec.Valid features.rows m.nStates y.get ∧
      jointFeature m (chainX features) (.discrete y) = .ok ψ ∧ Loss.loss (some cw) yt y = .ok L ∧
      ∀ y' : Labels, y'.size = features.rows → Spec.Valid features.rows m.nStates y'.get →
        ∃ ψ' L', jointFeature m (chainX features) (.discrete y') = .ok ψ' ∧
          Loss.loss (some cw) yt y' = .ok L' ∧ ψ'.size = w.size ∧ ψ.size = w.size ∧
          dot w.size w.get ψ'.get + L' ≤ dot w.size w.get ψ.get + L := by
  have hedges : (chainX features).edges = Spec.chainEdges features.rows := makeChainEdges_eq _
  have he : Spec.EdgesIn features.rows (chainX features).edges := by
    rw [hedges]; exact chainEdges_in _
  obtain ⟨y, hy, hys, hyv, hymax⟩ := inferenceMaxProduct_chain opts
    ⟨features.rows, m.nStates, fun i s => if s = yt.get i then UN m features w.get i s
      else UN m features w.get i s + cw.get (yt.get i)⟩
    (.mat ⟨m.nStates, m.nStates, PW m w.get⟩)
    ⟨features.rows - 1, m.nStates, m.nStates, fun _ => PW m w.get⟩
    (by simp [validateParams, chainEdges_length]) hn hS
  simp only at hy hys hyv hymax
  refine ⟨y, _, _, ?_, hys, hyv, jointFeature_of_marginals (x := chainX features) hF
    (marginals_discrete hys hyv he), loss_some_ok hyt hys hcw, ?_⟩
  · unfold lossAugmentedInference
    rw [checkSizeW_ok hw, unary_ok (x := chainX features) hF hw,
      pairwise_ok (x := chainX features) hF hw]
    simp only [bind, Except.bind, maxProductInfer]
    rw [augment_ok (U := ⟨(chainX features).features.rows, m.nStates,
      UN m (chainX features).features w.get⟩) hyt hcw]
    simp only
    rw [hedges]
    simp only [chainX] at *
    rw [hy]
  · intro y' hy's hy'v
    refine ⟨_, _, jointFeature_of_marginals (x := chainX features) hF
      (marginals_discrete hy's hy'v he), loss_some_ok hyt hy's hcw, ?_, ?_, ?_⟩
    · rw [psi_size, hw]
    · rw [psi_size, hw]
    · rw [hw, dot_psi_discrete m (chainX features).features (chainX features).edges
        y.get w.get hyv he,
        dot_psi_discrete m (chainX features).features (chainX features).edges
        y'.get w.get hy'v he, hedges]
      have := hymax y'.get hy'v
      rw [score_augment, score_augment] at this
      exact this

/-- concrete instance: three positions, two states, one feature; the interaction weights reward
alternation, the prediction alternates. -/
example : (inference (maxProductInfer {}) ⟨2, 1, true⟩
      (chainX ⟨3, 1, fun i _ => if i = 0 then 1 else 0⟩) ⟨6, fun k => [1, 0, 0, 1, 1, 0].getD k 0⟩).map
      (fun v => match v with
        | .discrete y => (y.size, y.get 0, y.get 1, y.get 2)
        | .relaxed _ _ => (0, 0, 0, 0)) = .ok (3, 0, 1, 0) := by decide +kernel

end Verif.Props
