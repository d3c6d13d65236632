import Verif.Lemmas.GraphCRF

/-!
# C13: GraphCRF — the score of a labelling equals weights times features
-/

namespace Verif.Props

open Finset Verif.Common Verif.GraphCRF

/-- Specification of the score of a labelling under a `GraphCRF` weight vector, spelled out: per vertex
the inner product of its features with the weight block of its label, per edge the interaction
weight of the pair of labels (ordered for directed models, unordered and stored in the lower
triangle for undirected models). -/
def graphScore (S F : ℕ) (directed : Bool) (x : ℕ → ℕ → ℚ) (n : ℕ) (edges : List (ℕ × ℕ))
    (w : ℕ → ℚ) (y : ℕ → ℕ) : ℚ :=
  ∑ i ∈ range n, ∑ f ∈ range F, w (y i * F + f) * x i f +
  ∑ e ∈ range edges.length,
    let a := y (edges.getD e (0, 0)).1
    let b := y (edges.getD e (0, 0)).2
    if directed then w (S * F + (a * S + b))
    else w (S * F + (max a b * (max a b + 1) / 2 + min a b))

theorem PW_eq (m : Model) (w : ℕ → ℚ) (a b : ℕ) :
    PW m w a b = if m.directed then w (m.nStates * m.nFeatures + (a * m.nStates + b))
      else w (m.nStates * m.nFeatures + (max a b * (max a b + 1) / 2 + min a b)) := by
  unfold PW
  split
  · rfl
  · rcases le_total b a with h | h
    · rw [Sym.symEntry_lower _ h, max_eq_left h, min_eq_right h]
      rfl
    · rw [Sym.symEntry_comm, Sym.symEntry_lower _ h, max_eq_right h, min_eq_left h]
      rfl

/-- **C13.** For every directed or undirected `GraphCRF`, every graph, feature array, weight vector of
the advertised size and every labelling: potentials and joint feature are computed without error,
the joint feature has the advertised size, and the inner product of the weights with the joint
feature equals the energy of the labelling under the potentials that inference uses — and both equal
the score spelled out in `graphScore`. -/
theorem C13_graphcrf_energy (m : Model) (x : X) (y : Labels) (w : Vec)
    (hF : x.features.cols = m.nFeatures) (hy : y.size = x.features.rows)
    (hv : Spec.Valid x.features.rows m.nStates y.get)
    (he : Spec.EdgesIn x.features.rows x.edges) (hw : w.size = sizeJointFeature m) :
    ∃ U P ψ, unaryPotentials m x w = .ok U ∧ pairwisePotentials m x w = .ok P ∧
      jointFeature m x (.discrete y) = .ok ψ ∧ ψ.size = sizeJointFeature m ∧
      U.rows = x.features.rows ∧ U.cols = m.nStates ∧
      w.dot ψ = computeEnergy U (.mat P) x.edges y ∧
      w.dot ψ = .ok (graphScore m.nStates m.nFeatures m.directed x.features.get x.features.rows
        x.edges w.get y.get) := by
  refine ⟨_, _, _, unary_ok hF hw, pairwise_ok hF hw,
    jointFeature_of_marginals hF (marginals_discrete hy hv he), psi_size .., rfl, rfl, ?_⟩
  have hdot : w.dot (psi m x.features (fun i s => if s = y.get i then 1 else 0)
      (hotPair x.edges y.get)) = .ok (Spec.score x.features.rows x.edges (UN m x.features w.get)
        (fun _ => PW m w.get) y.get) := by
    unfold Vec.dot
    rw [psi_size, if_pos hw, hw, dot_psi_discrete m x.features x.edges y.get w.get hv he]
  rw [hdot]
  constructor
  · symm
    exact computeEnergy_ok ⟨x.features.rows, m.nStates, UN m x.features w.get⟩ _ x.edges y
      ⟨x.edges.length, m.nStates, m.nStates, fun _ => PW m w.get⟩
      (by simp [validateParams]) hy hv he
  · congr 1
    unfold Spec.score graphScore
    congr 1
    · apply sum_congr rfl; intro i _
      unfold UN
      apply sum_congr rfl; intro f _
      ring
    · apply sum_congr rfl; intro e _
      exact PW_eq m w.get _ _

/-- Weight vectors of any other size are rejected by inference. -/
theorem C13_wrong_size_rejected (m : Model) (x : X) (w : Vec) (inf : Infer)
    (hw : w.size ≠ sizeJointFeature m) :
    GraphCRF.inference inf m x w = .error .valueError := by
  unfold GraphCRF.inference checkSizeW
  rw [if_pos hw]
  rfl

/-- concrete instance (undirected, 2 states, 1 feature, one edge): energy 1·2 + 3·5 + interaction 7. -/
example : (do
    let m : Model := ⟨2, 1, false⟩
    let x : X := ⟨⟨2, 1, fun i _ => if i = 0 then 2 else 5⟩, [(1, 0)]⟩
    let y : Labels := ⟨2, fun i => i⟩
    let w : Vec := ⟨5, fun k => [1, 3, 0, 7, 0].getD k 0⟩
    let ψ ← jointFeature m x (.discrete y)
    let U ← unaryPotentials m x w
    let P ← pairwisePotentials m x w
    let e ← computeEnergy U (.mat P) x.edges y
    let d ← w.dot ψ
    pure (ψ.size, d, e)) = (.ok (5, 24, 24) : Except PyErr (ℕ × ℚ × ℚ)) := by decide +kernel

end Verif.Props
