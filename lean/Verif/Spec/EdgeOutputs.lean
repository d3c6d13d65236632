import Verif.Spec.GraphOutputs
import Verif.Model.EdgeFeature

/-!
# Specification: outputs of a pairwise model whose edges have potentials of their own
-/

namespace Verif.Spec

open Finset Verif.Common

/-- Score of an output, with one matrix of potentials per edge. -/
def edgeScore (n S : ℕ) (edges : List (ℕ × ℕ)) (U : ℕ → ℕ → ℚ) (P : ℕ → ℕ → ℕ → ℚ) (v : YVal) : ℚ :=
  marginalScore n S edges U P (nodeMarg S v) (edgeMarg S edges v)

/-- An inference method finds, for all unary potentials and all potentials of edges, the best of the outputs `O n edges`, for every
graph that has any. -/
def SolvesEdges (S : ℕ) (O : ℕ → List (ℕ × ℕ) → Set YVal)
    (inf : Mat → Pairwise → Edges → Except PyErr YVal) : Prop :=
  ∀ n edges, 1 ≤ n → EdgesIn n edges → (O n edges).Nonempty → ∀ (U : ℕ → ℕ → ℚ) (P : ℕ → ℕ → ℕ → ℚ),
    ∃ v ∈ O n edges, inf ⟨n, S, U⟩ (.ten ⟨edges.length, S, S, P⟩) edges = .ok v ∧
      ∀ v' ∈ O n edges, edgeScore n S edges U P v' ≤ edgeScore n S edges U P v

/-- The instance has vertices, features and edge features of the right sizes, and edges between its vertices. -/
def EdgeFits (m : EdgeFeature.Model) (x : EdgeFeature.X) : Prop :=
  1 ≤ x.features.rows ∧ x.features.cols = m.nFeatures ∧ EdgesIn x.features.rows x.edges ∧
    x.edgeFeatures.rows = x.edges.length ∧ x.edgeFeatures.cols = m.nEdgeFeatures

/-- The outputs that compete for an instance. -/
def edgeOutputs (m : EdgeFeature.Model) (O : ℕ → List (ℕ × ℕ) → Set YVal) (x : EdgeFeature.X) : Set YVal :=
  {v | EdgeFits m x ∧ v ∈ O x.features.rows x.edges}

end Verif.Spec
