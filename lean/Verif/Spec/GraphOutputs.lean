import Verif.Spec.LocalPolytope
import Verif.Spec.Learning
import Verif.Model.GraphCRF

/-!
# Specification: outputs of a pairwise model, discrete and relaxed

Only the data types of the model of the code (label arrays, tuples of marginals, instances) are used here.
-/

namespace Verif.Spec

open Finset Verif.Common

/-- Vertex marginals of an output: indicators of a labelling, or the first component of a tuple, one row per
vertex. -/
def nodeMarg (S : ℕ) (v : YVal) (i s : ℕ) : ℚ :=
  match v with
  | .discrete y => if s = y.get i then 1 else 0
  | .relaxed u _ => u.get (i * S + s)

/-- Edge marginals of an output: indicators of a labelling, or the second component of a tuple, one matrix per
edge. -/
def edgeMarg (S : ℕ) (edges : List (ℕ × ℕ)) (v : YVal) (e a b : ℕ) : ℚ :=
  match v with
  | .discrete y => if a = y.get (edges.getD e (0, 0)).1 ∧ b = y.get (edges.getD e (0, 0)).2 then 1 else 0
  | .relaxed _ p => p.get ((e * S + a) * S + b)

/-- Labellings of a graph with `n` vertices and `S` states. -/
def IsLabelling (n S : ℕ) (v : YVal) : Prop :=
  ∃ y, v = .discrete y ∧ y.size = n ∧ Valid n S y.get

/-- Labellings, and points of the local polytope. -/
def IsRelaxed (n S : ℕ) (edges : List (ℕ × ℕ)) (v : YVal) : Prop :=
  IsLabelling n S v ∨ ∃ u p, v = .relaxed u p ∧ u.size = n * S ∧ p.size = edges.length * S ^ 2 ∧
    LocalPolytope n S edges (nodeMarg S v) (edgeMarg S edges v)

/-- Score of an output: linear in its marginals. -/
def outputScore (n S : ℕ) (edges : List (ℕ × ℕ)) (U : ℕ → ℕ → ℚ) (P : ℕ → ℕ → ℚ) (v : YVal) : ℚ :=
  marginalScore n S edges U (fun _ => P) (nodeMarg S v) (edgeMarg S edges v)

/-- An inference method finds, for all potentials, the best of the outputs `O n edges` for every graph that has
any. -/
def SolvesOver (S : ℕ) (O : ℕ → List (ℕ × ℕ) → Set YVal)
    (inf : Mat → Pairwise → Edges → Except PyErr YVal) : Prop :=
  ∀ n edges, 1 ≤ n → EdgesIn n edges → (O n edges).Nonempty → ∀ U P : ℕ → ℕ → ℚ,
    ∃ v ∈ O n edges, inf ⟨n, S, U⟩ (.mat ⟨S, S, P⟩) edges = .ok v ∧
      ∀ v' ∈ O n edges, outputScore n S edges U P v' ≤ outputScore n S edges U P v

/-- The instance has vertices, the right number of features, and edges between its vertices. -/
def Fits (m : GraphCRF.Model) (x : GraphCRF.X) : Prop :=
  1 ≤ x.features.rows ∧ x.features.cols = m.nFeatures ∧ EdgesIn x.features.rows x.edges

/-- The outputs that compete for an instance. -/
def outputsOver (m : GraphCRF.Model) (O : ℕ → List (ℕ × ℕ) → Set YVal) (x : GraphCRF.X) : Set YVal :=
  {v | Fits m x ∧ v ∈ O x.features.rows x.edges}

/-- Label sequences of chains. -/
def chainOutputs (S n : ℕ) (edges : List (ℕ × ℕ)) : Set YVal :=
  {v | edges = chainEdges n ∧ IsLabelling n S v}

/-- Labellings and relaxed labellings of arbitrary graphs. -/
def relaxedOutputs (S n : ℕ) (edges : List (ℕ × ℕ)) : Set YVal := {v | IsRelaxed n S edges v}

end Verif.Spec
