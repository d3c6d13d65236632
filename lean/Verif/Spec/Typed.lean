import Verif.Basic.Arr

/-!
# Specification: graphs with several types of nodes

Nodes are numbered type by type, and so are the labels: the labels of a type come after those of the
types before it. These definitions do not refer to any model of the code.
-/

namespace Verif.Spec

open Finset

/-- Number of things in the groups before group `t`, if the groups have sizes `l`. -/
def before (l : List ℕ) (t : ℕ) : ℕ := (l.take t).sum

/-- Number of rows of an array that may be missing. -/
def rowsOf (l : List (Option Mat)) (t : ℕ) : ℕ := ((l.getD t none).map Mat.rows).getD 0

/-- Entry of an array that may be missing. -/
def entryOf (l : List (Option Mat)) (t i f : ℕ) : ℚ := ((l.getD t none).map fun M => M.get i f).getD 0

/-- The edges of one kind. -/
def edgesOf (l : List (Option (List (ℤ × ℤ)))) (k : ℕ) : List (ℤ × ℤ) := (l.getD k none).getD []

/-- The arrays fit to `T` types of nodes with `F` features each and `Fe` features for every edge: one
array of node features per type, one edge list and one array of edge features per pair of types (any
of them may be missing), the right number of features, edges between existing nodes, and one row of
edge features per edge. -/
structure TypedFits (T : ℕ) (F : List ℕ) (Fe : ℕ → ℕ → ℕ) (nodes : List (Option Mat))
    (edges : List (Option (List (ℤ × ℤ)))) (efeat : List (Option Mat)) : Prop where
  edges_length : edges.length = T * T
  node_cols : ∀ t < T, ∀ M, nodes.getD t none = some M → M.cols = F.getD t 0
  edges_in : ∀ a < T, ∀ b < T, ∀ e ∈ edgesOf edges (a * T + b),
    0 ≤ e.1 ∧ e.1 < rowsOf nodes a ∧ 0 ≤ e.2 ∧ e.2 < rowsOf nodes b
  efeat_rows : ∀ a < T, ∀ b < T, rowsOf efeat (a * T + b) = (edgesOf edges (a * T + b)).length
  efeat_cols : ∀ a < T, ∀ b < T, ∀ M, efeat.getD (a * T + b) none = some M → M.cols = Fe a b

/-- Numbers of nodes per type. -/
def counts (T : ℕ) (nodes : List (Option Mat)) : List ℕ := (List.range T).map (rowsOf nodes)

/-- Every node has a label, which is one of the labels of its type; `S` are the numbers of labels and `n`
the numbers of nodes of the types. -/
def LabelsFit (S n : List ℕ) (y : List ℤ) : Prop :=
  y.length = n.sum ∧ ∀ t < n.length, ∀ i < n.getD t 0,
    (before S t : ℤ) ≤ y.getD (before n t + i) 0 ∧ y.getD (before n t + i) 0 < before S (t + 1)

/-- State of the `i`-th node of type `t`, counted from zero within the type. -/
def stateOf (S n : List ℕ) (y : List ℤ) (t i : ℕ) : ℕ :=
  (y.getD (before n t + i) 0 - before S t).toNat

/-- Score of a labelling under given tables: `U t i s` for node `i` of type `t` in state `s`, `P a b e r s`
for the `e`-th edge from type `a` to type `b`. `σ t i` is the state of a node. -/
def typedEnergy (T : ℕ) (n : List ℕ) (edges : List (Option (List (ℤ × ℤ))))
    (U : ℕ → ℕ → ℕ → ℚ) (P : ℕ → ℕ → ℕ → ℕ → ℕ → ℚ) (σ : ℕ → ℕ → ℕ) : ℚ :=
  ∑ t ∈ range T, ∑ i ∈ range (n.getD t 0), U t i (σ t i) +
  ∑ a ∈ range T, ∑ b ∈ range T, ∑ e ∈ range (edgesOf edges (a * T + b)).length,
    P a b e (σ a ((edgesOf edges (a * T + b)).getD e (0, 0)).1.toNat)
      (σ b ((edgesOf edges (a * T + b)).getD e (0, 0)).2.toNat)

/-- Number of node weights before those of type `t`. -/
def nodeWeights (S F : List ℕ) (t : ℕ) : ℕ := ∑ k ∈ range t, S.getD k 0 * F.getD k 0

/-- Number of edge weights before those of the pair of types number `k = a * T + b`. -/
def edgeWeights (T : ℕ) (S : List ℕ) (Fe : ℕ → ℕ → ℕ) (k : ℕ) : ℕ :=
  ∑ q ∈ range k, Fe (q / T) (q % T) * S.getD (q / T) 0 * S.getD (q % T) 0

/-- Score of state `s` of node `i` of type `t` under weights `w`: the weights of type `t` are stored state
by state. -/
def typedUnary (S F : List ℕ) (nodes : List (Option Mat)) (w : ℕ → ℚ) (t i s : ℕ) : ℚ :=
  ∑ f ∈ range (F.getD t 0), w (nodeWeights S F t + s * F.getD t 0 + f) * entryOf nodes t i f

/-- Score of the states `r`, `s` of the ends of the `e`-th edge from type `a` to type `b`: the weights of
the pair are stored feature by feature. -/
def typedPairwise (T : ℕ) (S F : List ℕ) (Fe : ℕ → ℕ → ℕ) (efeat : List (Option Mat)) (w : ℕ → ℚ)
    (a b e r s : ℕ) : ℚ :=
  ∑ f ∈ range (Fe a b), w (nodeWeights S F T + edgeWeights T S Fe (a * T + b) +
    f * (S.getD a 0 * S.getD b 0) + r * S.getD b 0 + s) * entryOf efeat (a * T + b) e f

/-- Weight of state `s` of type `t`: one if no weights are given. -/
def classWeightOf : Option (List Vec) → ℕ → ℕ → ℚ
  | none, _, _ => 1
  | some [], _, _ => 1
  | some (c :: cs), t, s => ((c :: cs).getD t ⟨0, fun _ => 0⟩).get s

/-- Weighted number of nodes whose states differ; the weight is that of the state in `σ`. -/
def typedLoss (T : ℕ) (n : List ℕ) (c : ℕ → ℕ → ℚ) (σ τ : ℕ → ℕ → ℕ) : ℚ :=
  ∑ t ∈ range T, ∑ i ∈ range (n.getD t 0), if σ t i = τ t i then 0 else c t (σ t i)

end Verif.Spec
