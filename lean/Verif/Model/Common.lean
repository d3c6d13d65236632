import Verif.Basic.Arr

/-!
# Model of `pystruct/inference/common.py`
-/

namespace Verif.Common

open Finset

/-- Edge list of a graph: `ndarray` of shape `(n_edges, 2)`, non-negative indices. Used everywhere,
e.g. `pystruct/models/graph_crf.py` lines 106-107. -/
abbrev Edges := List (ℕ × ℕ)

/-- The `e`-th edge. E.g. `pystruct/inference/common.py` lines 49-50. -/
def edge (es : Edges) (e : ℕ) : ℕ × ℕ := es.getD e (0, 0)

/-- Pairwise parameters as accepted by the inference functions: a two-dimensional array (one matrix
for all edges), a three-dimensional array (one matrix per edge), or an array of any other
dimensionality. `pystruct/inference/common.py` lines 6-16. -/
inductive Pairwise where
  | mat (m : Mat)
  | ten (t : Ten)
  | other

/-- A label array of shape `(size,)` with non-negative entries. Used everywhere, e.g.
`pystruct/inference/common.py` line 48. -/
structure Labels where
  size : ℕ
  get : ℕ → ℕ

/-- `_validate_params`, `pystruct/inference/common.py` lines 4-17. Returns the pairwise potentials (one
matrix per edge) or raises `ValueError`.  (`n_states` is the number of columns of the unaries.) -/
def validateParams (unary : Mat) (pw : Pairwise) (nEdges : ℕ) : Except PyErr (ℕ × Ten) :=
  match pw with
  | .mat m =>
    if m.rows = unary.cols ∧ m.cols = unary.cols then
      .ok (unary.cols, ⟨nEdges, unary.cols, unary.cols, fun _ a b => m.get a b⟩)
    else .error .valueError
  | .ten t =>
    if t.d0 = nEdges ∧ t.d1 = unary.cols ∧ t.d2 = unary.cols then .ok (unary.cols, t)
    else .error .valueError
  | .other => .error .valueError

/-- `compute_energy`, `pystruct/inference/common.py` lines 20-51.  Label or node indices outside the
arrays raise `IndexError` (negative, i.e. wrap-around, indices are not modelled). As in the code,
the unary sum runs over `len(labels)` rows. -/
def computeEnergy (unary : Mat) (pw : Pairwise) (edges : Edges) (labels : Labels) :
    Except PyErr ℚ :=
  match validateParams unary pw edges.length with
  | .error err => .error err
  | .ok (_, t) =>
    if unary.rows < labels.size then .error .indexError
    else if ¬ ∀ i < labels.size, labels.get i < unary.cols then .error .indexError
    else if ¬ ∀ e ∈ edges, e.1 < labels.size ∧ e.2 < labels.size then .error .indexError
    else
      let energy := ∑ i ∈ range labels.size, unary.get i (labels.get i)
      .ok ((List.range edges.length).foldl
        (fun energy e =>
          energy + t.get e (labels.get (edge edges e).1) (labels.get (edge edges e).2))
        energy)

end Verif.Common
