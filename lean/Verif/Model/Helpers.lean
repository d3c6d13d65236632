import Verif.Model.LP

/-!
# Model of small stand-alone helpers

`load_letters` (`pystruct/datasets/dataset_loaders.py`), `solve_lp` (`pystruct/inference/linear_programming.py`),
`edges_to_graph` (`pystruct/inference/maxprod.py`) and `plot_grid` (`pystruct/utils/plotting.py`). Reading pickles
and drawing are not modelled.
-/

namespace Verif.Helpers

open Verif.Common

/-! ### letters -/

/-- `np.hstack` of matrices: `ValueError` for nothing and for different numbers of rows.
`pystruct/datasets/dataset_loaders.py` line 40. -/
def hstack : List Mat → Except PyErr Mat
  | [] => .error .valueError
  | [m] => .ok m
  | m :: ms =>
    match hstack ms with
    | .error err => .error err
    | .ok r =>
      if m.rows ≠ r.rows then .error .valueError
      else .ok ⟨m.rows, m.cols + r.cols, fun i j => if j < m.cols then m.get i j else r.get i (j - m.cols)⟩

/-- `[l.reshape(16, 8) for l in word]`, `pystruct/datasets/dataset_loaders.py` line 40. -/
def letterImages : List Vec → Except PyErr (List Mat)
  | [] => .ok []
  | l :: rest =>
    match l.reshape2 16 8 with
    | .error err => .error err
    | .ok m =>
      match letterImages rest with
      | .error err => .error err
      | .ok ms => .ok (m :: ms)

/-- The image of one word, `pystruct/datasets/dataset_loaders.py` lines 40-41. -/
def wordImage (word : List Vec) : Except PyErr Mat :=
  match letterImages word with
  | .error err => .error err
  | .ok ms => hstack ms

/-- `data['images']` of `load_letters`, `pystruct/datasets/dataset_loaders.py` lines 40-41, for the words in
`data['data']`. -/
def images : List (List Vec) → Except PyErr (List Mat)
  | [] => .ok []
  | word :: rest =>
    match wordImage word with
    | .error err => .error err
    | .ok m =>
      match images rest with
      | .error err => .error err
      | .ok ms => .ok (m :: ms)

/-! ### solve_lp -/

/-- `solve_lp`, `pystruct/inference/linear_programming.py` lines 102-109: the same matrix for every edge. -/
def solveLP (solver : LP.Solver) (unaries : Mat) (edges : Edges) (pairwise : Mat) :
    Except PyErr (Mat × Mat × ℚ) :=
  if unaries.cols ≠ pairwise.rows then .error .valueError
  else LP.lpGeneralGraph solver unaries edges
    ⟨edges.length, pairwise.rows, pairwise.cols, fun _ a b => pairwise.get a b⟩

/-! ### edges_to_graph -/

/-- `np.max(edges) + 1`, `pystruct/inference/maxprod.py` line 10: `ValueError` without edges. -/
def countVertices (edges : Edges) : Except PyErr ℕ :=
  if edges = [] then .error .valueError else .ok ((edges.map fun e => max e.1 e.2).foldl max 0 + 1)

/-- `sparse.coo_matrix((np.ones(len(edges)), edges.T), shape=(n, n))`, `pystruct/inference/maxprod.py` lines
11-12: entries at the same place add up; `ValueError` for an index that is too large. -/
def coo (n : ℕ) (edges : Edges) : Except PyErr Mat :=
  if edges.any fun e => decide (n ≤ e.1 ∨ n ≤ e.2) then .error .valueError
  else .ok ⟨n, n, fun i j => (edges.map fun e => if e.1 = i ∧ e.2 = j then (1 : ℚ) else 0).sum⟩

/-- `edges_to_graph`, `pystruct/inference/maxprod.py` lines 8-13. -/
def edgesToGraph (edges : Edges) (nVertices : Option ℕ) : Except PyErr Mat :=
  match nVertices with
  | some n => coo n edges
  | none =>
    match countVertices edges with
    | .error err => .error err
    | .ok n => coo n edges

/-! ### plot_grid -/

/-- `np.arange(1, n) - .5`, `pystruct/utils/plotting.py` lines 34-35. -/
def ticks (n : ℕ) : List ℚ := (List.range (n - 1)).map fun k => ((k + 1 : ℕ) : ℚ) - 1 / 2

/-- The positions of the vertical and of the horizontal lines that `plot_grid` draws on an array of the given
shape, `pystruct/utils/plotting.py` lines 34-38. -/
def gridLines (x : Mat) : List ℚ × List ℚ := (ticks x.cols, ticks x.rows)

end Verif.Helpers
