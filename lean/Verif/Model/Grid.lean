import Verif.Model.Common

/-!
# Model of `pystruct/utils/graph.py`
-/

namespace Verif.Grid

open Verif.Common

/-- A two-dimensional integer array. `pystruct/utils/graph.py` line 8. -/
structure NMat where
  rows : ℕ
  cols : ℕ
  get : ℕ → ℕ → ℕ

/-- `ravel()`, row-major. `pystruct/utils/graph.py` lines 10-15. -/
def NMat.ravel (a : NMat) : List ℕ :=
  (List.range a.rows).flatMap fun i => (List.range a.cols).map fun j => a.get i j

/-- `np.arange(h * w).reshape(h, w)`, `pystruct/utils/graph.py` lines 8-9. -/
def inds (h w : ℕ) : NMat := ⟨h, w, fun i j => i * w + j⟩

/-- `a[:-1, :]`. `pystruct/utils/graph.py` lines 11, 14 and 15. -/
def NMat.noLastRow (a : NMat) : NMat := ⟨a.rows - 1, a.cols, a.get⟩
/-- `a[1:, :]`. `pystruct/utils/graph.py` lines 11, 14 and 15. -/
def NMat.noFirstRow (a : NMat) : NMat := ⟨a.rows - 1, a.cols, fun i j => a.get (i + 1) j⟩
/-- `a[:, :-1]`. `pystruct/utils/graph.py` lines 10, 14 and 15. -/
def NMat.noLastCol (a : NMat) : NMat := ⟨a.rows, a.cols - 1, a.get⟩
/-- `a[:, 1:]`. `pystruct/utils/graph.py` lines 10, 14 and 15. -/
def NMat.noFirstCol (a : NMat) : NMat := ⟨a.rows, a.cols - 1, fun i j => a.get i (j + 1)⟩

/-- `np.c_[a, b]` of one-dimensional arrays: rows `(a[i], b[i])`. `pystruct/utils/graph.py` lines
10-15. -/
def columns (a b : List ℕ) : Edges := a.zip b

/-- `pystruct/utils/graph.py` line 10 -/
def right (h w : ℕ) : Edges :=
  columns (inds h w).noLastCol.ravel (inds h w).noFirstCol.ravel
/-- `pystruct/utils/graph.py` line 11 -/
def down (h w : ℕ) : Edges :=
  columns (inds h w).noLastRow.ravel (inds h w).noFirstRow.ravel
/-- `pystruct/utils/graph.py` line 14 -/
def upright (h w : ℕ) : Edges :=
  columns (inds h w).noFirstRow.noLastCol.ravel (inds h w).noLastRow.noFirstCol.ravel
/-- `pystruct/utils/graph.py` line 15 -/
def downright (h w : ℕ) : Edges :=
  columns (inds h w).noLastRow.noLastCol.ravel (inds h w).noFirstRow.noFirstCol.ravel

/-- `make_grid_edges(x, neighborhood, return_lists=True)` for `x` of shape `(h, w, …)`,
`pystruct/utils/graph.py` lines 4-18. -/
def gridEdgeLists (h w neighborhood : ℕ) : Except PyErr (List Edges) :=
  if neighborhood ≠ 4 ∧ neighborhood ≠ 8 then .error .valueError
  else if neighborhood = 8 then .ok [right h w, down h w, upright h w, downright h w]
  else .ok [right h w, down h w]

/-- `make_grid_edges(x, neighborhood)`, `pystruct/utils/graph.py` lines 4-19 (`np.vstack`). -/
def gridEdges (h w neighborhood : ℕ) : Except PyErr Edges :=
  match gridEdgeLists h w neighborhood with
  | .error err => .error err
  | .ok l => .ok l.flatten

/-- `edge_list_to_features`, `pystruct/utils/graph.py` lines 22-27: two columns, whatever the number of
edge lists; the first marks the edges of the first list, the second all others. -/
def edgeListToFeatures (l : List Edges) : Mat :=
  ⟨l.flatten.length, 2, fun e c =>
    if e < (l.headD []).length then (if c = 0 then 1 else 0) else (if c = 1 then 1 else 0)⟩

end Verif.Grid
