import Verif.Model.Common

/-!
# Model of `chow_liu_tree` in `examples/multi_label.py`
-/

namespace Verif.ChowLiu

open Verif.Common

/-- Column `j` of an array with `rows` rows, `y_[:, j]` in `examples/multi_label.py` line 41. -/
def column (rows : ℕ) (y : ℕ → ℕ → ℕ) (j : ℕ) : Labels := ⟨rows, fun i => y i j⟩

/-- One row of `edges.sort(axis=1)`, `examples/multi_label.py` line 44. -/
def sortPair (e : ℕ × ℕ) : ℕ × ℕ := (min e.1 e.2, max e.1 e.2)

/-- `chow_liu_tree`, `examples/multi_label.py` lines 35-45, for an array `y_` of shape `(rows, n_labels)`. `mutualInfo` is
`sklearn.metrics.mutual_info_score`; `mst n A` are the positions of the nonzero entries of what
`scipy.sparse.csgraph.minimum_spanning_tree` returns for the `n` by `n` matrix `A` without its zeros. Both packages are
parameters, and the information (a logarithm) is a rational number. -/
def chowLiuTree (mutualInfo : Labels → Labels → ℚ) (mst : ℕ → (ℕ → ℕ → ℚ) → Edges) (rows nLabels : ℕ) (y : ℕ → ℕ → ℕ) : Edges :=
  let mi := fun i j => mutualInfo (column rows y i) (column rows y j)
  (mst nLabels fun i j => - mi i j).map sortPair

end Verif.ChowLiu
