import Verif.Basic.Arr
import Mathlib.Data.Nat.Sqrt

/-!
# Model of `expand_sym` / `compress_sym` (`pystruct/utils/inference.py`)
-/

namespace Verif.Sym

/-- Number of entries of the lower triangle (with diagonal) of an `n × n` matrix: the number of
`True` entries of `np.tri(n)`. `pystruct/utils/inference.py` lines 23 and 50. -/
def tri (n : ℕ) : ℕ := n * (n + 1) / 2

/-- `int(np.sqrt(2 * length + 0.25) - 1 / 2.)`, `pystruct/utils/inference.py` line 21, i.e. the integer
part of `(sqrt(8 * length + 1) - 1) / 2` (floating point rounding not modelled). -/
def symSize (length : ℕ) : ℕ := (Nat.sqrt (8 * length + 1) - 1) / 2

/-- Row of the `k`-th `True` entry of `np.tri` in row-major order. `pystruct/utils/inference.py`
lines 23 and 50. -/
def triRow (k : ℕ) : ℕ := (Nat.sqrt (8 * k + 1) - 1) / 2

/-- Column of the `k`-th `True` entry of `np.tri` in row-major order. `pystruct/utils/inference.py`
lines 23 and 50. -/
def triCol (k : ℕ) : ℕ := k - tri (triRow k)

/-- `expand_sym`, `pystruct/utils/inference.py` lines 14-24. Boolean mask assignment fills the lower
triangle in row-major order, so position `(i, j)`, `j ≤ i`, receives entry `i (i+1) / 2 + j`; it
raises `ValueError` if the number of values does not fit. The result is `sym + sym.T - diag`. -/
def expandSym (v : Vec) : Except PyErr Mat :=
  let size := symSize v.size
  if v.size = tri size then
    let sym : ℕ → ℕ → ℚ := fun i j => if j ≤ i then v.get (tri i + j) else 0
    .ok ⟨size, size, fun i j => sym i j + sym j i - (if i = j then sym i i else 0)⟩
  else .error .valueError

/-- `compress_sym`, `pystruct/utils/inference.py` lines 27-50.  Non-square input fails (`ValueError`:
operands or mask do not match). -/
def compressSym (m : Mat) (makeSymmetric : Bool := true) : Except PyErr Vec :=
  if m.rows = m.cols then
    let e : ℕ → ℕ → ℚ :=
      if makeSymmetric then fun i j => m.get i j + m.get j i - (if i = j then m.get i i else 0)
      else m.get
    .ok ⟨tri m.rows, fun k => e (triRow k) (triCol k)⟩
  else .error .valueError

end Verif.Sym
