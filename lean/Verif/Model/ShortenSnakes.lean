import Verif.Model.Snakes

/-!
# Model of `shorten_snakes`, `examples/plot_hidden_snakes.py`
-/

namespace Verif.Snakes

open Verif.Common

/-- The labels of the pixels of an image, an integer array of two dimensions. `examples/plot_hidden_snakes.py` lines 197-198. -/
structure LabelPict where
  h : ℕ
  w : ℕ
  get : ℕ → ℕ → ℤ

/-- `np.where` of a condition on the labels: the places row by row. `examples/plot_hidden_snakes.py` lines 199 and 203. -/
def whereLabel (y : LabelPict) (P : ℤ → Bool) : List (ℕ × ℕ) :=
  ((List.range y.h).product (List.range y.w)).filter fun p => P (y.get p.1 p.2)

/-- `min(a)`; of nothing it raises `ValueError`. `examples/plot_hidden_snakes.py` lines 204-205. -/
def pyMin : List ℕ → Except PyErr ℕ
  | [] => .error .valueError
  | a :: l => .ok (l.foldl min a)

/-- `max(a)`; of nothing it raises `ValueError`. `examples/plot_hidden_snakes.py` lines 204-205. -/
def pyMax : List ℕ → Except PyErr ℕ
  | [] => .error .valueError
  | a :: l => .ok (l.foldl max a)

/-- A bound of a slice of an axis of length `n`: negative bounds count from the end, and bounds beyond the axis are moved to its ends.
`examples/plot_hidden_snakes.py` lines 206-207. -/
def sliceBound (n : ℕ) (a : ℤ) : ℕ := if a < 0 then (a + n).toNat else min a.toNat n

/-- `Y[a:b, c:d]`, `examples/plot_hidden_snakes.py` line 206. -/
def cropLabels (y : LabelPict) (a b c d : ℤ) : LabelPict :=
  ⟨sliceBound y.h b - sliceBound y.h a, sliceBound y.w d - sliceBound y.w c,
    fun i j => y.get (sliceBound y.h a + i) (sliceBound y.w c + j)⟩

/-- `X[a:b, c:d, :]`, `examples/plot_hidden_snakes.py` line 207. -/
def cropPict (x : Pict) (a b c d : ℤ) : Pict :=
  ⟨sliceBound x.h b - sliceBound x.h a, sliceBound x.w d - sliceBound x.w c,
    fun i j k => x.get (sliceBound x.h a + i) (sliceBound x.w c + j) k⟩

/-- `X[ai,aj,:] = X[0,0,:]`, `examples/plot_hidden_snakes.py` line 200; an image without pixels raises `IndexError`. -/
def blankPict (x : Pict) (cells : List (ℕ × ℕ)) : Except PyErr Pict :=
  if x.h = 0 ∨ x.w = 0 then .error .indexError
  else .ok ⟨x.h, x.w, fun i j k => if (i, j) ∈ cells then x.get 0 0 k else x.get i j k⟩

/-- `Y[ai,aj] = 0`, `examples/plot_hidden_snakes.py` line 201. -/
def blankLabels (y : LabelPict) (cells : List (ℕ × ℕ)) : LabelPict :=
  ⟨y.h, y.w, fun i j => if (i, j) ∈ cells then 0 else y.get i j⟩

/-- One round of the loop of `shorten_snakes`, `examples/plot_hidden_snakes.py` lines 197-207: the arrays as they are after the round,
which the function changes in place, and the arrays appended to the result. That the latter are views of the former is not modelled. -/
def shortenOne (N : ℤ) (x : Pict) (y : LabelPict) : Except PyErr ((Pict × LabelPict) × Pict × LabelPict) := do
  if ¬ (x.h = y.h ∧ x.w = y.w) then .error .assertionError
  else
    let cells := whereLabel y fun l => N < l
    let x' ← blankPict x cells
    let y' := blankLabels y cells
    let kept := whereLabel y' fun l => l ≠ 0
    let aimin ← pyMin (kept.map Prod.fst)
    let aimax ← pyMax (kept.map Prod.fst)
    let ajmin ← pyMin (kept.map Prod.snd)
    let ajmax ← pyMax (kept.map Prod.snd)
    .ok ((x', y'), cropPict x' ((aimin : ℤ) - 1) (aimax + 2) ((ajmin : ℤ) - 1) (ajmax + 2),
      cropLabels y' ((aimin : ℤ) - 1) (aimax + 2) ((ajmin : ℤ) - 1) (ajmax + 2))

/-- `shorten_snakes`, `examples/plot_hidden_snakes.py` lines 192-209: the lists returned. The changes in place are those of
`shortenOne`. -/
def shortenSnakes (N : ℤ) : List Pict → List LabelPict → Except PyErr (List Pict × List LabelPict)
  | x :: lX, y :: lY => do
    let a ← shortenOne N x y
    let r ← shortenSnakes N lX lY
    .ok (a.2.1 :: r.1, a.2.2 :: r.2)
  | _, _ => .ok ([], [])

end Verif.Snakes
