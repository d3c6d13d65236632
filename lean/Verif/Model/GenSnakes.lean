import Verif.Model.ShortenSnakes
import Verif.Model.SnakeWalk

/-!
# Model of `genSnakes`, `examples/plot_hidden_short_snakes_typed_gen.py`
-/

namespace Verif.Snakes

open Verif.Common

/-- A board on which a snake is drawn, a square array of integers; `-1` is background.
`examples/plot_hidden_short_snakes_typed_gen.py` lines 117-118. -/
structure Board where
  ndim : ℕ
  get : ℕ → ℕ → ℤ

/-- `ndim`: border, cells, centre, cells, border. `examples/plot_hidden_short_snakes_typed_gen.py` line 117. -/
def boardSize (ncell : ℕ) : ℕ := 1 + ncell + 1 + ncell + 1

/-- `aBoard[:,:] = -1`, `examples/plot_hidden_short_snakes_typed_gen.py` lines 117-118 and 125. -/
def emptyBoard (ncell : ℕ) : Board := ⟨boardSize ncell, fun _ _ => -1⟩

/-- `lDirectionIncr`, north, east, south, west. `examples/plot_hidden_short_snakes_typed_gen.py` line 121. -/
def increment (d : ℕ) : ℤ × ℤ := [(-1, 0), (0, 1), (1, 0), (0, -1)].getD d (0, 0)

/-- `lDirectionColor`, red, green and blue. `examples/plot_hidden_short_snakes_typed_gen.py` line 122. -/
def directionColour (d : ℕ) : ℕ → ℚ := fun c => ([[255, 0, 0], [255, 255, 0], [0, 255, 0], [0, 255, 255]].getD d []).getD c 0

/-- The colour of the background. `examples/plot_hidden_short_snakes_typed_gen.py` lines 150-151. -/
def backgroundColour : ℕ → ℚ := fun c => if c = 2 then 255 else 0

/-- `aBoard[i,j]`, `examples/plot_hidden_short_snakes_typed_gen.py` lines 136-137. -/
def Board.at (b : Board) (i j : ℤ) : Except PyErr ℤ := do
  let r ← axisIndex b.ndim i
  let c ← axisIndex b.ndim j
  .ok (b.get r c)

/-- `aBoard[i,j] = dir`, `examples/plot_hidden_short_snakes_typed_gen.py` line 138. -/
def Board.set (b : Board) (i j : ℤ) (d : ℕ) : Except PyErr Board := do
  let r ← axisIndex b.ndim i
  let c ← axisIndex b.ndim j
  .ok ⟨b.ndim, fun p q => if p = r ∧ q = c then (d : ℤ) else b.get p q⟩

/-- The loop over directions, `examples/plot_hidden_short_snakes_typed_gen.py` lines 134-136: the values of `dir`, `_i` and `_j` after
the loop, which ends early if a direction leads to a background pixel. Without directions they would not be bound. -/
def tryDirections (b : Board) (i j : ℤ) : List ℕ → Except PyErr (ℕ × ℤ × ℤ)
  | [] => .error .unboundLocalError
  | d :: rest => do
    let v ← b.at (i + (increment d).1) (j + (increment d).2)
    if v = -1 ∨ rest = [] then .ok (d, i + (increment d).1, j + (increment d).2) else tryDirections b i j rest

/-- The loop over cells, `examples/plot_hidden_short_snakes_typed_gen.py` lines 131-141 and 158. `order k` is the order of the directions that
`random.shuffle` produces for cell `k` (of a list: `range(4)` is one in Python 2, of a `range` of Python 3 it raises `TypeError`). The lists `lij` and `ldir` always have the same length and are kept as one list of pairs.
`none`: a `GenSnakeException`, the snake got stuck. -/
def attemptLoop (order : ℕ → List ℕ) : ℕ → ℕ → Board → ℤ → ℤ → List ((ℤ × ℤ) × ℕ) → Except PyErr (Option (List ((ℤ × ℤ) × ℕ)))
  | 0, _, _, _, _, cells => .ok (some cells)
  | n + 1, k, b, i, j, cells => do
    let t ← tryDirections b i j (order k)
    let v ← b.at t.2.1 t.2.2
    if v ≠ -1 then .ok none
    else
      let b' ← b.set i j t.1
      attemptLoop order n (k + 1) b' t.2.1 t.2.2 (cells ++ [((i, j), t.1)])

/-- `min` of the coordinates; of nothing there is nothing to unpack (`ValueError`).
`examples/plot_hidden_short_snakes_typed_gen.py` line 148. -/
def minCoordinate : List ℤ → Except PyErr ℤ
  | [] => .error .valueError
  | a :: l => .ok (l.foldl min a)

/-- `max` of the coordinates; of nothing there is nothing to unpack (`ValueError`).
`examples/plot_hidden_short_snakes_typed_gen.py` line 149. -/
def maxCoordinate : List ℤ → Except PyErr ℤ
  | [] => .error .valueError
  | a :: l => .ok (l.foldl max a)

/-- An array after some of its elements have been written, in this order.
`examples/plot_hidden_short_snakes_typed_gen.py` lines 153-155. -/
def writeAll {V : Type} (l : List ((ℕ × ℕ) × V)) (f : ℕ × ℕ → V) : ℕ × ℕ → V :=
  l.foldl (fun f s => fun p => if p = s.1 then s.2 else f p) f

/-- The image and the labels of a snake, `examples/plot_hidden_short_snakes_typed_gen.py` lines 148-155. Labels are stored in eight
bits. The indices written to are in range as the least and the largest coordinates are used to make the arrays. -/
def drawSnake (cells : List ((ℤ × ℤ) × ℕ)) : Except PyErr (Pict × LabelPict) := do
  let imin ← minCoordinate (cells.map fun s => s.1.1)
  let jmin ← minCoordinate (cells.map fun s => s.1.2)
  let imax ← maxCoordinate (cells.map fun s => s.1.1)
  let jmax ← maxCoordinate (cells.map fun s => s.1.2)
  let h := (imax - imin + 3).toNat
  let w := (jmax - jmin + 3).toNat
  let place := fun p : ℤ × ℤ => ((p.1 - imin + 1).toNat, (p.2 - jmin + 1).toNat)
  let pixels := writeAll (cells.map fun s => (place s.1, directionColour s.2)) fun _ => backgroundColour
  let labels := writeAll (cells.zipIdx.map fun s => (place s.1.1, (((s.2 + 1) % 256 : ℕ) : ℤ))) fun _ => 0
  .ok (⟨h, w, fun i j c => pixels (i, j) c⟩, ⟨h, w, fun i j => labels (i, j)⟩)

/-- The signature of a snake, `tuple(lij)`. `examples/plot_hidden_short_snakes_typed_gen.py` lines 143 and 146. -/
def signature (cells : List ((ℤ × ℤ) × ℕ)) : List (ℤ × ℤ) := cells.map Prod.fst

/-- The `while True` loop, `examples/plot_hidden_short_snakes_typed_gen.py` lines 124-158, for a list of attempts, each given by the
orders of directions drawn. `known` are the keys of `dUniqueSnakelij`. Result: the image, the labels and the keys after the loop;
`none` if all attempts fail, when the loop goes on. -/
def genOne (ncell : ℕ) (known : List (List (ℤ × ℤ))) :
    List (ℕ → List ℕ) → Except PyErr (Option ((Pict × LabelPict) × List (List (ℤ × ℤ))))
  | [] => .ok none
  | order :: rest => do
    let r ← attemptLoop order ncell 0 (emptyBoard ncell) (1 + ncell) (1 + ncell) []
    match r with
    | none => genOne ncell known rest
    | some cells =>
      if signature cells ∈ known then genOne ncell known rest
      else do
        let img ← drawSnake cells
        .ok (some (img, signature cells :: known))

/-- `genSnakes`, `examples/plot_hidden_short_snakes_typed_gen.py` lines 109-163: one list of attempts for each of the snakes. Result:
the images with labels and the keys of `dUniqueSnakelij` after the call; `none` if a loop goes on forever. -/
def genSnakes (ncell : ℕ) : List (List (ℕ → List ℕ)) → List (List (ℤ × ℤ)) →
    Except PyErr (Option (List (Pict × LabelPict) × List (List (ℤ × ℤ))))
  | [], known => .ok (some ([], known))
  | a :: rest, known => do
    let r ← genOne ncell known a
    match r with
    | none => .ok none
    | some s => do
      let t ← genSnakes ncell rest s.2
      .ok (t.map fun u => (s.1 :: u.1, u.2))

end Verif.Snakes
