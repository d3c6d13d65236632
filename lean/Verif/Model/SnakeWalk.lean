import Verif.Model.Snakes

/-!
# Model of the images without snakes, `examples/plot_hidden_snakes.py`
-/

namespace Verif.Snakes

open Verif.Common

/-- An index into an axis of length `n`: negative numbers count from the end, others out of range raise `IndexError`.
`examples/plot_hidden_snakes.py` lines 88 and 94. -/
def axisIndex (n : ℕ) (i : ℤ) : Except PyErr ℕ :=
  if 0 ≤ i ∧ i < n then .ok i.toNat else if -(n : ℤ) ≤ i ∧ i < 0 then .ok (i + n).toNat else .error .indexError

/-- `np.where(a_hot_picture[i,j,:]==1)[0][0]`, `examples/plot_hidden_snakes.py` lines 88 and 94, for five channels; a pixel without
a one raises `IndexError`. -/
def colourIndex (x : Pict) (i j : ℤ) : Except PyErr ℕ := do
  let a ← axisIndex x.h i
  let b ← axisIndex x.w j
  match (List.range 5).find? fun c => x.get a b c = 1 with
  | some c => .ok c
  | none => .error .indexError

/-- `di` and `dj`; adding `None` raises `TypeError`. `examples/plot_hidden_snakes.py` lines 90-93. -/
def heading (c : ℕ) : Except PyErr (ℤ × ℤ) :=
  match c with
  | 0 => .ok (-1, 0)
  | 1 => .ok (1, 0)
  | 2 => .ok (0, 1)
  | 3 => .error .typeError
  | 4 => .ok (0, -1)
  | _ => .error .indexError

/-- The loop of `walkThruSnake`, `examples/plot_hidden_snakes.py` lines 89-98: every round appends a cell or ends the loop, so the
number of rounds is at most `nCell - 1`, the first argument. -/
def walkLoop (x : Pict) : ℕ → ℤ → ℤ → ℕ → List (ℤ × ℤ) → Except PyErr (List (ℤ × ℤ))
  | 0, _, _, _, lij => .ok lij
  | n + 1, i, j, c, lij => do
    let d ← heading c
    let i' := i + d.1
    let j' := j + d.2
    let c' ← colourIndex x i' j'
    if c' = 3 then .ok lij
    else if (i', j') ∈ lij then .ok lij
    else walkLoop x n i' j' c' (lij ++ [(i', j')])

/-- `walkThruSnake`, `examples/plot_hidden_snakes.py` lines 81-98. -/
def walkThruSnake (x : Pict) (i j : ℤ) (nCell : ℕ) : Except PyErr (List (ℤ × ℤ)) := do
  let c ← colourIndex x i j
  walkLoop x (nCell - 1) i j c []

/-- `np.where(a_hot_picture[...,3] != 1)`: the cells that are not background, row by row. `examples/plot_hidden_snakes.py` lines 68,
105 and 109. -/
def snakeCells (x : Pict) : List (ℕ × ℕ) :=
  ((List.range x.h).product (List.range x.w)).filter fun p => x.get p.1 p.2 3 ≠ 1

/-- The loop of `isSnakePresent`, `examples/plot_hidden_snakes.py` lines 72-79. -/
def presentLoop (x : Pict) (nCell : ℕ) : List (ℕ × ℕ) → Except PyErr Bool
  | [] => .ok false
  | p :: rest => do
    let lij ← walkThruSnake x p.1 p.2 nCell
    if (lij.length : ℤ) = (nCell : ℤ) - 1 then .ok true else presentLoop x nCell rest

/-- `isSnakePresent`, `examples/plot_hidden_snakes.py` lines 63-79. -/
def isSnakePresent (x : Pict) (nCell : ℕ) : Except PyErr Bool := presentLoop x nCell (snakeCells x)

/-- all channels of two pixels agree. `examples/plot_hidden_snakes.py` line 116. -/
def samePixel (nch : ℕ) (x : Pict) (p q : ℕ × ℕ) : Bool := (List.range nch).all fun c => x.get p.1 p.2 c = x.get q.1 q.2 c

/-- `a_picture[p] = a_picture[q]`. `examples/plot_hidden_snakes.py` line 117. -/
def copyPixel (x : Pict) (p q : ℕ × ℕ) : Pict :=
  ⟨x.h, x.w, fun i j c => if (i, j) = p then x.get q.1 q.2 c else x.get i j c⟩

/-- The loop of `changeOneSnakeCell`, `examples/plot_hidden_snakes.py` lines 114-119; `froms` are the cells drawn. -/
def changeLoop (nch : ℕ) (p : ℕ × ℕ) : List (ℕ × ℕ) → Pict → Pict
  | [], x => x
  | q :: rest, x => if samePixel nch x p q then changeLoop nch p rest x else copyPixel x p q

/-- The five-channel picture that a picture stands for. `examples/plot_hidden_snakes.py` lines 104-109 and 177. -/
def asHot (oneHot : Bool) (x : Pict) : Pict := if oneHot then x else oneHotColors x

/-- `changeOneSnakeCell`, `examples/plot_hidden_snakes.py` lines 100-121: `change` and `froms` are the random numbers drawn, below
`nCell`; a drawn number selects a cell that is not background. `randint(0, -1)` raises `ValueError`. -/
def changeOneSnakeCell (oneHot : Bool) (nCell : ℕ) (change : ℕ) (froms : List ℕ) (x : Pict) : Except PyErr Pict :=
  let cells := snakeCells (asHot oneHot x)
  if cells.length ≠ nCell then .error .assertionError
  else if nCell = 0 then .error .valueError
  else .ok (changeLoop (if oneHot then 5 else 3) (cells.getD change (0, 0)) (froms.map fun f => cells.getD f (0, 0)) x)

/-- Second loop of `augmentWithNoSnakeImages`, `examples/plot_hidden_snakes.py` lines 174-184: the pictures kept. The check is made
with the default `nCell=10`. -/
def keepLoop {L : Type} (oneHot : Bool) : List (Pict × L) → Except PyErr (List (Pict × L))
  | [] => .ok []
  | p :: rest => do
    let b ← isSnakePresent (asHot oneHot p.1) 10
    let r ← keepLoop oneHot rest
    .ok (if b then r else p :: r)

/-- First loop of `augmentWithNoSnakeImages`, `examples/plot_hidden_snakes.py` line 170; `draws` are the random numbers for every
picture. -/
def distortLoop {L : Type} (oneHot : Bool) (nCell : ℕ) : List (Pict × L) → List (ℕ × List ℕ) → Except PyErr (List (Pict × L))
  | [], _ => .ok []
  | p :: rest, draws => do
    let x ← changeOneSnakeCell oneHot nCell (draws.headD (0, [])).1 (draws.headD (0, [])).2 p.1
    let r ← distortLoop oneHot nCell rest draws.tail
    .ok ((x, p.2) :: r)

/-- `augmentWithNoSnakeImages`, `examples/plot_hidden_snakes.py` lines 156-185, for an integer `iMult`: `zero` turns a label array into
zeros of the same shape. Result: number of added pictures, and all pictures with their labels. -/
def augmentWithNoSnakeImages {L : Type} (zero : L → L) (oneHot : Bool) (iMult : ℤ) (nCell : ℕ) (draws : List (ℕ × List ℕ))
    (data : List (Pict × L)) : Except PyErr (ℕ × List (Pict × L)) := do
  let copies := (List.range iMult.toNat).foldl (fun acc _ => acc ++ data) []
  let distorted ← distortLoop oneHot nCell copies draws
  let kept ← keepLoop oneHot distorted
  .ok (kept.length, data ++ kept.map fun p => (p.1, zero p.2))

/-- `zip(*args)` as a list of tuples, `examples/plot_hidden_snakes.py` lines 188 and 190: as many as the shortest list has entries, none
without lists. The entries of the lists are taken from one type. -/
def zipAll {α : Type} (args : List (List α)) : List (List α) :=
  match args with
  | [] => []
  | a :: rest => (List.range (rest.foldl (fun n l => min n l.length) a.length)).map fun i => args.filterMap fun l => l[i]?

/-- `shuffle_in_unison`, `examples/plot_hidden_snakes.py` lines 187-190; `order` are the indices of the tuples in the order in which
`random.shuffle` puts them. -/
def shuffleInUnison {α : Type} (order : List ℕ) (args : List (List α)) : List (List α) :=
  zipAll (order.filterMap fun i => (zipAll args)[i]?)

end Verif.Snakes
