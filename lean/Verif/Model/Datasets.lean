import Verif.Basic.Arr

/-!
# Model of `pystruct/datasets/synthetic_grids.py`

Random numbers are a parameter: `randint` reads the next entry of a tape of natural numbers, `normal` arrays are arbitrary
functions. All theorems quantify over them. `np.int`, which recent versions of numpy do not have, is taken to be `int`.
-/

namespace Verif.Datasets

/-- Result of a program that may loop forever. `diverged`: some `while` loop has not ended after the
given number of passes. Loops of `pystruct/datasets/synthetic_grids.py` lines 182-185. -/
inductive Run (α : Type) where
  | diverged
  | raised (e : PyErr)
  | done (a : α)

/-- Programs that draw random numbers: given the tape and the position in it, they return a value
and the new position. `np.random` in `pystruct/datasets/synthetic_grids.py` lines 9-331. The
generator is numpy and is a tape here. -/
def Gen (α : Type) : Type := (ℕ → ℕ) → ℕ → Run (α × ℕ)

/-- sequential composition. Statements one after the other, `pystruct/datasets/synthetic_grids.py`
lines 9-331. -/
def Gen.bind {α β : Type} (x : Gen α) (f : α → Gen β) : Gen β := fun tape p =>
  match x tape p with
  | .diverged => .diverged
  | .raised e => .raised e
  | .done (a, q) => f a tape q

instance : Monad Gen where
  pure a := fun _ p => .done (a, p)
  bind := Gen.bind

/-- an exception. Raised by numpy in `pystruct/datasets/synthetic_grids.py` lines 77 and 85. -/
def raise {α : Type} (e : PyErr) : Gen α := fun _ _ => .raised e

/-- `np.random.randint(lo, hi)`: `ValueError` for an empty range. Python's upper ends may be
negative, here they are truncated to zero; both ranges are empty. E.g.
`pystruct/datasets/synthetic_grids.py` line 58. -/
def randint (lo hi : ℕ) : Gen ℕ := fun tape p =>
  if hi ≤ lo then .raised .valueError else .done (lo + tape p % (hi - lo), p + 1)

/-- `np.random.randint(lo, hi, size=k)`. E.g. `pystruct/datasets/synthetic_grids.py` line 86. -/
def randints (lo hi : ℕ) : ℕ → Gen (List ℕ)
  | 0 => pure []
  | k + 1 => do
    let a ← randint lo hi
    let l ← randints lo hi k
    return a :: l

/-- `np.random.uniform() > .5`. `pystruct/datasets/synthetic_grids.py` line 112. -/
def coin : Gen Bool := fun tape p => .done (decide (tape p % 2 = 1), p + 1)

/-- `for j in range(n): body`. E.g. `pystruct/datasets/synthetic_grids.py` line 69. -/
def times {σ : Type} (body : σ → Gen σ) : ℕ → σ → Gen σ
  | 0, s => pure s
  | n + 1, s => do
    let s' ← body s
    times body n s'

/-- `[body for i in range(n)]`. E.g. `pystruct/datasets/synthetic_grids.py` line 67. -/
def collect {α : Type} (body : Gen α) : ℕ → Gen (List α)
  | 0 => pure []
  | n + 1 => do
    let a ← body
    let l ← collect body n
    return a :: l

/-- `for y in ys: ...` with results collected. E.g. `pystruct/datasets/synthetic_grids.py` line 84.
-/
def forAll {α β : Type} (body : α → Gen β) : List α → Gen (List β)
  | [] => pure []
  | a :: l => do
    let b ← body a
    let bs ← forAll body l
    return b :: bs

/-- `while True: draw; if ok: break`, for at most `fuel` passes. Loops of
`pystruct/datasets/synthetic_grids.py` lines 182-185. -/
def until_ {α : Type} (draw : Gen α) (ok : α → Bool) : ℕ → Gen α
  | 0 => fun _ _ => .diverged
  | fuel + 1 => do
    let a ← draw
    if ok a then return a else until_ draw ok fuel

/-- A label image; entries outside of the image are irrelevant. E.g.
`pystruct/datasets/synthetic_grids.py` line 66. -/
abbrev Img := ℕ → ℕ → ℕ

/-- The feature image of a sample: row, column, channel. E.g. `pystruct/datasets/synthetic_grids.py`
line 87. -/
abbrev Feat := ℕ → ℕ → ℕ → ℚ

/-- `np.random.randint(lo, hi, size=2)`. E.g. `pystruct/datasets/synthetic_grids.py` line 77. -/
def pair (lo hi : ℕ) : Gen (ℕ × ℕ) := do
  let t ← randint lo hi
  let l ← randint lo hi
  return (t, l)

/-- `y[flips[:, 0], flips[:, 1]] = values`; for a pixel that occurs more than once the last value
counts. E.g. `pystruct/datasets/synthetic_grids.py` line 86. -/
def assign : Img → List ℕ → List ℕ → Img
  | y, a :: b :: fl, v :: vs => assign (fun i j => if i = a ∧ j = b then v else y i j) fl vs
  | y, _, _ => y

/-- The noise on a label image, e.g. `pystruct/datasets/synthetic_grids.py` lines 84-86: `noise` pixels with both
coordinates in `[lo, hi)` get random labels below `k`. -/
def flip (lo hi noise k : ℕ) (y : Img) : Gen Img := do
  let flips ← randints lo hi (2 * noise)
  let values ← randints 0 k noise
  return assign y flips values

/-- `X[ix, iy, iz, f * Y_flips] = 1` for several factors `f`, e.g.
`pystruct/datasets/synthetic_grids.py` lines 87-89: `IndexError` if there is no such channel. -/
def encode (channels size : ℕ) (factors : List ℕ) (ys : List Img) : Gen (List Feat) :=
  if ys.any fun y => (List.range size).any fun i => (List.range size).any fun j =>
      factors.any fun f => decide (channels ≤ f * y i j)
  then raise .indexError
  else return ys.map fun y i j c => if factors.any fun f => decide (c = f * y i j) then 1 else 0

/-- The test of `pystruct/datasets/synthetic_grids.py` line 78 (and 108, 157, 262, 290): more than
`d` away from the last position in one of the directions. -/
def far (d : ℤ) (old : ℤ × ℤ) (p : ℕ × ℕ) : Bool := decide (d < |(p.1 : ℤ) - old.1|) || decide (d < |(p.2 : ℤ) - old.2|)

/-- `Y[i, t:t + h, l:l + w] = v`. E.g. `pystruct/datasets/synthetic_grids.py` line 81. -/
def box (t l h w v : ℕ) (y : Img) : Img := fun i j => if t ≤ i ∧ i < t + h ∧ l ≤ j ∧ j < l + w then v else y i j

/-- the image of zeros. E.g. `pystruct/datasets/synthetic_grids.py` line 66. -/
def blank : Img := fun _ _ => 0

/-- the pair of integers for a position. E.g. `pystruct/datasets/synthetic_grids.py` lines 79-80. -/
def toOld (p : ℕ × ℕ) : ℤ × ℤ := (p.1, p.2)

/-- The loop body in `pystruct/datasets/synthetic_grids.py` lines 77-81 of `generate_easy`. -/
def easyStep (boxSize totalSize : ℕ) (s : (ℤ × ℤ) × Img) : Gen ((ℤ × ℤ) × Img) := do
  let p ← pair 1 (totalSize - boxSize)
  if far 3 s.1 p then return (toOld p, box p.1 p.2 boxSize boxSize 1 s.2) else return s

/-- `generate_easy`, `pystruct/datasets/synthetic_grids.py` lines 64-90. -/
def generateEasy (nSamples noise boxSize totalSize : ℕ) : Gen (List Feat × List Img) := do
  let ss ← collect (times (easyStep boxSize totalSize) 2 ((-10, -10), blank)) nSamples
  let ys := ss.map Prod.snd
  let fl ← forAll (flip 0 totalSize noise 2) ys
  let xs ← encode 2 totalSize [1] fl
  return (xs, ys)

/-- The loop body in `pystruct/datasets/synthetic_grids.py` lines 107-115 of `generate_bars`. -/
def barsStep (barsSize totalSize : ℕ) (separate : Bool) (s : (ℤ × ℤ) × Img) : Gen ((ℤ × ℤ) × Img) := do
  let p ← pair 1 (totalSize - barsSize)
  if far 3 s.1 p then do
    let c ← coin
    if c then return (toOld p, box p.1 p.2 barsSize 1 (if separate then 2 else 1) s.2)
    else return (toOld p, box p.1 p.2 1 barsSize 1 s.2)
  else return s

/-- `len(np.unique(Y))`, `pystruct/datasets/synthetic_grids.py` line 118. -/
def countLabels (size : ℕ) (ys : List Img) : ℕ :=
  (ys.flatMap fun y => (List.range size).flatMap fun i => (List.range size).map fun j => y i j).dedup.length

/-- `generate_bars`, `pystruct/datasets/synthetic_grids.py` lines 93-125. The number of channels
`n_classes`, visible in Python as `X.shape[3]`, is returned as a third component. -/
def generateBars (nSamples noise barsSize totalSize : ℕ) (separate : Bool) : Gen (List Feat × List Img × ℕ) := do
  let ss ← collect (times (barsStep barsSize totalSize separate) 2 ((-10, -10), blank)) nSamples
  let ys := ss.map Prod.snd
  let k := countLabels totalSize ys
  let fl ← forAll (flip 0 totalSize noise k) ys
  let xs ← encode k totalSize [1] fl
  return (xs, ys, k)

/-- `pystruct/datasets/synthetic_grids.py` lines 134-136 of `generate_square_with_hole`. -/
def holeImage (totalSize : ℕ) : Gen Img := do
  let p ← pair 1 (totalSize - 3)
  return box (p.1 + 1) (p.2 + 1) 1 1 0 (box p.1 p.2 3 3 1 blank)

/-- `generate_square_with_hole`, `pystruct/datasets/synthetic_grids.py` lines 128-145. -/
def generateSquareWithHole (nSamples noise totalSize : ℕ) : Gen (List Feat × List Img) := do
  let ys ← collect (holeImage totalSize) nSamples
  let fl ← forAll (flip 0 totalSize noise 2) ys
  let xs ← encode 2 totalSize [1] fl
  return (xs, ys)

/-- A cross with arms of label `v` and a centre of label `c`, e.g.
`pystruct/datasets/synthetic_grids.py` lines 161-163. -/
def cross (p : ℕ × ℕ) (v c : ℕ) (y : Img) : Img :=
  box (p.1 + 1) (p.2 + 1) 1 1 c (box p.1 (p.2 + 1) 3 1 v (box (p.1 + 1) p.2 1 3 v y))

/-- The loop body in `pystruct/datasets/synthetic_grids.py` lines 155-163 of `generate_crosses` and
288-296 of `generate_crosses_explicit`; positions are drawn from `[1, hi)`. The `while` loop makes
at most `fuel` passes. -/
def crossStep (fuel hi c : ℕ) (s : (ℤ × ℤ) × Img) : Gen ((ℤ × ℤ) × Img) := do
  let p ← until_ (pair 1 hi) (far 2 s.1) fuel
  return (toOld p, cross p 1 c s.2)

/-- `generate_crosses`, `pystruct/datasets/synthetic_grids.py` lines 148-172. -/
def generateCrosses (fuel nSamples noise totalSize nCrosses : ℕ) : Gen (List Feat × List Img) := do
  let ss ← collect (times (crossStep fuel (totalSize - 3) 1) nCrosses ((-3, -3), blank)) nSamples
  let ys := ss.map Prod.snd
  let fl ← forAll (flip 1 (totalSize - 1) noise 2) ys
  let xs ← encode 2 totalSize [1] fl
  return (xs, ys)

/-- The test in `pystruct/datasets/synthetic_grids.py` line 184 of `generate_xs`: `np.abs(t - t_old)
> 2 and np.abs(l - l_old)`. -/
def farXs (old : ℤ × ℤ) (p : ℕ × ℕ) : Bool := decide (2 < |(p.1 : ℤ) - old.1|) && decide (|(p.2 : ℤ) - old.2| ≠ 0)

/-- `pystruct/datasets/synthetic_grids.py` lines 180-192 of `generate_xs`. -/
def xsImage (fuel : ℕ) : Gen Img := do
  let p ← until_ (pair 1 5) (farXs (-3, -3)) fuel
  return box (p.1 + 3) (p.2 + 1) 1 1 1 (box (p.1 + 1) (p.2 + 3) 1 1 1 (box (p.1 + 3) (p.2 + 3) 1 1 1
    (box (p.1 + 2) (p.2 + 2) 1 1 1 (box (p.1 + 1) (p.2 + 1) 1 1 1 blank))))

/-- `generate_xs`, `pystruct/datasets/synthetic_grids.py` lines 175-201. -/
def generateXs (fuel nSamples noise : ℕ) : Gen (List Feat × List Img) := do
  let ys ← collect (xsImage fuel) nSamples
  let fl ← forAll (flip 1 7 noise 2) ys
  let xs ← encode 2 8 [1] fl
  return (xs, ys)

/-- `(Y.copy() != 0).astype(np.int)`, `pystruct/datasets/synthetic_grids.py` lines 270, 298, 322. -/
def nonzero (y : Img) : Img := fun i j => if y i j ≠ 0 then 1 else 0

/-- `pystruct/datasets/synthetic_grids.py` lines 252-268 of `generate_easy_explicit`; the test in
line 262 compares with the initial position `(-4, -4)`. -/
def easyExplicitImage : Gen Img := do
  let p ← pair 1 6
  if far 3 (-4, -4) p then
    return box (p.1 + 1) (p.2 + 1) 1 1 3 (box p.1 (p.2 + 1) 3 1 2 (box (p.1 + 1) p.2 1 3 2 (box p.1 p.2 3 3 1 blank)))
  else return blank

/-- `generate_easy_explicit`, `pystruct/datasets/synthetic_grids.py` lines 247-279. -/
def generateEasyExplicit (nSamples noise : ℕ) : Gen (List Feat × List Img) := do
  let ys ← collect easyExplicitImage nSamples
  let fl ← forAll (fun y => flip 0 9 noise 2 (nonzero y)) ys
  let xs ← encode 4 9 [1, 2, 3] fl
  return (xs, ys)

/-- `generate_crosses_explicit`, `pystruct/datasets/synthetic_grids.py` lines 282-307. -/
def generateCrossesExplicit (fuel nSamples noise size nCrosses : ℕ) : Gen (List Feat × List Img) := do
  let ss ← collect (times (crossStep fuel (size - 1) 2) nCrosses ((-3, -3), blank)) nSamples
  let ys := ss.map Prod.snd
  let fl ← forAll (fun y => flip 1 (size - 1) noise 2 (nonzero y)) ys
  let xs ← encode 3 size [1, 2] fl
  return (xs, ys)

/-- The loop body in `pystruct/datasets/synthetic_grids.py` lines 317-320 of
`generate_crosses_latent`. -/
def latentStep (y : Img) : Gen Img := do
  let p ← pair 0 6
  return cross p 2 3 y

/-- `generate_crosses_latent`, `pystruct/datasets/synthetic_grids.py` lines 310-331. -/
def generateCrossesLatent (nSamples noise : ℕ) : Gen (List Feat × List Img) := do
  let ys ← collect (times latentStep 2 blank) nSamples
  let fl ← forAll (fun y => flip 0 8 noise 2 (nonzero y)) ys
  let xs ← encode 2 8 [1] fl
  return (xs, ys)

/-- The noise of `make_simple_2x2`, `pystruct/datasets/synthetic_grids.py` lines 57-58. -/
def simpleFlip (x : Img) : Gen Img := do
  let p ← pair 0 4
  let v ← randint 0 2
  return fun i j => if i = p.1 ∧ j = p.2 then v else x i j

/-- One sample of `make_simple_2x2`, `pystruct/datasets/synthetic_grids.py` lines 51-60. -/
def simpleSample (nFlips : ℕ) : Gen ((ℕ → ℕ → ℤ) × Img) := do
  let p ← pair 0 2
  let y := box (2 * p.1) (2 * p.2) 2 2 1 blank
  let x ← times simpleFlip nFlips y
  return (fun i j => if x i j = 0 then -1 else x i j, y)

/-- `make_simple_2x2`, `pystruct/datasets/synthetic_grids.py` lines 46-61; pairs `(x, y)` instead of
two lists. -/
def makeSimple2x2 (nFlips nSamples : ℕ) : Gen (List ((ℕ → ℕ → ℤ) × Img)) :=
  collect (simpleSample nFlips) nSamples

/-! ### fixed patterns with Gaussian noise: one sample, `g` is the array of normal numbers -/

/-- `generate_blocks`, `pystruct/datasets/synthetic_grids.py` lines 9-18 (10 rows, 12 columns). -/
def blocks (noise : ℚ) (g : ℕ → ℕ → ℚ) : Feat × Img :=
  let y : ℕ → ℕ → ℚ := fun _ j => if j < 6 then -1 else 1
  let x : ℕ → ℕ → ℚ := fun i j => y i j + noise * g i j
  (fun i j c => if c = 0 then -x i j else x i j, fun i j => if 0 < y i j then 1 else 0)

/-- `generate_checker`, `pystruct/datasets/synthetic_grids.py` lines 21-29 (11 rows, 13 columns). -/
def checker (noise : ℚ) (g : ℕ → ℕ → ℚ) : Feat × Img :=
  let y : ℕ → ℕ → ℚ := fun i j => if i % 2 = 1 ∧ j % 2 = 1 then -1 else if i % 2 = 0 ∧ j % 2 = 0 then -1 else 1
  let x : ℕ → ℕ → ℚ := fun i j => y i j + noise * g i j
  (fun i j c => if c = 0 then -x i j else 0, fun i j => if 0 < y i j then 1 else 0)

/-- `generate_big_checker`, `pystruct/datasets/synthetic_grids.py` lines 32-43 (`n_fields *
field_size` rows and columns). -/
def bigChecker (noise : ℚ) (fieldSize : ℕ) (g : ℕ → ℕ → ℚ) : Feat × Img :=
  let small : ℕ → ℕ → ℚ := fun i j => if i % 2 = 1 ∧ j % 2 = 1 then -1 else if i % 2 = 0 ∧ j % 2 = 0 then -1 else 1
  let y : ℕ → ℕ → ℚ := fun i j => small (i / fieldSize) (j / fieldSize)
  let x : ℕ → ℕ → ℚ := fun i j => y i j + noise * g i j
  (fun i j c => if c = 0 then x i j else -x i j, fun i j => if y i j < 0 then 1 else 0)

/-- `np.argmax(Y, axis=3)` for three channels. `pystruct/datasets/synthetic_grids.py` lines 214 and
224. -/
def argmax3 (f : ℕ → ℚ) : ℕ := argmaxN f 3

/-- `generate_blocks_multinomial`, `pystruct/datasets/synthetic_grids.py` lines 205-215 (`size_x -
2` rows, `size_x` columns); `size_x < 2` raises `ValueError`. With `step = 0` the slice `step:-step`
is empty and `-step:` is everything. -/
def blocksMultinomial (noise : ℚ) (sizeX : ℕ) (g : ℕ → ℕ → ℕ → ℚ) : Except PyErr (Feat × Img) :=
  if sizeX < 2 then .error .valueError else
  let step := sizeX / 3
  let y : Feat := fun _ j c =>
    if c = 0 then (if j < step then 1 else 0)
    else if c = 1 then (if step ≤ j ∧ j < (if step = 0 then 0 else sizeX - step) then 1 else 0)
    else if (if step = 0 then 0 else sizeX - step) ≤ j then 1 else 0
  .ok (fun i j c => y i j c + noise * g i j c, fun i j => argmax3 (y i j))

/-- `generate_checker_multinomial`, `pystruct/datasets/synthetic_grids.py` lines 218-225 (`size_x -
2` rows, `size_x` columns). -/
def checkerMultinomial (noise : ℚ) (sizeX : ℕ) (g : ℕ → ℕ → ℕ → ℚ) : Except PyErr (Feat × Img) :=
  if sizeX < 2 then .error .valueError else
  let y : Feat := fun i j c =>
    if c = 2 then 0
    else if c = 1 then (if i % 2 = 1 ∧ j % 2 = 1 then 1 else -1)
    else (if i % 2 = 0 ∧ j % 2 = 0 then 1 else -1)
  .ok (fun i j c => y i j c + noise * g i j c, fun i j => argmax3 (y i j))

/-- `generate_big_checker_extended`, `pystruct/datasets/synthetic_grids.py` lines 228-244 (`n_fields
* field_size` rows and columns). -/
def bigCheckerExtended (noise : ℚ) (fieldSize : ℕ) (g : ℕ → ℕ → ℕ → ℚ) : Feat × Img :=
  let small : Img := fun i j => if i % 2 = 1 ∧ j % 2 = 1 then 2 else if i % 2 = 0 ∧ j % 2 = 0 then 2 else 0
  let y : Img := fun i j =>
    if i % 6 = 4 ∧ j % 6 = 4 then 3
    else if i % 6 = 1 ∧ j % 6 = 1 then 3
    else if i % 3 = 1 ∧ j % 3 = 1 then 1
    else small (i / fieldSize) (j / fieldSize)
  (fun i j c => ((if c = y i j then 1 else 0) + noise * g i j c) * 100, y)

end Verif.Datasets
