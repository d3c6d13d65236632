import Mathlib.Algebra.Order.Field.Rat

/-!
# What a plot of the training shows
-/

namespace Verif.Spec

/-- The place of value number `i` of `n` on the x-axis: the number `i`, or the time in minutes that was recorded at the
start of the following iteration, and at the end of the training for the last values. -/
def place (byTime : Bool) (timestamps : List ℚ) (n i : ℕ) : ℚ :=
  if byTime then timestamps.getD (min (i + 2) n) 0 / 60 else i

/-- The points of a curve show all values, each at its place. -/
def Shows (pos : ℕ → ℚ) (values : List ℚ) (points : List (ℚ × ℚ)) : Prop :=
  points.length = values.length ∧ ∀ i v, values[i]? = some v → points[i]? = some (pos i, v)

/-- The marks show the values that are selected, each at its place. -/
def Marks (pos : ℕ → ℚ) (values : List ℚ) (sel : ℕ → Bool) (points : List (ℚ × ℚ)) : Prop :=
  points = ((List.range values.length).filter sel).map fun i => (pos i, values.getD i 0)

/-- The iterations `0, …, k - 1` in which the loss is computed. -/
def lossIterations (every k : ℕ) : List ℕ := (List.range k).filter fun i => decide (every ∣ i)

end Verif.Spec
