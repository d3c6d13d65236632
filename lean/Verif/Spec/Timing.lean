import Mathlib.Algebra.Order.Field.Rat
import Mathlib.Order.Monotone.Basic

/-!
# Training times
-/

namespace Verif.Spec

/-- The total training time at the first `n` readings `clock 1`, `clock 2`, … of a clock, for a training that starts
at time `clock 0` and continues earlier trainings that took the time `before`. -/
def totalTimes (clock : ℕ → ℚ) (before : ℚ) (n : ℕ) : List ℚ :=
  (List.range n).map fun i => before + (clock (i + 1) - clock 0)

/-- The time between the end of an earlier training and the start `now` of the next one: the earlier training started at `t0` and took
the time `took`. -/
def pause (t0 took now : ℚ) : ℚ := now - (t0 + took)

end Verif.Spec
