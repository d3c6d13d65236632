import Verif.Basic.Arr
import Mathlib.Data.Finset.Fold
import Mathlib.Algebra.Order.Ring.Rat

/-!
# Specification: multi-class and binary support vector machines

The textbook training objectives, for samples `(x, y)` with `F` features. None of these definitions refers to a model of
the code.
-/

namespace Verif.Spec

open Finset

/-- Score of class `c`: its `F` weights times the features. -/
def linearScore (F : ℕ) (w x : ℕ → ℚ) (c : ℕ) : ℚ := ∑ f ∈ range F, w (c * F + f) * x f

/-- Multi-class hinge loss of Crammer and Singer: how far the best other class is from being beaten by `margin`, or 0. -/
def multiHinge (S F : ℕ) (margin : ℚ) (w x : ℕ → ℚ) (y : ℕ) : ℚ :=
  (range S).fold max 0 fun c => if c = y then 0 else margin + linearScore F w x c - linearScore F w x y

/-- Training objective of the multi-class support vector machine of Crammer and Singer, where samples of class `y` have cost
`cost y` and margin `margin y`. -/
def multiSVM (S F : ℕ) (C : ℚ) (cost margin : ℕ → ℚ) (samples : List ((ℕ → ℚ) × ℕ)) (w : ℕ → ℚ) : ℚ :=
  (∑ k ∈ range (S * F), w k ^ 2) / 2 + C * (samples.map fun s => cost s.2 * multiHinge S F (margin s.2) w s.1 s.2).sum

/-- Training objective of the linear support vector machine without intercept, labels `-1` and `1`. -/
def linearSVM (F : ℕ) (C : ℚ) (samples : List ((ℕ → ℚ) × ℤ)) (w : ℕ → ℚ) : ℚ :=
  (∑ k ∈ range F, w k ^ 2) / 2 + C * (samples.map fun s => max 0 (1 - s.2 * ∑ k ∈ range F, w k * s.1 k)).sum

end Verif.Spec
