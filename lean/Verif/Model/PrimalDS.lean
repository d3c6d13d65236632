import Verif.Model.Learner

/-!
# Model of `pystruct/learners/downhill_simplex_ssvm.py`
-/

namespace Verif.PrimalDS

open Finset Verif.Learner

/-- `func` inside `PrimalDSStructuredSVM.fit`, `pystruct/learners/downhill_simplex_ssvm.py` lines 16-24, for
`C ≠ 0`. Without samples the division by `float(len(X))` raises `ZeroDivisionError`. -/
def func {X Y : Type} (m : SModel X Y) (samples : List (X × Y)) (C : ℚ) (w : W) : Except PyErr ℚ :=
  let objective := samples.foldl (fun o s => o + (findConstraint m s.1 s.2 w none true true).slack) 0
  if samples.length = 0 then .error .zeroDivisionError
  else .ok (objective / samples.length + (∑ k ∈ range m.dim, w k ^ 2) / C / 2)

/-- `scipy.optimize.fmin(func, x0, full_output=1)` (not modelled): the point found and its value, or
the exception that the function raises. `pystruct/learners/downhill_simplex_ssvm.py` lines 26-27. -/
abbrev Fmin := (W → Except PyErr ℚ) → W → Except PyErr (W × ℚ)

/-- `PrimalDSStructuredSVM.fit`, `pystruct/learners/downhill_simplex_ssvm.py` lines 15-29: two runs from two
starting points, the better result is kept. -/
def fit {X Y : Type} (fmin : Fmin) (m : SModel X Y) (samples : List (X × Y)) (C : ℚ) : Except PyErr W := do
  let w : W := fun _ => 1 / 100000
  let res ← fmin (func m samples C) (fun k => w k + 1)
  let res2 ← fmin (func m samples C) w
  pure (if res.2 < res2.2 then res.1 else res2.1)

end Verif.PrimalDS
