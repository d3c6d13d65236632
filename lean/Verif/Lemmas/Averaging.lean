import Verif.Basic.Arr
import Mathlib.Tactic.FieldSimp
import Mathlib.Tactic.Linarith
import Mathlib.Algebra.BigOperators.Intervals

/-!
# Running averages with the step lengths used in pystruct
-/

namespace Verif

open Finset

/-- step lengths `2/(t+2)` give weights `1, 2, …, t`. -/
theorem linear_average (a v : ℕ → ℚ)
    (h : ∀ t : ℕ, a (t + 1) = (1 - 2 / ((t : ℚ) + 2)) * a t + 2 / ((t : ℚ) + 2) * v t) (t : ℕ) :
    (∑ j ∈ range t, ((j : ℚ) + 1)) * a t = ∑ j ∈ range t, ((j : ℚ) + 1) * v j := by
  have hs : ∀ t : ℕ, ∑ j ∈ range t, ((j : ℚ) + 1) = t * (t + 1) / 2 := by
    intro t
    induction t with
    | zero => simp
    | succ t ih => rw [sum_range_succ, ih]; push_cast; ring
  induction t with
  | zero => simp
  | succ t ih =>
    rw [sum_range_succ (fun j => ((j : ℚ) + 1) * v j), ← ih, h t, hs, hs]
    have : (t : ℚ) + 2 ≠ 0 := by positivity
    push_cast
    field_simp
    ring

/-- step lengths `6(t+1)/((t+2)(2t+3))` give weights `1, 4, …, t²`. -/
theorem squared_average (a v : ℕ → ℚ)
    (h : ∀ t : ℕ, a (t + 1) = (1 - 6 * ((t : ℚ) + 1) / (((t : ℚ) + 2) * (2 * t + 3))) * a t +
      6 * ((t : ℚ) + 1) / (((t : ℚ) + 2) * (2 * t + 3)) * v t) (t : ℕ) :
    (∑ j ∈ range t, ((j : ℚ) + 1) ^ 2) * a t = ∑ j ∈ range t, ((j : ℚ) + 1) ^ 2 * v j := by
  have hs : ∀ t : ℕ, ∑ j ∈ range t, ((j : ℚ) + 1) ^ 2 = (t : ℚ) * (t + 1) * (2 * t + 1) / 6 := by
    intro t
    induction t with
    | zero => simp
    | succ t ih => rw [sum_range_succ, ih]; push_cast; ring
  induction t with
  | zero => simp
  | succ t ih =>
    rw [sum_range_succ (fun j => ((j : ℚ) + 1) ^ 2 * v j), ← ih, h t, hs, hs]
    have h2 : (t : ℚ) + 2 ≠ 0 := by positivity
    have h3 : 2 * (t : ℚ) + 3 ≠ 0 := by positivity
    push_cast
    field_simp
    ring

end Verif
