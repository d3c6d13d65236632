import Verif.Model.Snakes

/-!
# Specification: snakes in an image
-/

namespace Verif.Spec

/-- Where a cell points to: up, down, right, (background) nowhere, left. -/
def pointsTo : ℕ → ℤ × ℤ
  | 0 => (-1, 0)
  | 1 => (1, 0)
  | 2 => (0, 1)
  | 4 => (0, -1)
  | _ => (0, 0)

/-- The cell `p` of an image of size `h × w` has colour `c`. -/
def HasColour (h w : ℕ) (x : ℕ → ℕ → ℕ → ℚ) (p : ℤ × ℤ) (c : ℕ) : Prop :=
  0 ≤ p.1 ∧ p.1 < h ∧ 0 ≤ p.2 ∧ p.2 < w ∧ c < 5 ∧ x p.1.toNat p.2.toNat c = 1

/-- `p 0, …, p (n - 1)` is a snake of `n` cells: different cells that are not background, each pointing to the next. -/
def IsSnake (h w : ℕ) (x : ℕ → ℕ → ℕ → ℚ) (n : ℕ) (p : ℕ → ℤ × ℤ) : Prop :=
  (∀ k < n, ∃ c, c ≠ 3 ∧ HasColour h w x (p k) c ∧ (k + 1 < n → p (k + 1) = p k + pointsTo c)) ∧
  ∀ a < n, ∀ b < n, p a = p b → a = b

/-- `p 0, …, p (n - 1)` is a closed snake: moreover the last cell points to the first. -/
def IsLoop (h w : ℕ) (x : ℕ → ℕ → ℕ → ℚ) (n : ℕ) (p : ℕ → ℤ × ℤ) : Prop :=
  1 ≤ n ∧ IsSnake h w x n p ∧ ∃ c, HasColour h w x (p (n - 1)) c ∧ p 0 = p (n - 1) + pointsTo c

/-- Every pixel has exactly one colour. -/
def OneHotPict (h w : ℕ) (x : ℕ → ℕ → ℕ → ℚ) : Prop :=
  ∀ i < h, ∀ j < w, ∃ c < 5, ∀ c' < 5, x i j c' = 1 ↔ c' = c

/-- The pixels at the border are background. -/
def Bordered (h w : ℕ) (x : ℕ → ℕ → ℕ → ℚ) : Prop :=
  ∀ i < h, ∀ j < w, (i = 0 ∨ i + 1 = h ∨ j = 0 ∨ j + 1 = w) → x i j 3 = 1

end Verif.Spec
