import Verif.Spec.SnakePaths

/-!
# Specification: an image of one snake with its labels
-/

namespace Verif.Spec

/-- The image `x` of size `h × w`, with one of five colours per pixel, shows the snake `p 0, …, p (n - 1)` and nothing else, in a frame
of background that is as small as possible. The last cell points to background. The labels `y` number the cells of the snake from one,
in eight bits, and are zero elsewhere. -/
structure Portrait (n h w : ℕ) (x : ℕ → ℕ → ℕ → ℚ) (y : ℕ → ℕ → ℤ) (p : ℕ → ℤ × ℤ) : Prop where
  snake : IsSnake h w x n p
  one : OneHotPict h w x
  border : Bordered h w x
  rest : ∀ i < h, ∀ j < w, (∀ k < n, p k ≠ ((i : ℤ), (j : ℤ))) → x i j 3 = 1
  top : ∃ k < n, (p k).1 = 1
  bottom : ∃ k < n, (p k).1 + 2 = h
  left : ∃ k < n, (p k).2 = 1
  right : ∃ k < n, (p k).2 + 2 = w
  tip : ∃ c, HasColour h w x (p (n - 1)) c ∧ ∀ k < n, p k ≠ p (n - 1) + pointsTo c
  label : ∀ k < n, y (p k).1.toNat (p k).2.toNat = ((k + 1) % 256 : ℕ)
  blank : ∀ i < h, ∀ j < w, (∀ k < n, p k ≠ ((i : ℤ), (j : ℤ))) → y i j = 0

/-- A walk from `p` to `q` that notes every place it leaves with the direction taken: up, right, down, left. -/
def Walk : ℤ × ℤ → List ((ℤ × ℤ) × ℕ) → ℤ × ℤ → Prop
  | p, [], q => p = q
  | p, s :: l, q => s.1 = p ∧ s.2 < 4 ∧ Walk (p + [(-1, 0), (0, 1), (1, 0), (0, -1)].getD s.2 0) l q

/-- The walk visits no place twice. -/
def SelfAvoiding (l : List ((ℤ × ℤ) × ℕ)) (q : ℤ × ℤ) : Prop := (l.map Prod.fst ++ [q]).Nodup

end Verif.Spec
