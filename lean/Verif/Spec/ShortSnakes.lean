import Verif.Spec.SnakePaths

/-!
# Specification: images of shortened snakes
-/

namespace Verif.Spec

/-- The pixel `(i, j)` of an image of size `h × w` is a cell that stays when snakes are cut after the label `N`. -/
def Stays (h w : ℕ) (y : ℕ → ℕ → ℤ) (N : ℤ) (i j : ℕ) : Prop := i < h ∧ j < w ∧ y i j ≠ 0 ∧ y i j ≤ N

/-- The image `x'` with labels `y'`, of size `h' × w'`, is the part of the image `x` with labels `y`, of size `h × w`, that starts at
the pixel `(top, left)`, with all cells of labels above `N` replaced by the first pixel and the label zero. -/
def PartOf (h w : ℕ) (x : ℕ → ℕ → ℕ → ℚ) (y : ℕ → ℕ → ℤ) (N : ℤ) (h' w' : ℕ) (x' : ℕ → ℕ → ℕ → ℚ) (y' : ℕ → ℕ → ℤ) (top left : ℕ) :
    Prop :=
  ∀ i < h', ∀ j < w', top + i < h ∧ left + j < w ∧
    (y (top + i) (left + j) ≤ N → y' i j = y (top + i) (left + j) ∧ ∀ c, x' i j c = x (top + i) (left + j) c) ∧
    (N < y (top + i) (left + j) → y' i j = 0 ∧ ∀ c, x' i j c = x 0 0 c)

/-- All cells that stay are shown by the part, inside a frame of one pixel wherever the image has one. -/
def Frames (h w : ℕ) (y : ℕ → ℕ → ℤ) (N : ℤ) (h' w' top left : ℕ) : Prop :=
  ∀ i j, Stays h w y N i j → top + 1 ≤ i ∧ left + 1 ≤ j ∧ i < top + h' ∧ j < left + w' ∧
    (i + 1 < h → i + 1 < top + h') ∧ (j + 1 < w → j + 1 < left + w')

/-- The frame touches the cells that stay on all four sides: the part cannot be smaller. -/
def TightFrame (h w : ℕ) (y : ℕ → ℕ → ℤ) (N : ℤ) (h' w' top left : ℕ) : Prop :=
  (∃ j, Stays h w y N (top + 1) j) ∧ (∃ i, Stays h w y N i (left + 1)) ∧
  (∃ i j, Stays h w y N i j ∧ top + h' ≤ i + 2) ∧ ∃ i j, Stays h w y N i j ∧ left + w' ≤ j + 2

end Verif.Spec
