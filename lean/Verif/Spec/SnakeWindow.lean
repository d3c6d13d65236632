import Verif.Model.Snakes

/-!
# Specification: windows around the pixels of an image
-/

namespace Verif.Spec

/-- Where the `k`-th cell of the 3×3 window lies, relative to the pixel: rows downwards, columns to the right. -/
def windowOffset : ℕ → ℤ × ℤ
  | 0 => (-1, -1)
  | 1 => (0, -1)
  | 2 => (1, -1)
  | 3 => (-1, 0)
  | 4 => (1, 1)
  | 5 => (1, 0)
  | 6 => (-1, 1)
  | 7 => (0, 1)
  | _ => (0, 0)

/-- Channel `c` of the pixel in row `i` and column `j` of an image of size `h × w`; pixels outside are background, that is
channel 3 is one and all others are zero. -/
def padded (h w : ℕ) (x : ℕ → ℕ → ℕ → ℚ) (i j : ℤ) (c : ℕ) : ℚ :=
  if 0 ≤ i ∧ i < h ∧ 0 ≤ j ∧ j < w then x i.toNat j.toNat c else if c = 3 then 1 else 0

/-- Channel `c` of the `k`-th cell of the window around pixel `(i, j)`. -/
def windowValue (h w : ℕ) (x : ℕ → ℕ → ℕ → ℚ) (i j c k : ℕ) : ℚ :=
  padded h w x (i + (windowOffset k).1) (j + (windowOffset k).2) c

end Verif.Spec
