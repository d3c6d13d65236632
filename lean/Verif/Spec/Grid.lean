import Mathlib.Algebra.BigOperators.Group.Finset.Basic
import Mathlib.Algebra.Order.Ring.Rat

/-!
# Scores of labellings of images, without reference to the model
-/

namespace Verif.Spec

open Finset

/-- Sum over all pairs of horizontal neighbours of an image of `h` rows and `w` columns, left pixel first. -/
def horizontal (h w : ℕ) (P : ℕ → ℕ → ℚ) (y : ℕ → ℕ → ℕ) : ℚ :=
  ∑ r ∈ range h, ∑ c ∈ range (w - 1), P (y r c) (y r (c + 1))

/-- Sum over all pairs of vertical neighbours, upper pixel first. -/
def vertical (h w : ℕ) (P : ℕ → ℕ → ℚ) (y : ℕ → ℕ → ℕ) : ℚ :=
  ∑ r ∈ range (h - 1), ∑ c ∈ range w, P (y r c) (y (r + 1) c)

/-- Sum over all pairs of diagonal neighbours, left pixel first. -/
def diagonal (h w : ℕ) (P : ℕ → ℕ → ℚ) (y : ℕ → ℕ → ℕ) : ℚ :=
  ∑ r ∈ range (h - 1), ∑ c ∈ range (w - 1), (P (y (r + 1) c) (y r (c + 1)) + P (y r c) (y (r + 1) (c + 1)))

/-- Sum over all pixels of features times the weights of the pixel's label. -/
def pixelScore (h w F : ℕ) (x : ℕ → ℕ → ℕ → ℚ) (W : ℕ → ℚ) (y : ℕ → ℕ → ℕ) : ℚ :=
  ∑ r ∈ range h, ∑ c ∈ range w, ∑ f ∈ range F, x r c f * W (y r c * F + f)

/-- The weight of a pair of labels: entries of the lower triangle of a symmetric matrix that follow the `S * F` unary weights, or of
a full matrix for a directed model. -/
def pairWeight (S F : ℕ) (directed : Bool) (W : ℕ → ℚ) (a b : ℕ) : ℚ :=
  if directed then W (S * F + (a * S + b)) else W (S * F + (max a b * (max a b + 1) / 2 + min a b))

end Verif.Spec
