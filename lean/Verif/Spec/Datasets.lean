import Mathlib.Data.Rat.Defs
import Mathlib.Data.List.Basic

/-!
# Specification of the synthetic image data sets

Plain statements about label images `ℕ → ℕ → ℕ` and feature images `ℕ → ℕ → ℕ → ℚ` (row, column, channel).
-/

namespace Verif.Spec

/-- All labels of a `size × size` image belong to `s`. -/
def LabelsIn (size : ℕ) (s : List ℕ) (y : ℕ → ℕ → ℕ) : Prop := ∀ i < size, ∀ j < size, y i j ∈ s

/-- `z` is `y` with at most `noise` pixels changed, all of them with both coordinates in `[lo, hi)`. -/
def Noisy (lo hi noise : ℕ) (y z : ℕ → ℕ → ℕ) : Prop :=
  ∃ L : List (ℕ × ℕ), L.length ≤ noise ∧ (∀ p ∈ L, (lo ≤ p.1 ∧ p.1 < hi) ∧ lo ≤ p.2 ∧ p.2 < hi) ∧
    ∀ i j, (i, j) ∉ L → z i j = y i j

/-- `x` has a one in the channel of the label and zeros in the others. -/
def OneHot (channels size : ℕ) (x : ℕ → ℕ → ℕ → ℚ) (z : ℕ → ℕ → ℕ) : Prop :=
  ∀ i < size, ∀ j < size, z i j < channels ∧ ∀ c < channels, x i j c = if c = z i j then 1 else 0

/-- `x` has a one in channel 0 for background pixels and ones in all the other channels for foreground pixels. -/
def ForegroundCode (channels size : ℕ) (x : ℕ → ℕ → ℕ → ℚ) (z : ℕ → ℕ → ℕ) : Prop :=
  ∀ i < size, ∀ j < size, ∀ c < channels, x i j c = if (c = 0 ↔ z i j = 0) then 1 else 0

/-- The features show the labels up to the noise. -/
def NoisyOneHot (channels size lo hi noise : ℕ) (x : ℕ → ℕ → ℕ → ℚ) (y : ℕ → ℕ → ℕ) : Prop :=
  ∃ z, Noisy lo hi noise y z ∧ OneHot channels size x z

/-- The features show which labels are not zero, up to the noise. -/
def NoisyForeground (channels size lo hi noise : ℕ) (x : ℕ → ℕ → ℕ → ℚ) (y : ℕ → ℕ → ℕ) : Prop :=
  ∃ z, Noisy lo hi noise (fun i j => if y i j = 0 then 0 else 1) z ∧ ForegroundCode channels size x z

/-- The five pixels of a cross in the 3×3 square with upper left corner `(t, l)`. -/
def crossCells (t l : ℕ) : List (ℕ × ℕ) := [(t, l + 1), (t + 1, l), (t + 1, l + 1), (t + 1, l + 2), (t + 2, l + 1)]

end Verif.Spec
