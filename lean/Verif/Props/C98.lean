import Verif.Model.Datasets
import Mathlib.Tactic.Ring
import Mathlib.Tactic.Linarith
import Mathlib.Tactic.IntervalCases

/-!
# C98: synthetic images: the fixed patterns, and when the features determine the labels

The labels of the block and checkerboard images, and: wherever the noise added to the features of a pixel is small, the
channel with the largest value is the label.
-/

namespace Verif.Props

open Verif.Datasets

theorem argmax_two {f : ℕ → ℚ} : (f 1 < f 0 → argmaxN f 2 = 0) ∧ (f 0 < f 1 → argmaxN f 2 = 1) := by
  constructor
  · intro h
    refine argmaxN_eq_of f (by omega) (fun j hj => ?_) fun j hj => by omega
    interval_cases j
    · exact le_rfl
    · exact h.le
  · intro h
    refine argmaxN_eq_of f (by omega) (fun j hj => ?_) fun j hj => ?_
    · interval_cases j
      · exact h.le
      · exact le_rfl
    · interval_cases j
      exact h

theorem argmax_strict {f : ℕ → ℚ} {n i : ℕ} (hi : i < n) (h : ∀ j < n, j ≠ i → f j < f i) : argmaxN f n = i := by
  refine argmaxN_eq_of f hi (fun j hj => ?_) fun j hj => h j (by omega) (by omega)
  by_cases hji : j = i
  · rw [hji]
  · exact (h j hj hji).le

/-- `generate_blocks`: the right half is labelled 1; noise below 1 leaves the larger channel right. -/
theorem C98_blocks (noise : ℚ) (g : ℕ → ℕ → ℚ) :
    (∀ i j, (blocks noise g).2 i j = if j < 6 then 0 else 1) ∧
    ∀ i j, |noise * g i j| < 1 → argmaxN ((blocks noise g).1 i j) 2 = (blocks noise g).2 i j := by
  have hl : ∀ i j, (blocks noise g).2 i j = if j < 6 then 0 else 1 := by
    intro i j
    unfold blocks
    by_cases h : j < 6 <;> simp [h]
  refine ⟨hl, fun i j hn => ?_⟩
  rw [hl]
  rw [abs_lt] at hn
  unfold blocks
  by_cases h : j < 6
  · simp only [if_pos h]
    apply argmax_two.1
    simp only [if_true, one_ne_zero, if_false]
    linarith [hn.1, hn.2]
  · simp only [if_neg h]
    apply argmax_two.2
    simp only [if_true, one_ne_zero, if_false]
    linarith [hn.1, hn.2]

theorem parity_cases (i j : ℕ) : (i % 2 = j % 2 ↔ (i % 2 = 1 ∧ j % 2 = 1) ∨ (i % 2 = 0 ∧ j % 2 = 0)) := by omega

theorem board_eq (i j : ℕ) : (if i % 2 = 1 ∧ j % 2 = 1 then (-1 : ℚ) else if i % 2 = 0 ∧ j % 2 = 0 then -1 else 1) =
    if i % 2 = j % 2 then -1 else 1 := by
  split_ifs <;> first | rfl | omega

/-- `generate_checker`: a checkerboard with label 0 in the corner; noise below 1 leaves the larger channel right. -/
theorem C98_checker (noise : ℚ) (g : ℕ → ℕ → ℚ) :
    (∀ i j, (checker noise g).2 i j = if i % 2 = j % 2 then 0 else 1) ∧
    ∀ i j, |noise * g i j| < 1 → argmaxN ((checker noise g).1 i j) 2 = (checker noise g).2 i j := by
  have hl : ∀ i j, (checker noise g).2 i j = if i % 2 = j % 2 then 0 else 1 := by
    intro i j
    unfold checker
    simp only [board_eq]
    by_cases h : i % 2 = j % 2 <;> simp [h]
  refine ⟨hl, fun i j hn => ?_⟩
  rw [hl]
  rw [abs_lt] at hn
  unfold checker
  simp only [board_eq]
  by_cases h : i % 2 = j % 2
  · simp only [if_pos h]
    apply argmax_two.1
    simp only [if_true, one_ne_zero, if_false]
    linarith [hn.1, hn.2]
  · simp only [if_neg h]
    apply argmax_two.2
    simp only [if_true, one_ne_zero, if_false]
    linarith [hn.1, hn.2]

/-- `generate_big_checker`: fields of `field_size` pixels, label 1 in the corner; noise below 1 leaves the larger channel
right. -/
theorem C98_big_checker (noise : ℚ) (fieldSize : ℕ) (g : ℕ → ℕ → ℚ) :
    (∀ i j, (bigChecker noise fieldSize g).2 i j = if (i / fieldSize) % 2 = (j / fieldSize) % 2 then 1 else 0) ∧
    ∀ i j, |noise * g i j| < 1 →
      argmaxN ((bigChecker noise fieldSize g).1 i j) 2 = (bigChecker noise fieldSize g).2 i j := by
  have hl : ∀ i j, (bigChecker noise fieldSize g).2 i j =
      if (i / fieldSize) % 2 = (j / fieldSize) % 2 then 1 else 0 := by
    intro i j
    unfold bigChecker
    simp only [board_eq]
    by_cases h : (i / fieldSize) % 2 = (j / fieldSize) % 2 <;> simp [h]
  refine ⟨hl, fun i j hn => ?_⟩
  rw [hl]
  rw [abs_lt] at hn
  unfold bigChecker
  simp only [board_eq]
  by_cases h : (i / fieldSize) % 2 = (j / fieldSize) % 2
  · simp only [if_pos h]
    apply argmax_two.2
    simp only [if_true, one_ne_zero, if_false]
    linarith [hn.1, hn.2]
  · simp only [if_neg h]
    apply argmax_two.1
    simp only [if_true, one_ne_zero, if_false]
    linarith [hn.1, hn.2]

/-- `generate_blocks_multinomial`: three vertical blocks, of which the outer ones are `size_x // 3` wide; noise below 1/2
leaves the largest channel right. -/
theorem C98_blocks_multinomial (noise : ℚ) (sizeX : ℕ) (g : ℕ → ℕ → ℕ → ℚ) (h3 : 3 ≤ sizeX) :
    ∃ x y, blocksMultinomial noise sizeX g = .ok (x, y) ∧
      (∀ i, ∀ j < sizeX, y i j = if j < sizeX / 3 then 0 else if j < sizeX - sizeX / 3 then 1 else 2) ∧
      ∀ i, ∀ j < sizeX, (∀ c < 3, |noise * g i j c| < 1 / 2) → argmaxN (x i j) 3 = y i j := by
  have hs : sizeX / 3 ≠ 0 := by omega
  have hs2 : sizeX / 3 < sizeX - sizeX / 3 := by omega
  refine ⟨_, _, by unfold blocksMultinomial; rw [if_neg (by omega)], ?_⟩
  have hl : ∀ _i : ℕ, ∀ j < sizeX, argmax3 (fun c =>
      if c = 0 then (if j < sizeX / 3 then (1 : ℚ) else 0)
      else if c = 1 then (if sizeX / 3 ≤ j ∧ j < (if sizeX / 3 = 0 then 0 else sizeX - sizeX / 3) then 1 else 0)
      else if (if sizeX / 3 = 0 then 0 else sizeX - sizeX / 3) ≤ j then 1 else 0) =
      if j < sizeX / 3 then 0 else if j < sizeX - sizeX / 3 then 1 else 2 := by
    intro _ j hj
    simp only [if_neg hs]
    refine argmax_strict (by split_ifs <;> omega) fun c hc hne => ?_
    generalize sizeX / 3 = a at *
    interval_cases c <;> split_ifs at * <;> first | omega | norm_num
  refine ⟨fun i j hj => hl i j hj, fun i j hj hn => ?_⟩
  have := hl i j hj
  dsimp only at this ⊢
  rw [this]
  have n0 := abs_lt.1 (hn 0 (by omega))
  have n1 := abs_lt.1 (hn 1 (by omega))
  have n2 := abs_lt.1 (hn 2 (by omega))
  simp only [if_neg hs]
  refine argmax_strict (by split_ifs <;> omega) fun c hc hne => ?_
  generalize sizeX / 3 = a at *
  clear this hl
  interval_cases c <;> split_ifs at * <;> first | omega | (norm_num at *; linarith [n0.1, n0.2, n1.1, n1.2, n2.1, n2.2])

/-- `generate_checker_multinomial`: label 0 where both coordinates are even, 1 where both are odd, 2 elsewhere; noise below
1/2 leaves the largest channel right. -/
theorem C98_checker_multinomial (noise : ℚ) (sizeX : ℕ) (g : ℕ → ℕ → ℕ → ℚ) (h2 : 2 ≤ sizeX) :
    ∃ x y, checkerMultinomial noise sizeX g = .ok (x, y) ∧
      (∀ i j, y i j = if i % 2 = 0 ∧ j % 2 = 0 then 0 else if i % 2 = 1 ∧ j % 2 = 1 then 1 else 2) ∧
      ∀ i j, (∀ c < 3, |noise * g i j c| < 1 / 2) → argmaxN (x i j) 3 = y i j := by
  refine ⟨_, _, by unfold checkerMultinomial; rw [if_neg (by omega)], ?_⟩
  have hl : ∀ i j : ℕ, argmax3 (fun c =>
      if c = 2 then (0 : ℚ)
      else if c = 1 then (if i % 2 = 1 ∧ j % 2 = 1 then 1 else -1)
      else (if i % 2 = 0 ∧ j % 2 = 0 then 1 else -1)) =
      if i % 2 = 0 ∧ j % 2 = 0 then 0 else if i % 2 = 1 ∧ j % 2 = 1 then 1 else 2 := by
    intro i j
    refine argmax_strict (by split_ifs <;> omega) fun c hc hne => ?_
    interval_cases c <;> split_ifs at * <;> first | omega | norm_num
  refine ⟨fun i j => hl i j, fun i j hn => ?_⟩
  have := hl i j
  dsimp only at this ⊢
  rw [this]
  have n0 := abs_lt.1 (hn 0 (by omega))
  have n1 := abs_lt.1 (hn 1 (by omega))
  have n2 := abs_lt.1 (hn 2 (by omega))
  refine argmax_strict (by split_ifs <;> omega) fun c hc hne => ?_
  clear this hl
  interval_cases c <;> split_ifs at * <;> first | omega | (norm_num at *; linarith [n0.1, n0.2, n1.1, n1.2, n2.1, n2.2])

/-- Images narrower than two pixels are refused. -/
theorem C98_multinomial_error (noise : ℚ) (sizeX : ℕ) (g : ℕ → ℕ → ℕ → ℚ) (h : sizeX < 2) :
    blocksMultinomial noise sizeX g = .error .valueError ∧ checkerMultinomial noise sizeX g = .error .valueError := by
  unfold blocksMultinomial checkerMultinomial
  rw [if_pos h, if_pos h]
  exact ⟨rfl, rfl⟩

/-- `generate_big_checker_extended`: a checkerboard of 2 and 0 with marks in the middle of every 3×3 square, which are 3 on
the squares of the checkerboard (counted in threes) and 1 elsewhere; noise below 1/2 leaves the largest of the four channels
right. -/
theorem C98_big_checker_extended (noise : ℚ) (fieldSize : ℕ) (g : ℕ → ℕ → ℕ → ℚ) :
    (∀ i j, (bigCheckerExtended noise fieldSize g).2 i j =
      if i % 3 = 1 ∧ j % 3 = 1 then (if (i / 3) % 2 = (j / 3) % 2 then 3 else 1)
      else if (i / fieldSize) % 2 = (j / fieldSize) % 2 then 2 else 0) ∧
    ∀ i j, (∀ c < 4, |noise * g i j c| < 1 / 2) →
      argmaxN ((bigCheckerExtended noise fieldSize g).1 i j) 4 = (bigCheckerExtended noise fieldSize g).2 i j := by
  have hl : ∀ i j, (bigCheckerExtended noise fieldSize g).2 i j =
      if i % 3 = 1 ∧ j % 3 = 1 then (if (i / 3) % 2 = (j / 3) % 2 then 3 else 1)
      else if (i / fieldSize) % 2 = (j / fieldSize) % 2 then 2 else 0 := by
    intro i j
    unfold bigCheckerExtended
    dsimp only
    generalize i / fieldSize = a
    generalize j / fieldSize = b
    split_ifs <;> first | rfl | omega
  refine ⟨hl, fun i j hn => ?_⟩
  have hlt : (bigCheckerExtended noise fieldSize g).2 i j < 4 := by
    rw [hl]; split_ifs <;> omega
  refine argmax_strict hlt fun c hc hne => ?_
  have h1 : ∀ c, (bigCheckerExtended noise fieldSize g).1 i j c =
      ((if c = (bigCheckerExtended noise fieldSize g).2 i j then 1 else 0) + noise * g i j c) * 100 := fun c => rfl
  rw [h1, h1, if_neg hne, if_pos rfl]
  have := abs_lt.1 (hn c hc)
  have := abs_lt.1 (hn _ hlt)
  linarith

/-- the bounds on the noise cannot be dropped: with noise 1 on one pixel of `generate_checker` the channels tie, and the first
channel is taken though the label is 1. -/
example : (checker 1 fun _ _ => -1).2 0 1 = 1 ∧ argmaxN ((checker 1 fun _ _ => -1).1 0 1) 2 = 0 := by decide +kernel

example : ∃ x y, blocksMultinomial (1 / 4) 12 (fun _ _ _ => 1) = .ok (x, y) ∧ argmaxN (x 0 5) 3 = 1 := by
  obtain ⟨x, y, h1, h2, h3⟩ := C98_blocks_multinomial (1 / 4) 12 (fun _ _ _ => 1) (by omega)
  refine ⟨x, y, h1, ?_⟩
  rw [h3 0 5 (by omega) (fun c _ => by rw [abs_lt]; norm_num), h2 0 5 (by omega)]
  rfl

end Verif.Props
