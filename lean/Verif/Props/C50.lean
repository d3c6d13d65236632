import Verif.Model.Subgradient
import Mathlib.Tactic.Linarith
import Mathlib.Tactic.NormNum
import Mathlib.Tactic.Ring
import Mathlib.Tactic.Positivity
import Mathlib.Algebra.Order.Field.Basic

/-!
# C50: mini-batches partition the samples
-/

namespace Verif.Props

open Verif.Subgradient

/-- where pack number `p` starts. -/
theorem slices_from (n k : ℕ) {α : Type} (data : List α) (hn : data.length = n) (hk : 0 < k) :
    ∀ left pack start, left + pack = k → start = pack * (n / k) + min pack (n % k) →
      (cut data (genEvenSlices n k left pack start)).flatten = data.drop start ∧
      ∀ b ∈ cut data (genEvenSlices n k left pack start), b ≠ [] ∧
        (b.length = n / k ∨ b.length = n / k + 1 ∧ 0 < n % k) := by
  intro left
  induction left with
  | zero =>
    intro pack start hl hs
    have hpk : pack = k := by omega
    have hmod : n % k < k := Nat.mod_lt _ hk
    have h1 : start = n := by
      rw [hs, hpk, min_eq_right hmod.le, Nat.mul_comm]
      have := Nat.mod_add_div n k
      rw [Nat.mul_comm k] at this
      omega
    refine ⟨?_, ?_⟩
    · simp only [genEvenSlices, cut, List.map_nil, List.flatten_nil]
      rw [List.drop_eq_nil_of_le (by omega)]
    · simp [genEvenSlices, cut]
  | succ left ih =>
    intro pack start hl hs
    have hmod : n % k < k := Nat.mod_lt _ hk
    have hbound : ∀ p ≤ k, p * (n / k) + min p (n % k) ≤ n := by
      intro p hp
      have h1 : p * (n / k) ≤ k * (n / k) := Nat.mul_le_mul_right _ hp
      have h2 := Nat.mod_add_div n k
      have := min_le_right p (n % k)
      omega
    unfold genEvenSlices
    simp only
    set thisN := n / k + if pack < n % k then 1 else 0 with hN
    have hnext : start + thisN = (pack + 1) * (n / k) + min (pack + 1) (n % k) := by
      rw [hN, hs, Nat.add_mul, Nat.one_mul]
      split_ifs with h <;> omega
    have hle : start + thisN ≤ n := by
      rw [hnext]; exact hbound _ (by omega)
    by_cases hp : 0 < thisN
    · rw [if_pos hp]
      obtain ⟨h1, h2⟩ := ih (pack + 1) (start + thisN) (by omega) hnext
      refine ⟨?_, ?_⟩
      · have : cut data ((start, thisN) :: genEvenSlices n k left (pack + 1) (start + thisN)) =
            ((data.drop start).take thisN) ::
              cut data (genEvenSlices n k left (pack + 1) (start + thisN)) := rfl
        rw [this, List.flatten_cons, h1, ← List.drop_drop, List.take_append_drop]
      · intro b hb
        have : cut data ((start, thisN) :: genEvenSlices n k left (pack + 1) (start + thisN)) =
            ((data.drop start).take thisN) ::
              cut data (genEvenSlices n k left (pack + 1) (start + thisN)) := rfl
        rw [this] at hb
        rcases List.mem_cons.mp hb with rfl | hb
        · have hlen : ((data.drop start).take thisN).length = thisN := by
            rw [List.length_take, List.length_drop]; omega
          refine ⟨?_, ?_⟩
          · intro h
            rw [h] at hlen
            simp at hlen
            omega
          · rw [hlen, hN]
            split_ifs with h
            · exact .inr ⟨rfl, by omega⟩
            · exact .inl rfl
        · exact h2 b hb
    · rw [if_neg hp]
      have h0 : thisN = 0 := Nat.eq_zero_of_not_pos hp
      rw [h0, Nat.add_zero] at hnext
      exact ih (pack + 1) start (by omega) hnext

theorem ceilDiv_pos {n : ℕ} {b : ℤ} (hn : 0 < n) : 0 < b → 0 < ceilDiv n b := by
  intro hb
  unfold ceilDiv
  rw [Int.ceil_pos]
  have h1 : (0 : ℚ) < n := by exact_mod_cast hn
  have h2 : (0 : ℚ) < b := by exact_mod_cast hb
  positivity

theorem le_ceilDiv_mul {n : ℕ} {b : ℤ} (hb : 0 < b) : (n : ℤ) ≤ ceilDiv n b * b := by
  have h2 : (0 : ℚ) < b := by exact_mod_cast hb
  have h := Int.le_ceil ((n : ℚ) / b)
  rw [div_le_iff₀ h2] at h
  unfold ceilDiv
  exact_mod_cast h

/-- the slices of `gen_even_slices(n, ceil(n / b))`. -/
theorem even_slices (b : ℤ) {α : Type} (data : List α) :
    (∀ sl, evenSlices data.length (ceilDiv data.length b) = .ok sl →
      0 < b ∧ (cut data sl).flatten = data ∧
      (∀ c ∈ cut data sl, c ≠ [] ∧ (c.length : ℤ) ≤ b) ∧
      ∀ c ∈ cut data sl, ∀ c' ∈ cut data sl, c.length ≤ c'.length + 1) ∧
    ((∃ sl, evenSlices data.length (ceilDiv data.length b) = .ok sl) ↔ data ≠ [] ∧ 0 < b) := by
  set n := data.length with hn
  have hiff : 1 ≤ ceilDiv n b ↔ data ≠ [] ∧ 0 < b := by
    constructor
    · intro h
      have hpos : 0 < (n : ℚ) / b := by
        rw [← Int.ceil_pos]; unfold ceilDiv at h; omega
      constructor
      · intro h0
        rw [h0, List.length_nil] at hn
        rw [hn] at hpos
        simp at hpos
      · by_contra hc
        have h1 : (b : ℚ) ≤ 0 := by exact_mod_cast (not_lt.mp hc)
        have h2 : (0 : ℚ) ≤ n := by positivity
        have := div_nonpos_of_nonneg_of_nonpos h2 h1
        linarith
    · rintro ⟨h, hb⟩
      have := ceilDiv_pos (n := n) (b := b) (by rw [hn]; exact List.length_pos_iff.mpr h) hb
      omega
  refine ⟨?_, ?_⟩
  · intro sl hsl
    unfold evenSlices at hsl
    split_ifs at hsl with h1
    have h1' : 1 ≤ ceilDiv n b := by omega
    obtain ⟨hne, hb0⟩ := hiff.mp h1'
    have hkz : ((ceilDiv n b).toNat : ℤ) = ceilDiv n b := Int.toNat_of_nonneg (by omega)
    set k := (ceilDiv n b).toNat with hk
    have hk0 : 0 < k := by omega
    rw [Except.ok.injEq] at hsl
    obtain ⟨h2, h3⟩ := slices_from n k data rfl hk0 k 0 0 (by omega) (by simp)
    rw [hsl] at h2 h3
    rw [List.drop_zero] at h2
    refine ⟨hb0, h2, ?_, ?_⟩
    · intro c hc
      obtain ⟨h4, h5⟩ := h3 c hc
      refine ⟨h4, ?_⟩
      have hle : (n : ℤ) ≤ k * b := by rw [hkz]; exact le_ceilDiv_mul hb0
      obtain ⟨B, hB⟩ := Int.eq_ofNat_of_zero_le hb0.le
      rw [hB] at hle ⊢
      have hle' : n ≤ k * B := by exact_mod_cast hle
      have hdm := Nat.mod_add_div n k
      rcases h5 with h5 | ⟨h5, h6⟩
      · have : n / k ≤ B := Nat.div_le_of_le_mul hle'
        rw [h5]; exact_mod_cast this
      · have : n / k < B := by
          by_contra hcon
          have : k * B ≤ k * (n / k) := Nat.mul_le_mul_left _ (by omega)
          omega
        rw [h5]; exact_mod_cast this
    · intro c hc c' hc'
      obtain ⟨-, h5⟩ := h3 c hc
      obtain ⟨-, h6⟩ := h3 c' hc'
      omega
  · rw [← hiff]
    unfold evenSlices
    split_ifs with h
    · simp; omega
    · simp; omega

/-- **C50, mini-batches of SubgradientSSVM.** Whenever the mini-batches of a pass are computed, they
contain every sample exactly once, in order; for a positive `batch_size` none is empty, none is larger
than `batch_size`, and their sizes differ by at most one; `batch_size = -1` is one batch with all samples.
They are computed exactly if `batch_size` is `-1`, or positive and there is a sample. -/
theorem C50_minibatches {α : Type} (data : List α) (b : ℤ) :
    (∀ bs, miniBatches data b = .ok bs →
      bs.flatten = data ∧
      (b = -1 → bs = [data]) ∧
      (b ≠ -1 → (∀ c ∈ bs, c ≠ [] ∧ (c.length : ℤ) ≤ b) ∧
        ∀ c ∈ bs, ∀ c' ∈ bs, c.length ≤ c'.length + 1)) ∧
    ((∃ bs, miniBatches data b = .ok bs) ↔ b = -1 ∨ 0 < b ∧ data ≠ []) := by
  unfold miniBatches
  by_cases h1 : b = -1
  · simp only [h1, if_true, true_or, iff_true]
    refine ⟨?_, ⟨_, rfl⟩⟩
    intro bs h
    rw [Except.ok.injEq] at h
    subst h
    simp
  · rw [if_neg h1]
    by_cases h0 : b = 0
    · simp [h0]
    · rw [if_neg h0]
      obtain ⟨e1, e2⟩ := even_slices b data
      refine ⟨?_, ?_⟩
      · intro bs h
        cases hs : evenSlices data.length (ceilDiv data.length b) with
        | error err => rw [hs] at h; cases h
        | ok sl =>
          rw [hs] at h
          simp only [Except.ok.injEq] at h
          obtain ⟨-, h2, h3, h4⟩ := e1 sl hs
          subst h
          exact ⟨h2, fun h => absurd h h1, fun _ => ⟨h3, h4⟩⟩
      · constructor
        · rintro ⟨bs, h⟩
          cases hs : evenSlices data.length (ceilDiv data.length b) with
          | error err => rw [hs] at h; cases h
          | ok sl => exact .inr (e2.mp ⟨sl, hs⟩).symm
        · rintro (h | ⟨h, h'⟩)
          · exact absurd h h1
          · obtain ⟨sl, hs⟩ := e2.mpr ⟨h', h⟩
            exact ⟨cut data sl, by rw [hs]⟩

/-- five samples in batches of at most two. -/
example : miniBatches [0, 1, 2, 3, 4] 2 = .ok [[0, 1], [2, 3], [4]] := by decide +kernel

example : miniBatches [0, 1, 2, 3, 4, 5, 6] 5 = .ok [[0, 1, 2, 3], [4, 5, 6]] := by decide +kernel

end Verif.Props
