import Verif.Basic.Arr

/-!
# Consecutive blocks of indices

`(n.take l).sum` is where block `l` starts if the blocks have sizes `n`.
-/

namespace Verif

theorem take_sum_succ (n : List ℕ) (l : ℕ) :
    (n.take (l + 1)).sum = (n.take l).sum + n.getD l 0 := by
  rw [List.take_succ, List.sum_append]
  congr 1
  rcases h : n[l]? with _ | a
  · simp [List.getD, h]
  · simp [List.getD, h]

theorem take_sum_mono (n : List ℕ) {a b : ℕ} (h : a ≤ b) : (n.take a).sum ≤ (n.take b).sum := by
  induction b with
  | zero => rw [Nat.le_zero.mp h]
  | succ b ih =>
    rcases Nat.lt_succ_iff_lt_or_eq.mp (Nat.lt_succ_of_le h) with h' | rfl
    · rw [take_sum_succ]
      exact (ih (by omega)).trans (Nat.le_add_right _ _)
    · exact le_rfl

theorem take_sum_le (n : List ℕ) (a : ℕ) : (n.take a).sum ≤ n.sum := by
  have := take_sum_mono n (a := a) (b := max a n.length) (le_max_left _ _)
  rwa [List.take_of_length_le (le_max_right _ _)] at this

/-- every index below the total lies in a block. -/
theorem exists_block (n : List ℕ) {s : ℕ} (hs : s < n.sum) :
    ∃ l < n.length, (n.take l).sum ≤ s ∧ s < (n.take (l + 1)).sum := by
  have : ∀ K, s < (n.take K).sum → ∃ l < K, (n.take l).sum ≤ s ∧ s < (n.take (l + 1)).sum := by
    intro K
    induction K with
    | zero => intro h; simp at h
    | succ K ih =>
      intro h
      by_cases h' : s < (n.take K).sum
      · obtain ⟨l, hl, h1⟩ := ih h'
        exact ⟨l, by omega, h1⟩
      · exact ⟨K, by omega, by omega, h⟩
  exact this n.length (by rwa [List.take_length])

/-- blocks are disjoint. -/
theorem block_unique (n : List ℕ) {s a b : ℕ} (ha1 : (n.take a).sum ≤ s)
    (ha2 : s < (n.take (a + 1)).sum) (hb1 : (n.take b).sum ≤ s) (hb2 : s < (n.take (b + 1)).sum) :
    a = b := by
  rcases lt_trichotomy a b with h | h | h
  · have := take_sum_mono n (a := a + 1) (b := b) h
    omega
  · exact h
  · have := take_sum_mono n (a := b + 1) (b := a) h
    omega

end Verif
