import Verif.Lemmas.Viterbi

/-!
# C01: chain decoding is exact
-/

namespace Verif.Props

open Verif.Spec Verif.Viterbi

/-- **C01.** For every chain length `n ≥ 1`, number of states `S ≥ 1` and all score tables (entries may
be `-∞`), as long as a transition table is supplied for each of the `n - 1` transitions, decoding
succeeds and returns a path of in-range states whose total score is at least that of every other
labelling. -/
theorem C01_viterbi_exact (n S nTrans : ℕ) (hn : 1 ≤ n) (hS : 1 ≤ S) (hT : n - 1 ≤ nTrans)
    (U : ℕ → ℕ → WithBot ℚ) (T : ℕ → ℕ → ℕ → WithBot ℚ) :
    ∃ y, viterbi n S nTrans U T = .ok y ∧ Valid n S y ∧
      ∀ y', Valid n S y' → chainScore n U T y' ≤ chainScore n U T y := by
  refine ⟨backtrack n S (forward n S U T), ?_, ?_⟩
  · unfold viterbi
    rw [if_neg (by omega), if_neg (by omega), if_neg (by omega)]
  · obtain ⟨h1, h2, h3⟩ := backtrack_lt n S hn hS U T
    refine ⟨h1, ?_⟩
    intro y' hy'
    obtain ⟨m, rfl⟩ : ∃ m, n = m + 1 := ⟨n - 1, by omega⟩
    rw [chainScore_eq_prefix, chainScore_eq_prefix]
    simp only [Nat.add_sub_cancel] at h2 h3
    rw [prefix_eq_row S U T _ m h3, h2]
    refine (prefix_le_row S U T y' m fun i hi => hy' i (by omega)).trans ?_
    exact le_argmaxN _ (hy' m (by omega))

/-- Hypotheses of `C01_viterbi_exact` are met by a chain of three positions with two states in which
staying in state 0 is forbidden; the decoder then alternates. -/
example : ∃ y, viterbi 3 2 2 (fun i s => if i = 0 ∧ s = 0 then ((1 : ℚ) : WithBot ℚ) else ((0 : ℚ) : WithBot ℚ))
      (fun _ a b => if a = 0 ∧ b = 0 then ⊥ else ((if a = b then 0 else 1 : ℚ) : WithBot ℚ)) = .ok y ∧
      (y 0, y 1, y 2) = (0, 1, 0) := by
  refine ⟨_, rfl, ?_⟩
  decide +kernel

end Verif.Props
