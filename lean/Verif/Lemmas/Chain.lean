import Verif.Model.Dispatch
import Verif.Model.MaxProd
import Verif.Lemmas.GraphCRF
import Verif.Props.C01

namespace Verif.MaxProd

open Finset Verif.Common Verif.Spec

theorem chainEdges_length (n : ℕ) : (chainEdges n).length = n - 1 := by simp [chainEdges]

theorem chainEdges_getD {n e : ℕ} (h : e < n - 1) : (chainEdges n).getD e (0, 0) = (e, e + 1) := by
  rw [List.getD_eq_getElem _ _ (by simpa [chainEdges] using h)]
  simp [chainEdges]

theorem chainEdges_in (n : ℕ) : EdgesIn n (chainEdges n) := by
  intro e he
  simp only [chainEdges, List.mem_map, List.mem_range] at he
  obtain ⟨i, hi, rfl⟩ := he
  constructor <;> simp only <;> omega

theorem chainEdges_fst (n : ℕ) : (chainEdges n).map Prod.fst = List.range' 0 (n - 1) := by
  apply List.ext_getElem
  · simp [chainEdges]
  · intro i h1 h2; simp [chainEdges]

theorem chainEdges_snd (n : ℕ) : (chainEdges n).map Prod.snd = List.range' 1 (n - 1) := by
  apply List.ext_getElem
  · simp [chainEdges]
  · intro i h1 h2; simp [chainEdges]; omega

theorem isChain_chainEdges (n : ℕ) : isChain (chainEdges n) n = true := by
  unfold isChain allEq
  rw [chainEdges_fst, chainEdges_snd]
  simp

theorem makeChainEdges_eq (n : ℕ) : GraphCRF.makeChainEdges n = chainEdges n := by
  unfold GraphCRF.makeChainEdges chainEdges
  apply List.ext_getElem
  · simp
  · intro i h1 h2
    simp [Nat.add_comm]

theorem coe_sum_range (n : ℕ) (f : ℕ → ℚ) :
    ∑ i ∈ range n, ((f i : ℚ) : WithBot ℚ) = ((∑ i ∈ range n, f i : ℚ) : WithBot ℚ) := by
  induction n with
  | zero => simp
  | succ n ih => rw [sum_range_succ, sum_range_succ, ih, WithBot.coe_add]

theorem chainScore_coe (n : ℕ) (U : ℕ → ℕ → ℚ) (T : ℕ → ℕ → ℕ → ℚ) (y : ℕ → ℕ) :
    chainScore n (fun i s => ((U i s : ℚ) : WithBot ℚ)) (fun e a b => ((T e a b : ℚ) : WithBot ℚ)) y
      = ((score n (chainEdges n) U T y : ℚ) : WithBot ℚ) := by
  unfold chainScore score
  rw [coe_sum_range n fun i => U i (y i), coe_sum_range (n - 1) fun i => T i (y i) (y (i + 1)),
    ← WithBot.coe_add, chainEdges_length]
  congr 2
  apply sum_congr rfl
  intro e he
  rw [chainEdges_getD (mem_range.mp he)]

theorem validateParams_cases {U : Mat} {pw : Pairwise} {n : ℕ} {r : ℕ × Ten}
    (h : validateParams U pw n = .ok r) : r.1 = U.cols ∧ r.2.d0 = n ∧ r.2.d1 = U.cols ∧ r.2.d2 = U.cols := by
  unfold validateParams at h
  cases pw with
  | mat m =>
    simp only at h
    split at h
    · cases h; exact ⟨rfl, rfl, rfl, rfl⟩
    · cases h
  | ten t =>
    simp only at h
    split at h
    · rename_i hh; cases h; exact ⟨rfl, hh⟩
    · cases h
  | other => cases h

/-- max-product on a chain: exact. -/
theorem inferenceMaxProduct_chain (opts : Opts) (U : Mat) (pw : Pairwise) (t : Ten)
    (hp : validateParams U pw (chainEdges U.rows).length = .ok (U.cols, t))
    (hn : 1 ≤ U.rows) (hS : 1 ≤ U.cols) :
    ∃ y : Labels, inferenceMaxProduct opts U pw (chainEdges U.rows) = .ok y ∧ y.size = U.rows ∧
      IsMAP U.rows U.cols (chainEdges U.rows) U.get t.get y.get := by
  have hd := (validateParams_cases hp).2.1
  simp only at hd
  rw [chainEdges_length] at hd
  obtain ⟨y, hy, hv, hmax⟩ := Props.C01_viterbi_exact U.rows U.cols t.d0 hn hS (by omega)
    (fun i s => ((U.get i s : ℚ) : WithBot ℚ)) (fun e a b => ((t.get e a b : ℚ) : WithBot ℚ))
  refine ⟨⟨U.rows, y⟩, ?_, rfl, hv, ?_⟩
  · unfold inferenceMaxProduct
    rw [hp]
    simp only [isChain_chainEdges, if_true]
    rw [hy]
  · intro y' hy'
    have := hmax y' hy'
    rw [chainScore_coe, chainScore_coe, WithBot.coe_le_coe] at this
    exact this

end Verif.MaxProd
