import Verif.Model.Sym

namespace Verif.Sym

open Finset

theorem two_tri (n : ℕ) : 2 * tri n = n * (n + 1) := by
  unfold tri
  have h : 2 ∣ n * (n + 1) := (Nat.even_mul_succ_self n).two_dvd
  omega

theorem tri_succ (n : ℕ) : tri (n + 1) = tri n + (n + 1) := by
  have h1 := two_tri n
  have h2 := two_tri (n + 1)
  nlinarith

theorem triRow_eq {i j : ℕ} (h : j ≤ i) : triRow (tri i + j) = i := by
  unfold triRow
  have h1 := two_tri i
  have lo : (2 * i + 1) * (2 * i + 1) ≤ 8 * (tri i + j) + 1 := by nlinarith
  have hi : 8 * (tri i + j) + 1 < (2 * i + 1 + 2) * (2 * i + 1 + 2) := by nlinarith
  have a := Nat.le_sqrt.mpr lo
  have b := Nat.sqrt_lt.mpr hi
  omega

theorem triCol_eq {i j : ℕ} (h : j ≤ i) : triCol (tri i + j) = j := by
  unfold triCol
  rw [triRow_eq h]
  omega

theorem symSize_tri (n : ℕ) : symSize (tri n) = n := by
  have := triRow_eq (i := n) (j := 0) (Nat.zero_le n)
  simpa [symSize, triRow] using this

theorem tri_mono {a b : ℕ} (h : a ≤ b) : tri a ≤ tri b := by
  unfold tri
  apply Nat.div_le_div_right
  exact Nat.mul_le_mul h (by omega)

theorem tri_add_lt {i j n : ℕ} (hj : j ≤ i) (hi : i < n) : tri i + j < tri n := by
  have h1 := tri_succ i
  have h2 := tri_mono (Nat.succ_le_of_lt hi)
  simp only [Nat.succ_eq_add_one] at h2
  omega

/-- every flat position below `tri n` comes from exactly one lower-triangular cell. -/
theorem tri_decomp {k n : ℕ} (h : k < tri n) : triCol k ≤ triRow k ∧ triRow k < n ∧
    tri (triRow k) + triCol k = k := by
  induction n with
  | zero => simp [tri] at h
  | succ n ih =>
    by_cases hk : k < tri n
    · obtain ⟨h1, h2, h3⟩ := ih hk
      exact ⟨h1, by omega, h3⟩
    · have hs := tri_succ n
      obtain ⟨j, rfl⟩ : ∃ j, k = tri n + j := ⟨k - tri n, by omega⟩
      have hj : j ≤ n := by omega
      rw [triCol_eq hj, triRow_eq hj]
      exact ⟨hj, by omega, rfl⟩

theorem sum_tri (n : ℕ) (f : ℕ → ℚ) :
    ∑ k ∈ range (tri n), f k = ∑ i ∈ range n, ∑ j ∈ range (i + 1), f (tri i + j) := by
  induction n with
  | zero => simp [tri]
  | succ n ih => rw [tri_succ, sum_range_add, ih,
      sum_range_succ (fun i => ∑ j ∈ range (i + 1), f (tri i + j))]

/-- sum over all pairs of a symmetric-weight product collapses to the lower triangle. -/
theorem sum_lower (n : ℕ) (E M : ℕ → ℕ → ℚ) (hE : ∀ i < n, ∀ j < n, E i j = E j i) :
    ∑ i ∈ range n, ∑ j ∈ range n, E i j * M i j =
      ∑ i ∈ range n, ∑ j ∈ range (i + 1),
        E i j * (M i j + M j i - (if i = j then M i i else 0)) := by
  induction n with
  | zero => simp
  | succ n ih =>
    rw [sum_range_succ (fun i => ∑ j ∈ range (i + 1), _), sum_range_succ]
    have h1 : ∑ x ∈ range n, ∑ j ∈ range (n + 1), E x j * M x j
        = ∑ x ∈ range n, ∑ j ∈ range n, E x j * M x j + ∑ x ∈ range n, E x n * M x n := by
      rw [← sum_add_distrib]
      apply sum_congr rfl; intro x _
      rw [sum_range_succ]
    rw [h1, ih (fun i hi j hj => hE i (by omega) j (by omega)), sum_range_succ (fun j => E n j * M n j),
      sum_range_succ (fun j => E n j * _)]
    have h2 : ∑ x ∈ range n, E n x * (M n x + M x n - if n = x then M n n else 0)
        = ∑ x ∈ range n, E n x * M n x + ∑ x ∈ range n, E x n * M x n := by
      rw [← sum_add_distrib]
      apply sum_congr rfl; intro x hx
      have hx' := mem_range.mp hx
      rw [if_neg (by omega), hE x (by omega) n (by omega)]
      ring
    rw [h2]
    simp
    ring

/-- entries of the expanded matrix. -/
def symEntry (v : ℕ → ℚ) (i j : ℕ) : ℚ :=
  (if j ≤ i then v (tri i + j) else 0) + (if i ≤ j then v (tri j + i) else 0) -
    (if i = j then (if i ≤ i then v (tri i + i) else 0) else 0)

/-- entries of the symmetrised matrix. -/
def mkSym (M : ℕ → ℕ → ℚ) (i j : ℕ) : ℚ := M i j + M j i - (if i = j then M i i else 0)

theorem expandSym_ok (v : Vec) (n : ℕ) (h : v.size = tri n) :
    expandSym v = .ok ⟨n, n, symEntry v.get⟩ := by
  unfold expandSym
  simp only [h, symSize_tri, if_true]
  rfl

theorem compressSym_ok (M : Mat) (n : ℕ) (hr : M.rows = n) (hc : M.cols = n) :
    compressSym M = .ok ⟨tri n, fun k => mkSym M.get (triRow k) (triCol k)⟩ := by
  unfold compressSym
  simp only [hr, hc, if_true]
  rfl

theorem compressSym_false_ok (M : Mat) (n : ℕ) (hr : M.rows = n) (hc : M.cols = n) :
    compressSym M false = .ok ⟨tri n, fun k => M.get (triRow k) (triCol k)⟩ := by
  unfold compressSym
  simp only [hr, hc, if_true]
  rfl

theorem symEntry_comm (v : ℕ → ℚ) (i j : ℕ) : symEntry v i j = symEntry v j i := by
  unfold symEntry
  by_cases h : i = j
  · subst h; rfl
  · rw [if_neg h, if_neg (Ne.symm h)]; ring

theorem symEntry_lower (v : ℕ → ℚ) {i j : ℕ} (h : j ≤ i) : symEntry v i j = v (tri i + j) := by
  unfold symEntry
  by_cases h' : i = j
  · subst h'; simp
  · rw [if_pos h, if_neg h', if_neg (by omega)]; ring

/-- adjointness on the level of entries. -/
theorem dot_compress (n : ℕ) (v : ℕ → ℚ) (M : ℕ → ℕ → ℚ) :
    dot (tri n) v (fun k => mkSym M (triRow k) (triCol k)) =
      ∑ i ∈ range n, ∑ j ∈ range n, symEntry v i j * M i j := by
  rw [sum_lower n _ _ fun i _ j _ => symEntry_comm v i j]
  unfold dot
  rw [sum_tri]
  apply sum_congr rfl; intro i _
  apply sum_congr rfl; intro j hj
  have hj' : j ≤ i := by have := mem_range.mp hj; omega
  simp only [triRow_eq hj', triCol_eq hj', symEntry_lower v hj']
  rfl

end Verif.Sym
