import Verif.Lemmas.Sym

/-!
# C32: packing of symmetric pairwise weights
-/

namespace Verif.Props

open Finset Verif.Sym

/-- **C32a.** Expanding a packed vector succeeds exactly when its length is a triangular number
`n (n+1) / 2`; the result is then a symmetric `n × n` matrix. -/
theorem C32_expand_symmetric (v : Vec) :
    (∀ n, v.size = n * (n + 1) / 2 → ∃ E, expandSym v = .ok E ∧ E.rows = n ∧ E.cols = n ∧
        ∀ i j, E.get i j = E.get j i) ∧
    ((∀ n, v.size ≠ n * (n + 1) / 2) → expandSym v = .error .valueError) := by
  constructor
  · intro n hn
    exact ⟨_, expandSym_ok v n hn, rfl, rfl, symEntry_comm v.get⟩
  · intro h
    unfold expandSym
    simp only
    rw [if_neg]
    exact h (symSize v.size)

/-- **C32b.** Packing an expanded vector gives back the vector (`make_symmetric=False`). -/
theorem C32_compress_expand (v : Vec) (E : Mat) (h : expandSym v = .ok E) :
    ∃ u, compressSym E false = .ok u ∧ u.size = v.size ∧ ∀ k < v.size, u.get k = v.get k := by
  by_cases hsz : v.size = tri (symSize v.size)
  · rw [expandSym_ok v _ hsz] at h
    injection h with h
    subst h
    refine ⟨_, compressSym_false_ok _ _ rfl rfl, hsz.symm, ?_⟩
    intro k hk
    rw [hsz] at hk
    obtain ⟨h1, _, h3⟩ := tri_decomp hk
    simp only
    rw [symEntry_lower _ h1, h3]
  · unfold expandSym at h
    simp only at h
    rw [if_neg hsz] at h
    cases h

/-- **C32c.** Expanding a packed symmetric matrix gives back the matrix. -/
theorem C32_expand_compress (E : Mat) (hsq : E.rows = E.cols)
    (hsym : ∀ i < E.rows, ∀ j < E.rows, E.get i j = E.get j i) :
    ∃ v F, compressSym E false = .ok v ∧ expandSym v = .ok F ∧ F.rows = E.rows ∧
      F.cols = E.cols ∧ ∀ i < E.rows, ∀ j < E.rows, F.get i j = E.get i j := by
  refine ⟨_, _, compressSym_false_ok E E.rows rfl hsq.symm, expandSym_ok _ E.rows rfl, rfl,
    hsq, ?_⟩
  intro i hi j hj
  simp only
  rcases le_total j i with h | h
  · rw [symEntry_lower _ h, triRow_eq h, triCol_eq h]
  · rw [symEntry_comm, symEntry_lower _ h, triRow_eq h, triCol_eq h, hsym j hj i hi]

/-- **C32d.** Packing with symmetrisation is adjoint to expansion: for every packed vector `v` of size
`n (n+1) / 2` and every `n × n` matrix `M` (symmetric or not) `⟨v, compress_sym(M)⟩` is the entrywise
inner product of `expand_sym(v)` and `M`. -/
theorem C32_adjoint (n : ℕ) (v : Vec) (M : Mat) (hv : v.size = n * (n + 1) / 2)
    (hr : M.rows = n) (hc : M.cols = n) :
    ∃ E u, expandSym v = .ok E ∧ compressSym M = .ok u ∧
      v.dot u = .ok (∑ i ∈ range n, ∑ j ∈ range n, E.get i j * M.get i j) := by
  have hv' : v.size = tri n := hv
  refine ⟨_, _, expandSym_ok v n hv', compressSym_ok M n hr hc, ?_⟩
  unfold Vec.dot
  simp only [hv', if_true]
  rw [dot_compress]

/-- concrete instance: three packed weights describe a symmetric 2×2 matrix and are recovered. -/
example : ((expandSym ⟨3, fun k => (k : ℚ) + 1⟩).bind fun E => (compressSym E false).map fun u =>
      ((E.get 0 0, E.get 0 1, E.get 1 0, E.get 1 1), (u.size, u.get 0, u.get 1, u.get 2)))
    = .ok ((1, 2, 2, 3), (3, 1, 2, 3)) := by decide +kernel

/-- a length that is not triangular is rejected. -/
example : (expandSym ⟨2, fun _ => 0⟩).map Mat.rows = .error .valueError := by decide +kernel

/-- the adjointness hypotheses are met by a non-symmetric matrix. -/
example : ∃ (v : Vec) (M : Mat), v.size = 2 * (2 + 1) / 2 ∧ M.rows = 2 ∧ M.cols = 2 ∧
    M.get 0 1 ≠ M.get 1 0 :=
  ⟨⟨3, fun k => k⟩, ⟨2, 2, fun i _ => i⟩, rfl, rfl, rfl, by decide +kernel⟩

end Verif.Props
