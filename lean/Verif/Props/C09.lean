import Verif.Lemmas.LP

/-!
# C09: the LP constraint system is the local polytope
-/

namespace Verif.Props

open Finset Verif.Common Verif.LP Verif.Spec

/-- Vertex marginals contained in a vector of LP variables. -/
def nodeVars (S : ℕ) (x : ℕ → ℚ) (i s : ℕ) : ℚ := x (i * S + s)

/-- Edge marginals contained in a vector of LP variables (they follow the vertex marginals). -/
def edgeVars (n S : ℕ) (x : ℕ → ℚ) (e s t : ℕ) : ℚ := x (n * S + e * S ^ 2 + s * S + t)

theorem build_ok {unaries : Mat} {edges : Edges} {ew : Ten} (hn : 1 ≤ unaries.rows)
    (hS : 1 ≤ unaries.cols) (h0 : ew.d0 = edges.length) (h1 : ew.d1 = unaries.cols)
    (h2 : ew.d2 = unaries.cols) :
    build unaries edges ew = .ok
      { nVars := unaries.rows * unaries.cols + edges.length * unaries.cols ^ 2
        c := unaries.ravel.append ew.ravel
        A := triples unaries.rows unaries.cols edges
        aRows := ((triples unaries.rows unaries.cols edges).map Trip.row).foldl max 0 + 1
        aCols := ((triples unaries.rows unaries.cols edges).map Trip.col).foldl max 0 + 1
        b := fun r => if r < unaries.rows then 1 else 0 } := by
  unfold build
  rw [if_neg (by omega), if_neg (by omega), if_neg (by omega)]
  simp only
  rw [if_neg (by rw [rows_eq hn hS]; simp)]

/-- **C09a.** The program has `n_nodes*n_states + n_edges*n_states²` variables, exactly
`n_nodes + n_edges*(2*n_states-1)` equality rows (the assertion in the code never fires), as many
columns as variables, and the right-hand side is one for the vertex rows and zero for the rest. -/
theorem C09_sizes (unaries : Mat) (edges : Edges) (ew : Ten) (hn : 1 ≤ unaries.rows)
    (hS : 1 ≤ unaries.cols) (h0 : ew.d0 = edges.length) (h1 : ew.d1 = unaries.cols)
    (h2 : ew.d2 = unaries.cols) (hE : EdgesIn unaries.rows edges) :
    ∃ p, build unaries edges ew = .ok p ∧
      p.nVars = unaries.rows * unaries.cols + edges.length * unaries.cols ^ 2 ∧
      p.c.size = p.nVars ∧
      p.aRows = unaries.rows + edges.length * (2 * unaries.cols - 1) ∧
      p.aCols = p.nVars := by
  refine ⟨_, build_ok hn hS h0 h1 h2, rfl, ?_, rows_eq hn hS, cols_eq hn hS hE⟩
  simp only [Vec.append, Mat.ravel, Ten.ravel, h0, h1, h2]
  ring

/-- **C09b.** A vector satisfies the emitted constraints exactly when its vertex and edge parts form a
point of the local polytope - with *all* marginalisation constraints, including the one per edge which
the code leaves out. -/
theorem C09_local_polytope (unaries : Mat) (edges : Edges) (ew : Ten) (hn : 1 ≤ unaries.rows)
    (hS : 1 ≤ unaries.cols) (h0 : ew.d0 = edges.length) (h1 : ew.d1 = unaries.cols)
    (h2 : ew.d2 = unaries.cols) (hE : EdgesIn unaries.rows edges) :
    ∃ p, build unaries edges ew = .ok p ∧ ∀ x : ℕ → ℚ, p.Feasible x ↔
      LocalPolytope unaries.rows unaries.cols edges (nodeVars unaries.cols x)
        (edgeVars unaries.rows unaries.cols x) := by
  refine ⟨_, build_ok hn hS h0 h1 h2, fun x => ?_⟩
  set n := unaries.rows
  set S := unaries.cols
  have hedge : ∀ e < edges.length, edge edges e ∈ edges := by
    intro e he
    unfold edge
    rw [List.getD_eq_getElem _ _ he]
    exact List.getElem_mem _
  constructor
  · rintro ⟨hpos, hrow⟩
    simp only at hpos hrow
    rw [rows_eq hn hS] at hrow
    have hnorm : ∀ i < n, ∑ s ∈ range S, x (i * S + s) = 1 := by
      intro i hi
      have := hrow i (by omega)
      rwa [rowDot_low hS x hi, if_pos hi] at this
    have hfirst : ∀ e < edges.length, ∀ s < S,
        ∑ t ∈ range S, x (n * S + e * S ^ 2 + s * S + t) = x ((edge edges e).1 * S + s) := by
      intro e he s hs
      have hlt := flat_lt he (show s < 2 * S - 1 by omega)
      have := hrow (rowOf n S e s) (by unfold rowOf; omega)
      rw [rowDot_edge hS x he (by omega), rowDot_block_first x hs,
        if_neg (by unfold rowOf; omega)] at this
      linarith
    have hsecond' : ∀ e < edges.length, ∀ t < S - 1,
        ∑ s ∈ range S, x (n * S + e * S ^ 2 + s * S + t) = x ((edge edges e).2 * S + t) := by
      intro e he t ht
      have hlt := flat_lt he (show S + t < 2 * S - 1 by omega)
      have := hrow (rowOf n S e (S + t)) (by unfold rowOf; omega)
      rw [rowDot_edge hS x he (by omega), rowDot_block_second x (by omega),
        if_neg (by unfold rowOf; omega), show S + t - S = t by omega] at this
      linarith
    refine ⟨?_, ?_, hnorm, hfirst, ?_⟩
    · intro i hi s hs
      apply hpos
      have := flat_lt hi hs
      omega
    · intro e he s hs t ht
      apply hpos
      have h3 : s * S + t < S ^ 2 := by rw [pow_two]; exact flat_lt hs ht
      have := flat_lt he h3
      omega
    · intro e he t ht
      rcases Nat.lt_or_ge t (S - 1) with h | h
      · exact hsecond' e he t h
      · -- the dropped row
        have ht' : t = S - 1 := by omega
        have hr := hE _ (hedge e he)
        have hall : ∑ t ∈ range S, ∑ s ∈ range S, x (n * S + e * S ^ 2 + s * S + t) = 1 := by
          rw [sum_comm, sum_congr rfl fun s hs => hfirst e he s (mem_range.mp hs)]
          exact hnorm _ hr.1
        have hv := hnorm _ hr.2
        have hSS : S = (S - 1) + 1 := by omega
        rw [hSS, sum_range_succ, ← hSS] at hall hv
        rw [sum_congr rfl fun t ht => hsecond' e he t (mem_range.mp ht)] at hall
        show ∑ s ∈ range S, x (n * S + e * S ^ 2 + s * S + t) = x ((edge edges e).2 * S + t)
        rw [ht']
        linarith
  · intro h
    refine ⟨?_, ?_⟩
    · intro k hk
      simp only at hk
      rcases Nat.lt_or_ge k (n * S) with hlt | hge
      · have h1 : k / S < n := Nat.div_lt_of_lt_mul (by rw [mul_comm]; exact hlt)
        have := h.nonneg _ h1 _ (Nat.mod_lt k hS)
        unfold nodeVars at this
        rwa [mul_comm, Nat.div_add_mod] at this
      · have hS2 : 0 < S ^ 2 := by positivity
        obtain ⟨k', rfl⟩ : ∃ k', k = n * S + k' := ⟨k - n * S, by omega⟩
        have h1 : k' / S ^ 2 < edges.length :=
          Nat.div_lt_of_lt_mul (by rw [mul_comm]; omega)
        have h2 : k' % S ^ 2 < S * S := by rw [← pow_two]; exact Nat.mod_lt _ hS2
        have h3 : k' % S ^ 2 / S < S := Nat.div_lt_of_lt_mul h2
        have := h.nonneg_edge _ h1 _ h3 _ (Nat.mod_lt (k' % S ^ 2) hS)
        unfold edgeVars at this
        rwa [show n * S + k' / S ^ 2 * S ^ 2 + k' % S ^ 2 / S * S + k' % S ^ 2 % S = n * S + k' by
          have a1 := Nat.div_add_mod (k' % S ^ 2) S
          have a2 := Nat.div_add_mod k' (S ^ 2)
          rw [mul_comm] at a1 a2
          omega] at this
    · intro r hr
      simp only at hr
      rw [rows_eq hn hS] at hr
      simp only
      rcases Nat.lt_or_ge r n with hlt | hge
      · rw [rowDot_low hS x hlt, if_pos hlt]
        exact h.normalised r hlt
      · rw [if_neg (by omega)]
        have hD : 0 < 2 * S - 1 := by omega
        obtain ⟨r', rfl⟩ : ∃ r', r = n + r' := ⟨r - n, by omega⟩
        have he : r' / (2 * S - 1) < edges.length :=
          Nat.div_lt_of_lt_mul (by rw [mul_comm]; omega)
        have hk := Nat.mod_lt r' hD
        have hrow : n + r' = rowOf n S (r' / (2 * S - 1)) (r' % (2 * S - 1)) := by
          unfold rowOf
          have := Nat.div_add_mod r' (2 * S - 1)
          rw [mul_comm] at this
          omega
        rw [hrow, rowDot_edge hS x he hk]
        by_cases hkS : r' % (2 * S - 1) < S
        · rw [rowDot_block_first x hkS]
          have := h.first _ he _ hkS
          unfold edgeVars nodeVars at this
          unfold edge
          linarith
        · rw [rowDot_block_second x hkS]
          have := h.second _ he _ (show r' % (2 * S - 1) - S < S by omega)
          unfold edgeVars nodeVars at this
          unfold edge
          linarith

/-- concrete instance: two vertices, two states, one edge: 8 variables, 5 rows. -/
example : (build ⟨2, 2, fun _ _ => 0⟩ [(0, 1)] ⟨1, 2, 2, fun _ _ _ => 0⟩).map
    (fun p => (p.nVars, p.aRows, p.aCols, p.A.length)) = .ok (8, 5, 8, 13) := by decide +kernel

end Verif.Props
