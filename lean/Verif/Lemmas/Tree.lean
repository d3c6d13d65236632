import Verif.Lemmas.Explore

namespace Verif.MaxProd

open Finset Verif.Common Verif.Spec

variable {edges : Edges} {n : ℕ} {st : St}

/-- every edge belongs to exactly one vertex that has a parent: sums over edges are sums over
non-roots. -/
theorem IsTree.sum_edges (hT : IsTree edges n st) (hE : EdgesIn n edges) (f : ℕ → ℚ) :
    ∑ e ∈ range edges.length, f e =
      ∑ v ∈ range n, if (st.parents v).isSome then f (st.via v).1 else 0 := by
  rw [← sum_filter]
  symm
  apply sum_bij (fun v _ => (st.via v).1)
  · intro v hv
    simp only [mem_filter, mem_range] at hv
    obtain ⟨q, hq⟩ := Option.isSome_iff_exists.mp hv.2
    exact mem_range.mpr (hT.par v q hq).2.2.1.1
  · intro v hv v' hv' h
    simp only [mem_filter, mem_range] at hv hv'
    obtain ⟨q, hq⟩ := Option.isSome_iff_exists.mp hv.2
    obtain ⟨q', hq'⟩ := Option.isSome_iff_exists.mp hv'.2
    have h1 := (hT.par v q hq).2.2.1.2
    have h2 := (hT.par v' q' hq').2.2.1.2
    by_contra hne
    have hpair : v = q' ∧ v' = q := by
      rw [h, h2] at h1
      cases hf : (st.via v).2 <;> cases hf' : (st.via v').2 <;> rw [hf, hf'] at h1 <;>
        simp only [Bool.false_eq_true, if_false, if_true, Prod.mk.injEq] at h1
      · exact absurd h1.2.symm hne
      · exact ⟨h1.2.symm, h1.1⟩
      · exact ⟨h1.1.symm, h1.2⟩
      · exact absurd h1.1.symm hne
    rw [hpair.2] at hq'
    rw [← hpair.1] at hq'
    exact hT.no_two_cycle hq hq'
  · intro e he
    have he' := mem_range.mp he
    have hm : edge edges e ∈ edges := by
      unfold edge; rw [List.getD_eq_getElem _ _ he']; exact List.getElem_mem he'
    rcases hT.edge_cases hE he' with ⟨a, b⟩ | ⟨a, b⟩
    · exact ⟨(edge edges e).2, by simp [a, (hE _ hm).2], by rw [b]⟩
    · exact ⟨(edge edges e).1, by simp [a, (hE _ hm).1], by rw [b]⟩
  · intro v _; rfl

/-- a forest has fewer edges than vertices. -/
theorem IsTree.length_lt (hT : IsTree edges n st) (hE : EdgesIn n edges) (hn : 0 < n) :
    edges.length + 1 ≤ n := by
  have h := hT.sum_edges hE (fun _ => 1)
  have hc : (edges.length : ℚ) = ∑ v ∈ range n, if (st.parents v).isSome then (1 : ℚ) else 0 := by
    rw [← h]; simp
  have hne : st.traversal ≠ [] := by
    intro h0
    have := (hT.mem 0).mpr hn
    rw [h0] at this
    simp at this
  obtain ⟨r, l, hl⟩ := List.exists_cons_of_ne_nil hne
  have hr : r < n := (hT.mem r).mp (by rw [hl]; simp)
  have hroot : st.parents r = none := by
    cases hp : st.parents r with
    | none => rfl
    | some q =>
      have := hT.idx_lt hp
      rw [hl] at this
      simp at this
  have hle : (edges.length : ℚ) ≤ n - 1 := by
    rw [hc, ← add_sum_erase _ _ (mem_range.mpr hr), hroot]
    simp only [Option.isSome_none, Bool.false_eq_true, if_false, zero_add]
    calc ∑ v ∈ (range n).erase r, (if (st.parents v).isSome then (1 : ℚ) else 0)
        ≤ ∑ v ∈ (range n).erase r, (1 : ℚ) := by
          apply sum_le_sum; intro v _; split <;> norm_num
      _ = n - 1 := by
          rw [sum_const, card_erase_of_mem (mem_range.mpr hr), card_range]
          simp only [nsmul_eq_mul, mul_one]
          rw [Nat.cast_sub hn]; simp
  have : (edges.length : ℚ) + 1 ≤ n := by linarith
  exact_mod_cast this

theorem foldl_max_le (l : Edges) : ∀ a : ℕ, a ≤ l.foldl (fun m e => max m (max e.1 e.2)) a ∧
    ∀ e ∈ l, e.1 ≤ l.foldl (fun m e => max m (max e.1 e.2)) a ∧
      e.2 ≤ l.foldl (fun m e => max m (max e.1 e.2)) a := by
  induction l with
  | nil => intro a; simp
  | cons x l ih =>
    intro a
    simp only [List.foldl_cons]
    obtain ⟨h1, h2⟩ := ih (max a (max x.1 x.2))
    refine ⟨by omega, ?_⟩
    intro e he
    rcases List.mem_cons.mp he with rfl | he
    · constructor <;> omega
    · exact h2 e he

theorem edgesIn_maxVertex (edges : Edges) : EdgesIn (maxVertex edges + 1) edges := by
  intro e he
  obtain ⟨h1, h2⟩ := (foldl_max_le edges 0).2 e he
  unfold maxVertex
  omega

/-- more edges than a forest can have. -/
theorem hasCycle_of_length {edges : Edges} {n : ℕ} (hE : EdgesIn n edges) (hne : edges ≠ [])
    (hlen : n ≤ edges.length) : HasCycle edges := by
  have hn : 0 < n := by
    obtain ⟨e, l, rfl⟩ := List.exists_cons_of_ne_nil hne
    have := hE e (by simp)
    omega
  have hs := explore_spec true hE (n := n)
  cases h : explore true edges n with
  | none => rw [h] at hs; exact hs
  | some st =>
    have := (explore_tree true hE h).length_lt hE hn
    omega

/-- `isForest` decides acyclicity. -/
theorem isForest_ok (edges : Edges) (n : ℕ) (hne : edges ≠ []) (hE : EdgesIn n edges) :
    ∃ b, isForest edges (some n) = .ok b ∧ (b = true ↔ ¬ HasCycle edges) := by
  unfold isForest
  by_cases h : (n : ℤ) - 1 < (edges.length : ℤ)
  · refine ⟨false, by simp [h], ?_⟩
    simp only [Bool.false_eq_true, false_iff, not_not]
    exact hasCycle_of_length hE hne (by omega)
  · refine ⟨_, by simp only [h, decide_false, Bool.false_eq_true, if_false]; rw [if_neg hne], ?_⟩
    exact explore_isSome_iff false (edgesIn_maxVertex edges)

theorem isForest_none_ok (edges : Edges) (hne : edges ≠ []) :
    ∃ b, isForest edges none = .ok b ∧ (b = true ↔ ¬ HasCycle edges) := by
  unfold isForest
  refine ⟨_, by simp only [Bool.false_eq_true, if_false]; rw [if_neg hne], ?_⟩
  exact explore_isSome_iff false (edgesIn_maxVertex edges)

end Verif.MaxProd
