import Verif.Lemmas.Chain

/-!
# C03: the chain shortcut is taken on the real chain only (violated), and
# C05: max-product on graphs without edges (violated)
-/

namespace Verif.Props

open Finset Verif.Common Verif.MaxProd Verif.Spec

theorem allEq_iff (a b : List ℕ) : allEq a b = true ↔
    a = b ∨ (a.length ≠ b.length ∧ a.length = 1 ∧ ∀ v ∈ b, v = a.getD 0 0) ∨
      (a.length ≠ b.length ∧ a.length ≠ 1 ∧ b.length = 1 ∧ ∀ v ∈ a, v = b.getD 0 0) := by
  unfold allEq
  by_cases h1 : a.length = b.length
  · simp [h1]
  · have hne : a ≠ b := fun h => h1 (by rw [h])
    by_cases h2 : a.length = 1
    · simp [h2, hne, List.all_eq_true]
    · by_cases h3 : b.length = 1
      · simp [h2, h3, hne, List.all_eq_true]
      · simp [h1, h2, h3, hne]

/-- Exact description of when max-product takes the chain shortcut: besides the real chain these are
graphs with two vertices all of whose edges (none or several) are `(0, 1)`, and graphs with at most
one vertex and exactly one edge. -/
theorem C03_chain_test_characterised (edges : Edges) (n : ℕ) :
    isChain edges n = true ↔
      edges = chainEdges n ∨ (n = 2 ∧ ∀ e ∈ edges, e = (0, 1)) ∨ (n ≤ 1 ∧ edges.length = 1) := by
  constructor
  · intro h
    unfold isChain at h
    rw [Bool.and_eq_true, allEq_iff, allEq_iff] at h
    obtain ⟨hf, hs⟩ := h
    simp only [List.length_map, List.length_range'] at hf hs
    by_cases hlen : edges.length = n - 1
    · left
      have hf' : edges.map Prod.fst = List.range' 0 (n - 1) := by
        rcases hf with h | h | h
        · exact h
        · exact absurd hlen h.1
        · exact absurd hlen h.1
      have hs' : edges.map Prod.snd = List.range' 1 (n - 1) := by
        rcases hs with h | h | h
        · exact h
        · exact absurd hlen h.1
        · exact absurd hlen h.1
      rw [← chainEdges_fst] at hf'
      rw [← chainEdges_snd] at hs'
      apply List.ext_getElem
      · rw [hlen, chainEdges_length]
      · intro i h1 h2
        have a := congrArg (fun l => l.getD i 0) hf'
        have b := congrArg (fun l => l.getD i 0) hs'
        rw [List.getD_eq_getElem _ _ (by simpa using h1),
          List.getD_eq_getElem _ _ (by simpa using h2), List.getElem_map, List.getElem_map] at a
        rw [List.getD_eq_getElem _ _ (by simpa using h1),
          List.getD_eq_getElem _ _ (by simpa using h2), List.getElem_map, List.getElem_map] at b
        exact Prod.ext a b
    · have hf' : (edges.length = 1 ∧ ∀ v ∈ List.range' 0 (n - 1), v = (edges.map Prod.fst).getD 0 0) ∨
          (n - 1 = 1 ∧ ∀ v ∈ edges.map Prod.fst, v = (List.range' 0 (n - 1)).getD 0 0) := by
        rcases hf with h | h | h
        · exact absurd (by simpa using congrArg List.length h) hlen
        · exact Or.inl h.2
        · exact Or.inr h.2.2
      have hs' : (edges.length = 1 ∧ ∀ v ∈ List.range' 1 (n - 1), v = (edges.map Prod.snd).getD 0 0) ∨
          (n - 1 = 1 ∧ ∀ v ∈ edges.map Prod.snd, v = (List.range' 1 (n - 1)).getD 0 0) := by
        rcases hs with h | h | h
        · exact absurd (by simpa using congrArg List.length h) hlen
        · exact Or.inl h.2
        · exact Or.inr h.2.2
      right
      rcases hf' with ⟨h1, h2⟩ | ⟨h1, h2⟩
      · right
        refine ⟨?_, h1⟩
        by_contra hn
        have a := h2 0 (by simp [List.mem_range']; omega)
        have b := h2 1 (by
          simp only [List.mem_range']
          exact ⟨1, by omega, by omega⟩)
        omega
      · left
        have hn : n = 2 := by omega
        subst hn
        refine ⟨rfl, ?_⟩
        rcases hs' with ⟨h3, _⟩ | ⟨_, h4⟩
        · omega
        · intro e he
          have a := h2 e.1 (List.mem_map_of_mem he)
          have b := h4 e.2 (List.mem_map_of_mem he)
          exact Prod.ext a b
  · rintro (rfl | ⟨rfl, h⟩ | ⟨h1, h2⟩)
    · exact isChain_chainEdges n
    · have hf : edges.map Prod.fst = List.replicate edges.length 0 := by
        rw [List.eq_replicate_iff]
        refine ⟨by simp, ?_⟩
        intro v hv
        obtain ⟨e, he, rfl⟩ := List.mem_map.mp hv
        rw [h e he]
      have hs : edges.map Prod.snd = List.replicate edges.length 1 := by
        rw [List.eq_replicate_iff]
        refine ⟨by simp, ?_⟩
        intro v hv
        obtain ⟨e, he, rfl⟩ := List.mem_map.mp hv
        rw [h e he]
      unfold isChain
      rw [hf, hs, Bool.and_eq_true, allEq_iff, allEq_iff]
      by_cases hl : edges.length = 1
      · rw [hl]; simp
      · constructor
        · right; right; simp [hl]
        · right; right; simp [hl]
    · unfold isChain
      have : n - 1 = 0 := by omega
      rw [this, Bool.and_eq_true, allEq_iff, allEq_iff]
      simp [h2]

/-- **C03 (partial).** With at least three vertices — and, for two vertices, with exactly one edge, for one
vertex with none — the shortcut is taken only for the edge list `(0,1), (1,2), …`, so all pairwise
tables are used. Missing from the full claim: the cases listed in `C03_violated_*`, in which the code
does not satisfy it. -/
theorem C03_chain_only_partial (edges : Edges) (n : ℕ) (h : isChain edges n = true)
    (hn : 3 ≤ n ∨ (1 ≤ n ∧ edges.length = n - 1)) : edges = chainEdges n := by
  rcases (C03_chain_test_characterised edges n).mp h with h1 | ⟨h1, h2⟩ | ⟨h1, h2⟩
  · exact h1
  · rcases hn with hn | ⟨_, hn⟩
    · omega
    · subst h1
      match edges, hn with
      | [e], _ =>
        rw [h2 e (by simp)]
        rfl
  · rcases hn with hn | ⟨_, hn⟩
    · omega
    · omega

/-- **C03 is violated**: two vertices joined twice; the second edge's table (which would make the labels
differ) is ignored and the returned labelling is not optimal. -/
theorem C03_violated_parallel_edges :
    ∃ (U : Mat) (t : Ten) (edges : Edges) (y : Labels), edges.length = 2 ∧
      EdgesIn U.rows edges ∧ t.d0 = 2 ∧ t.d1 = U.cols ∧ t.d2 = U.cols ∧
      inferenceMaxProduct {} U (.ten t) edges = .ok y ∧
      ¬ IsMAP U.rows U.cols edges U.get t.get y.get := by
  refine ⟨⟨2, 2, fun _ _ => 0⟩, ⟨2, 2, 2, fun e a b => if e = 0 then 0 else if a = b then 0 else 1⟩,
    [(0, 1), (0, 1)], _, rfl, ?_, rfl, rfl, rfl, rfl, ?_⟩
  · intro e he; simp at he; subst he; exact ⟨by norm_num, by norm_num⟩
  · rintro ⟨_, h⟩
    have := h (fun i => i) (by intro i hi; exact hi)
    revert this
    decide +kernel

/-- **C03 is violated**: two isolated vertices are treated as a chain and the (missing) first transition
table is read out of bounds. -/
theorem C03_violated_no_edges (U : Mat) (m : Mat) (hn : U.rows = 2) (hS : 1 ≤ U.cols)
    (hm : m.rows = U.cols ∧ m.cols = U.cols) :
    inferenceMaxProduct {} U (.mat m) [] = .error .undefinedRead := by
  unfold inferenceMaxProduct validateParams
  simp only
  rw [if_pos hm]
  have h : isChain [] U.rows = true := (C03_chain_test_characterised [] U.rows).mpr
    (Or.inr (Or.inl ⟨hn, by simp⟩))
  simp only [h, if_true]
  unfold Viterbi.viterbi
  rw [if_neg (by omega), if_neg (by omega), if_pos (by simp; omega)]

/-- **C03 is violated**: a self loop on a single vertex is ignored. -/
theorem C03_violated_self_loop :
    ∃ (U : Mat) (t : Ten) (y : Labels), U.rows = 1 ∧ t.d0 = 1 ∧ t.d1 = U.cols ∧ t.d2 = U.cols ∧
      inferenceMaxProduct {} U (.ten t) [(0, 0)] = .ok y ∧
      ¬ IsMAP U.rows U.cols [(0, 0)] U.get t.get y.get := by
  refine ⟨⟨1, 2, fun _ _ => 0⟩, ⟨1, 2, 2, fun _ a b => if a = 1 ∧ b = 1 then 1 else 0⟩, _, rfl, rfl,
    rfl, rfl, rfl, ?_⟩
  rintro ⟨_, h⟩
  have := h (fun _ => 1) (by intro i _; show 1 < 2; norm_num)
  revert this
  decide +kernel

/-- **C05 (partial).** A single vertex without edges gets its best state. The full claim is about every
number of vertices; see the two theorems below for why it fails. -/
theorem C05_no_edges_partial (opts : Opts) (U : Mat) (m : Mat) (hn : U.rows = 1) (hS : 1 ≤ U.cols)
    (hm : m.rows = U.cols ∧ m.cols = U.cols) :
    ∃ y : Labels, inferenceMaxProduct opts U (.mat m) [] = .ok y ∧ y.size = 1 ∧ y.get 0 < U.cols ∧
      ∀ s < U.cols, U.get 0 s ≤ U.get 0 (y.get 0) := by
  have hc : chainEdges U.rows = [] := by rw [hn]; rfl
  obtain ⟨y, hy, hs, hv, hmax⟩ := inferenceMaxProduct_chain opts U (.mat m)
    ⟨0, U.cols, U.cols, fun _ a b => m.get a b⟩
    (by simp only [validateParams, hc]; rw [if_pos hm]; rfl) (by omega) hS
  rw [hc] at hy
  refine ⟨y, hy, by omega, hv 0 (by omega), ?_⟩
  intro s hs'
  have := hmax (fun _ => s) (fun _ _ => hs')
  rw [hc, hn] at this
  simpa [score] using this

/-- **C05 is violated** for two vertices: out-of-bounds read. -/
theorem C05_violated_two (U : Mat) (m : Mat) (hn : U.rows = 2) (hS : 1 ≤ U.cols)
    (hm : m.rows = U.cols ∧ m.cols = U.cols) :
    inferenceMaxProduct {} U (.mat m) [] = .error .undefinedRead :=
  C03_violated_no_edges U m hn hS hm

/-- **C05 is violated** for three or more vertices: `ValueError` from `np.max` of an empty array. -/
theorem C05_violated_three_or_more (opts : Opts) (U : Mat) (m : Mat) (hn : 3 ≤ U.rows)
    (hm : m.rows = U.cols ∧ m.cols = U.cols) :
    inferenceMaxProduct opts U (.mat m) [] = .error .valueError := by
  unfold inferenceMaxProduct validateParams
  simp only
  rw [if_pos hm]
  have h : isChain [] U.rows = false := by
    rw [Bool.eq_false_iff]
    intro h
    rcases (C03_chain_test_characterised [] U.rows).mp h with h1 | ⟨h1, _⟩ | ⟨h1, _⟩
    · have := congrArg List.length h1
      rw [chainEdges_length] at this
      simp at this
      omega
    · omega
    · omega
  simp only [h, Bool.false_eq_true, if_false]
  have : isForest [] (some U.rows) = .error .valueError := by
    unfold isForest
    simp
    omega
  rw [this]

/-- the hypotheses of the partial claims are satisfiable. -/
example : isChain [(0, 1), (1, 2), (2, 3)] 4 = true ∧ isChain [(0, 1), (1, 3), (2, 3)] 4 = false := by
  decide +kernel

end Verif.Props
