import Verif.Lemmas.TreeBP
import Verif.Props.C03

/-!
# C02: max-product on trees

The full claim — the returned labelling is optimal for every forest and all potentials — is false for the
code: every vertex is decoded separately by `argmax`, so several optimal labellings can be mixed
(`C02_violated_ties`). Proved: it holds whenever the optimum is unique, and in general every single
returned state occurs in some optimal labelling.
-/

namespace Verif.Props

open Finset Verif.Common Verif.MaxProd Verif.Spec

theorem tree_result {n S : ℕ} {st : St} {edges : Edges} (hT : IsTree edges n st)
    (hE : EdgesIn n edges) (hS : 0 < S) (U : ℕ → ℕ → ℚ) (P : ℕ → ℕ → ℕ → ℚ) :
    let B := st.traversal.reverse.foldl (upStep S U P st) (fun _ _ => 0)
    let F := st.traversal.foldl (downStep S U P st B) (fun _ _ => 0)
    ∀ v < n, ∃ z, IsMAP n S edges U P z ∧ z v = argmaxN (fun s => U v s + F v s + B v s) S := by
  intro B F v hv
  obtain ⟨pb, κ, K, hBP⟩ := tree_BP hT hE hS U P
  obtain ⟨z, hz, hzv⟩ := hBP.exists_tight_at _ v rfl hv (argmaxN (fun s => U v s + F v s + B v s) S)
    (argmaxN_lt _ hS) (fun s hs => le_argmaxN (fun s => U v s + F v s + B v s) hs)
  exact ⟨z, ⟨hz.valid, fun y' hy' => hBP.tight_max hz hy'⟩, hzv⟩

/-- acyclic graphs with at least one edge: max-product runs, and its states are locally optimal. -/
theorem forest_result (opts : Opts) (U : Mat) (pw : Pairwise) (t : Ten) (edges : Edges)
    (hp : validateParams U pw edges.length = .ok (U.cols, t)) (hne : edges ≠ [])
    (hE : EdgesIn U.rows edges) (hc : ¬ HasCycle edges) (hS : 1 ≤ U.cols) :
    ∃ y : Labels, inferenceMaxProduct opts U pw edges = .ok y ∧ y.size = U.rows ∧
      ∀ v < U.rows, ∃ z, IsMAP U.rows U.cols edges U.get t.get z ∧ z v = y.get v := by
  have hn : 0 < U.rows := by
    obtain ⟨e, l, rfl⟩ := List.exists_cons_of_ne_nil hne
    have := hE e (by simp)
    omega
  obtain ⟨st, hst⟩ := Option.isSome_iff_exists.mp ((explore_isSome_iff true hE).mpr hc)
  have hT := explore_tree true hE hst
  have hlen := hT.length_lt hE hn
  by_cases hchain : isChain edges U.rows = true
  · have hedges : edges = chainEdges U.rows := by
      rcases (C03_chain_test_characterised edges U.rows).mp hchain with h | ⟨h1, h2⟩ | ⟨h1, h2⟩
      · exact h
      · rw [h1]
        match edges, hne, hlen with
        | [e], _, _ => rw [h2 e (by simp)]; rfl
        | _ :: _ :: _, _, hl => simp at hl; omega
      · omega
    rw [hedges] at hp ⊢
    obtain ⟨y, hy, hys, hmap⟩ := inferenceMaxProduct_chain opts U pw t hp hn hS
    exact ⟨y, hy, hys, fun v _ => ⟨y.get, hmap, rfl⟩⟩
  · have hchain' : isChain edges U.rows = false := by simpa using hchain
    obtain ⟨b, hb, hbiff⟩ := isForest_ok edges U.rows hne hE
    have hbt : b = true := hbiff.mpr hc
    subst hbt
    refine ⟨⟨U.rows, fun v => argmaxN (fun s => U.get v s +
        (st.traversal.foldl (downStep U.cols U.get t.get st
          (st.traversal.reverse.foldl (upStep U.cols U.get t.get st) (fun _ _ => 0)))
          (fun _ _ => 0)) v s +
        (st.traversal.reverse.foldl (upStep U.cols U.get t.get st) (fun _ _ => 0)) v s) U.cols⟩,
      ?_, ?_, tree_result hT hE hS U.get t.get⟩
    · unfold inferenceMaxProduct
      rw [hp]
      simp only [hchain', Bool.false_eq_true, if_false]
      rw [hb]
      simp only
      unfold treeMaxProduct
      rw [if_neg (not_not.mpr (show ∀ e ∈ edges, e.1 < U.rows ∧ e.2 < U.rows from hE)), hst]
      simp only
      rw [if_neg (by omega)]
    · rfl

/-- **C02 (partial).** On every forest with at least one edge, for all potentials: if the optimal labelling
is unique, max-product returns it. Missing: optimality when several labellings are optimal, where the
code is wrong (`C02_violated_ties`). -/
theorem C02_tree_unique_partial (opts : Opts) (U : Mat) (pw : Pairwise) (t : Ten) (edges : Edges)
    (hp : validateParams U pw edges.length = .ok (U.cols, t)) (hne : edges ≠ [])
    (hE : EdgesIn U.rows edges) (hc : ¬ HasCycle edges) (hS : 1 ≤ U.cols)
    (huniq : ∀ z z', IsMAP U.rows U.cols edges U.get t.get z →
      IsMAP U.rows U.cols edges U.get t.get z' → ∀ v < U.rows, z v = z' v) :
    ∃ y : Labels, inferenceMaxProduct opts U pw edges = .ok y ∧ y.size = U.rows ∧
      IsMAP U.rows U.cols edges U.get t.get y.get := by
  obtain ⟨y, hy, hys, hloc⟩ := forest_result opts U pw t edges hp hne hE hc hS
  refine ⟨y, hy, hys, ?_⟩
  have hn : 0 < U.rows := by
    obtain ⟨e, l, rfl⟩ := List.exists_cons_of_ne_nil hne
    have := hE e (by simp)
    omega
  obtain ⟨z, hz, _⟩ := hloc 0 hn
  have hag : ∀ v < U.rows, y.get v = z v := by
    intro v hv
    obtain ⟨z', hz', h⟩ := hloc v hv
    rw [← h]
    exact huniq z' z hz' hz v hv
  have hscore : score U.rows edges U.get t.get y.get = score U.rows edges U.get t.get z := by
    unfold score
    congr 1
    · apply sum_congr rfl; intro i hi; rw [hag i (mem_range.mp hi)]
    · apply sum_congr rfl
      intro e he
      have he' := mem_range.mp he
      have hm : edges.getD e (0, 0) ∈ edges := by
        rw [List.getD_eq_getElem _ _ he']; exact List.getElem_mem he'
      rw [hag _ (hE _ hm).1, hag _ (hE _ hm).2]
  refine ⟨fun i hi => by rw [hag i hi]; exact hz.1 i hi, ?_⟩
  intro y' hy'
  rw [hscore]
  exact hz.2 y' hy'

/-- **C02 (partial).** Without any uniqueness assumption: on every forest with at least one edge
max-product succeeds, returns in-range states, and each single state it returns is the state of that
vertex in some optimal labelling. -/
theorem C02_tree_states_partial (opts : Opts) (U : Mat) (pw : Pairwise) (t : Ten) (edges : Edges)
    (hp : validateParams U pw edges.length = .ok (U.cols, t)) (hne : edges ≠ [])
    (hE : EdgesIn U.rows edges) (hc : ¬ HasCycle edges) (hS : 1 ≤ U.cols) :
    ∃ y : Labels, inferenceMaxProduct opts U pw edges = .ok y ∧ y.size = U.rows ∧
      Valid U.rows U.cols y.get ∧
      ∀ v < U.rows, ∃ z, IsMAP U.rows U.cols edges U.get t.get z ∧ z v = y.get v := by
  obtain ⟨y, hy, hys, hloc⟩ := forest_result opts U pw t edges hp hne hE hc hS
  refine ⟨y, hy, hys, ?_, hloc⟩
  intro v hv
  obtain ⟨z, hz, h⟩ := hloc v hv
  rw [← h]
  exact hz.1 v hv

/-- **C02 is violated.** Two vertices joined by the edge `(1, 0)` that rewards different labels, no unary
preference: the labelling returned (both states 0) has score 0, the optimum is 1. -/
theorem C02_violated_ties :
    ∃ (U : Mat) (t : Ten) (y : Labels), t.d0 = 1 ∧ t.d1 = U.cols ∧ t.d2 = U.cols ∧
      EdgesIn U.rows [(1, 0)] ∧ ¬ HasCycle [(1, 0)] ∧
      inferenceMaxProduct {} U (.ten t) [(1, 0)] = .ok y ∧
      ¬ IsMAP U.rows U.cols [(1, 0)] U.get t.get y.get := by
  refine ⟨⟨2, 2, fun _ _ => 0⟩, ⟨1, 2, 2, fun _ a b => if a = b then 0 else 1⟩, _, rfl, rfl, rfl,
    ?_, ?_, rfl, ?_⟩
  · intro e he; simp at he; subst he; exact ⟨by norm_num, by norm_num⟩
  · have h := explore_isSome_iff (edges := [(1, 0)]) (n := 2) true
      (by intro e he; simp at he; subst he; exact ⟨by norm_num, by norm_num⟩)
    exact h.mp (by decide +kernel)
  · rintro ⟨_, h⟩
    have := h (fun i => i) (by intro i hi; exact hi)
    revert this
    decide +kernel

/-- concrete instance of the partial claims: a path with centre 2 which prefers the centre's state 1; the
labelling `[1, 1, 1]` is returned. -/
example : (inferenceMaxProduct {} ⟨3, 2, fun i s => if i = 2 ∧ s = 1 then 1 else 0⟩
      (.mat ⟨2, 2, fun a b => if a = b then 1 else 0⟩) [(0, 2), (2, 1)]).map
      (fun y => (y.size, y.get 0, y.get 1, y.get 2)) = .ok (3, 1, 1, 1) := by
  decide +kernel

end Verif.Props
