import Verif.Spec.SpanningForest
import Verif.Lemmas.Tree
import Mathlib.Data.Set.Finite.List
import Mathlib.Data.Set.Finite.Lemmas

namespace Verif.Lemmas

open Verif.Common Verif.Spec
open Verif.MaxProd (hasCycle_of_length)

theorem Connected.refl (E : Edges) (u : ℕ) : Connected E u u := Relation.ReflTransGen.refl

theorem Connected.trans {E : Edges} {u v w : ℕ} (h : Connected E u v) (h' : Connected E v w) : Connected E u w :=
  Relation.ReflTransGen.trans h h'

theorem connected_edge {E : Edges} {e : ℕ × ℕ} (h : e ∈ E) : Connected E e.1 e.2 := by
  obtain ⟨k, hk, rfl⟩ := List.getElem_of_mem h
  refine Relation.ReflTransGen.single ⟨k, hk, trivial, .inl ?_⟩
  rw [List.getD_eq_getElem _ _ hk]

/-- A graph inside another one: walks and cycles carry over. -/
theorem sublist_walk {E F : Edges} (f : ℕ ↪o ℕ) (hf : ∀ k, E[k]? = F[f k]?) {P Q : ℕ → Prop} (hPQ : ∀ k, P k → Q (f k)) {u v : ℕ}
    (h : ConnectedVia E P u v) : ConnectedVia F Q u v := by
  unfold ConnectedVia at *
  induction h with
  | refl => exact .refl
  | tail _ h ih =>
    obtain ⟨e, he, hp, hj⟩ := h
    refine ih.tail ⟨f e, ?_, hPQ e hp, ?_⟩
    · by_contra hge
      have h1 := hf e
      rw [List.getElem?_eq_getElem he, List.getElem?_eq_none (by omega)] at h1
      cases h1
    · unfold Joins at *
      rw [List.getD_eq_getElem?_getD] at *
      rw [← hf e]
      exact hj

theorem sublist_cycle {E F : Edges} (h : E.Sublist F) (hc : HasCycle E) : HasCycle F := by
  obtain ⟨f, hf⟩ := List.sublist_iff_exists_orderEmbedding_getElem?_eq.mp h
  obtain ⟨e, he, hw⟩ := hc
  have h1 : F[f e]? = some E[e] := by rw [← hf e, List.getElem?_eq_getElem he]
  obtain ⟨h2, -⟩ := List.getElem?_eq_some_iff.mp h1
  refine ⟨f e, h2, ?_⟩
  have h3 : F.getD (f e) (0, 0) = E.getD e (0, 0) := by
    rw [List.getD_eq_getElem?_getD, List.getD_eq_getElem?_getD, hf e]
  rw [h3]
  exact sublist_walk f hf (fun k hk h => hk (f.injective h)) hw

theorem connected_sublist {E F : Edges} (h : E.Sublist F) {u v : ℕ} (hc : Connected E u v) : Connected F u v := by
  obtain ⟨f, hf⟩ := List.sublist_iff_exists_orderEmbedding_getElem?_eq.mp h
  exact sublist_walk f hf (fun _ _ => trivial) hc

/-- Walks in a graph with one more edge. -/
theorem walk_split {R R' : ℕ → ℕ → Prop} {a b : ℕ}
    (hR : ∀ x y, R' x y → R x y ∨ (x = a ∧ y = b) ∨ (x = b ∧ y = a)) {u v : ℕ} (h : Relation.ReflTransGen R' u v) :
    Relation.ReflTransGen R u v ∨ (Relation.ReflTransGen R u a ∧ Relation.ReflTransGen R b v) ∨
      (Relation.ReflTransGen R u b ∧ Relation.ReflTransGen R a v) := by
  induction h with
  | refl => exact .inl .refl
  | tail _ h ih =>
    rcases hR _ _ h with h | ⟨rfl, rfl⟩ | ⟨rfl, rfl⟩
    · rcases ih with h1 | ⟨h1, h2⟩ | ⟨h1, h2⟩
      · exact .inl (h1.tail h)
      · exact .inr (.inl ⟨h1, h2.tail h⟩)
      · exact .inr (.inr ⟨h1, h2.tail h⟩)
    · rcases ih with h1 | ⟨h1, h2⟩ | ⟨h1, h2⟩
      · exact .inr (.inl ⟨h1, .refl⟩)
      · exact .inr (.inl ⟨h1, .refl⟩)
      · exact .inl h1
    · rcases ih with h1 | ⟨h1, h2⟩ | ⟨h1, h2⟩
      · exact .inr (.inr ⟨h1, .refl⟩)
      · exact .inl h1
      · exact .inr (.inr ⟨h1, .refl⟩)

/-- A step in a graph with one more edge. -/
theorem step_append {E : Edges} {a b : ℕ} {P : ℕ → Prop} {x y : ℕ}
    (h : ∃ e < (E ++ [(a, b)]).length, P e ∧ Joins (E ++ [(a, b)]) e x y) :
    (∃ e < E.length, P e ∧ Joins E e x y) ∨ (P E.length ∧ ((x = a ∧ y = b) ∨ (x = b ∧ y = a))) := by
  obtain ⟨e, he, hp, hj⟩ := h
  rw [List.length_append, List.length_singleton] at he
  rcases Nat.lt_succ_iff_lt_or_eq.mp he with he | rfl
  · left
    refine ⟨e, he, hp, ?_⟩
    unfold Joins at *
    rwa [List.getD_append _ _ _ _ he] at hj
  · right
    refine ⟨hp, ?_⟩
    unfold Joins at hj
    rw [List.getD_append_right _ _ _ _ le_rfl, Nat.sub_self] at hj
    simp only [List.getD_cons_zero, Prod.mk.injEq] at hj
    rcases hj with ⟨rfl, rfl⟩ | ⟨rfl, rfl⟩
    · exact .inl ⟨rfl, rfl⟩
    · exact .inr ⟨rfl, rfl⟩

/-- An edge between two parts of a forest leaves it a forest. -/
theorem forest_append {E : Edges} (h : ¬ HasCycle E) {a b : ℕ} (hab : ¬ Connected E a b) : ¬ HasCycle (E ++ [(a, b)]) := by
  rintro ⟨e, he, hw⟩
  rw [List.length_append, List.length_singleton] at he
  rcases Nat.lt_succ_iff_lt_or_eq.mp he with he | rfl
  · rw [List.getD_append _ _ _ _ he] at hw
    have hj : Connected E (E.getD e (0, 0)).1 (E.getD e (0, 0)).2 := by
      rw [List.getD_eq_getElem _ _ he]
      exact connected_edge (List.getElem_mem he)
    have hm : ∀ {u v}, ConnectedVia E (· ≠ e) u v → Connected E u v := fun h => h.mono fun _ _ => trivial
    have hs : ∀ {u v}, Connected E u v → Connected E v u := fun h => ConnectedVia.symm h
    rcases walk_split (R := fun x y => ∃ k < E.length, k ≠ e ∧ Joins E k x y) (a := a) (b := b)
      (fun x y hxy => (step_append hxy).imp id fun h => h.2) hw with h1 | ⟨h1, h2⟩ | ⟨h1, h2⟩
    · exact h ⟨e, he, h1⟩
    · exact hab (Connected.trans (hs (hm h1)) (Connected.trans hj (hs (hm h2))))
    · exact hab (Connected.trans (hm h2) (Connected.trans (hs hj) (hm h1)))
  · rw [List.getD_append_right _ _ _ _ le_rfl, Nat.sub_self] at hw
    refine hab ?_
    have hw' : ConnectedVia (E ++ [(a, b)]) (· ≠ E.length) a b := hw
    refine Relation.ReflTransGen.mono ?_ a b hw'
    intro x y hxy
    rcases step_append hxy with ⟨k, h1, -, h2⟩ | h1
    · exact ⟨k, h1, trivial, h2⟩
    · exact absurd rfl h1.1

/-- A forest can be extended, by given edges, to one that joins the ends of all of them. -/
theorem forest_extend (L : Edges) : ∀ F : Edges, ¬ HasCycle F →
    ∃ G : Edges, (∀ e ∈ G, e ∈ L) ∧ ¬ HasCycle (F ++ G) ∧ ∀ e ∈ L, Connected (F ++ G) e.1 e.2 := by
  induction L with
  | nil => exact fun F hF => ⟨[], by simp, by simpa using hF, by simp⟩
  | cons x L ih =>
    intro F hF
    by_cases hx : Connected F x.1 x.2
    · obtain ⟨G, h1, h2, h3⟩ := ih F hF
      refine ⟨G, fun e he => List.mem_cons_of_mem _ (h1 e he), h2, fun e he => ?_⟩
      rcases List.mem_cons.mp he with rfl | he
      · exact connected_sublist (List.sublist_append_left _ _) hx
      · exact h3 e he
    · obtain ⟨G, h1, h2, h3⟩ := ih (F ++ [(x.1, x.2)]) (forest_append hF hx)
      rw [List.append_assoc] at h2
      refine ⟨[(x.1, x.2)] ++ G, fun e he => ?_, h2, fun e he => ?_⟩
      · rcases List.mem_append.mp he with he | he
        · rw [List.mem_singleton] at he
          rw [he]
          exact List.mem_cons_self
        · exact List.mem_cons_of_mem _ (h1 e he)
      · rcases List.mem_cons.mp he with rfl | he
        · exact connected_edge (List.mem_append_right _ (by simp))
        · have := h3 e he
          rwa [List.append_assoc] at this

/-- A forest of nonzero entries is part of a spanning forest. -/
theorem spanning_extend {n : ℕ} {A : ℕ → ℕ → ℚ} {F : Edges} (hF : ∀ e ∈ F, e.1 < n ∧ e.2 < n ∧ A e.1 e.2 ≠ 0)
    (hc : ¬ HasCycle F) : ∃ G, SpanningForest n A (F ++ G) := by
  obtain ⟨G, h1, h2, h3⟩ := forest_extend (((List.range n) ×ˢ (List.range n)).filter fun e => decide (A e.1 e.2 ≠ 0)) F hc
  have hmem : ∀ e : ℕ × ℕ, e ∈ ((List.range n) ×ˢ (List.range n)).filter (fun e => decide (A e.1 e.2 ≠ 0)) ↔
      e.1 < n ∧ e.2 < n ∧ A e.1 e.2 ≠ 0 := by
    intro e
    rw [List.mem_filter, show e = (e.1, e.2) from rfl, List.mem_product]
    simp [and_assoc]
  refine ⟨G, ⟨fun e he => ?_, h2, fun i hi j hj h => ?_⟩⟩
  · rcases List.mem_append.mp he with he | he
    · exact hF e he
    · exact (hmem e).mp (h1 e he)
  · exact h3 (i, j) ((hmem (i, j)).mpr ⟨hi, hj, h⟩)

theorem no_edges_no_cycle : ¬ HasCycle [] := by
  rintro ⟨e, he, -⟩
  simp at he

/-- Every matrix has a spanning forest of least weight. -/
theorem minimum_spanning_exists (n : ℕ) (A : ℕ → ℕ → ℚ) : ∃ E, MinimumSpanningForest n A E := by
  obtain ⟨G, hG⟩ := spanning_extend (n := n) (A := A) (F := []) (by simp) no_edges_no_cycle
  have hfin : {E | SpanningForest n A E}.Finite := by
    refine ((List.finite_length_le (Fin n × Fin n) n).image (List.map fun p => (p.1.val, p.2.val))).subset ?_
    intro E hE
    have hin : ∀ e ∈ E, e.1 < n ∧ e.2 < n := fun e he => ⟨(hE.entries e he).1, (hE.entries e he).2.1⟩
    refine ⟨E.pmap (fun e h => ((⟨e.1, h.1⟩, ⟨e.2, h.2⟩) : Fin n × Fin n)) hin, ?_, ?_⟩
    · change (E.pmap _ hin).length ≤ n
      rw [List.length_pmap]
      by_contra hlt
      exact hE.forest (hasCycle_of_length hin (by rintro rfl; simp at hlt) (by omega))
    · rw [List.map_pmap]
      simp
  obtain ⟨E, hE, hmin⟩ := Set.exists_min_image _ (totalWeightOf A) hfin ⟨_, hG⟩
  exact ⟨E, hE, hmin⟩

end Verif.Lemmas
