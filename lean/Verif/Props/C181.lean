import Verif.Model.SnakeWalk

/-!
# C181: lists shuffled together stay together
-/

namespace Verif.Props

open Verif.Snakes

/-- `n` is the length of the shortest of the lists. -/
def Shortest {α : Type} (n : ℕ) (args : List (List α)) : Prop := (∃ a ∈ args, a.length = n) ∧ ∀ a ∈ args, n ≤ a.length

theorem shortest_fold {α : Type} (rest : List (List α)) (n : ℕ) :
    (∀ a ∈ rest, rest.foldl (fun n l => min n l.length) n ≤ a.length) ∧ rest.foldl (fun n l => min n l.length) n ≤ n ∧
      (rest.foldl (fun n l => min n l.length) n = n ∨ ∃ a ∈ rest, a.length = rest.foldl (fun n l => min n l.length) n) := by
  induction rest generalizing n with
  | nil => simp
  | cons a r ih =>
    obtain ⟨h1, h2, h3⟩ := ih (min n a.length)
    rw [List.foldl_cons]
    refine ⟨?_, le_trans h2 (min_le_left _ _), ?_⟩
    · intro b hb
      rcases List.mem_cons.mp hb with rfl | hb
      · exact le_trans h2 (min_le_right _ _)
      · exact h1 b hb
    · rcases h3 with h3 | ⟨b, hb, h3⟩
      · rw [h3]
        rcases min_choice n a.length with h | h
        · exact .inl h
        · exact .inr ⟨a, List.mem_cons_self, h.symm⟩
      · exact .inr ⟨b, List.mem_cons_of_mem _ hb, h3⟩

theorem zipAll_rows {α : Type} {n : ℕ} {args : List (List α)} (h : Shortest n args) :
    zipAll args = (List.range n).map fun i => args.filterMap fun l => l[i]? := by
  obtain ⟨⟨b, hb, hn⟩, hle⟩ := h
  cases args with
  | nil => simp at hb
  | cons a r =>
    have e : r.foldl (fun n l => min n l.length) a.length = n := by
      obtain ⟨h1, h2, h3⟩ := shortest_fold r a.length
      apply le_antisymm
      · rw [← hn]
        rcases List.mem_cons.mp hb with rfl | hb
        · exact h2
        · exact h1 b hb
      · rcases h3 with h3 | ⟨c, hc, h3⟩
        · rw [h3]; exact hle a List.mem_cons_self
        · rw [← h3]; exact hle c (List.mem_cons_of_mem _ hc)
    simp only [zipAll, e]

theorem row_map {α : Type} {n i : ℕ} {args : List (List α)} (d : α) (h : ∀ a ∈ args, n ≤ a.length) (hi : i < n) :
    (args.filterMap fun l => l[i]?) = args.map fun l => l.getD i d := by
  induction args with
  | nil => rfl
  | cons a r ih =>
    have ha := h a List.mem_cons_self
    rw [List.filterMap_cons, List.map_cons, ih fun b hb => h b (List.mem_cons_of_mem _ hb),
      List.getElem?_eq_getElem (by omega), List.getD_eq_getElem _ _ (by omega)]

/-- **C181, together.** All lists, cut to the length `n` of the shortest one, are rearranged in the same way: entry `k` of every list of
the result is entry `order[k]` of the list given. -/
theorem C181_together {α : Type} (d : α) {n : ℕ} (hn : 0 < n) {args : List (List α)} (h : Shortest n args) {order : List ℕ}
    (ho : order.Perm (List.range n)) :
    shuffleInUnison order args = args.map fun a => order.map fun i => a.getD i d := by
  have hlt : ∀ i ∈ order, i < n := fun i hi => List.mem_range.mp (ho.mem_iff.mp hi)
  have hlen : order.length = n := by rw [ho.length_eq, List.length_range]
  have e1 : (order.filterMap fun i => (zipAll args)[i]?) = order.map fun i => args.map fun l => l.getD i d := by
    rw [zipAll_rows h]
    have hlt' := hlt
    clear hlen ho hlt
    induction order with
    | nil => rfl
    | cons i r ih =>
      have hi := hlt' i List.mem_cons_self
      rw [List.filterMap_cons, List.map_cons, ← ih fun j hj => hlt' j (List.mem_cons_of_mem _ hj),
        List.getElem?_eq_getElem (by simpa using hi), List.getElem_map, List.getElem_range, row_map d h.2 hi]
  unfold shuffleInUnison
  rw [e1]
  have hs : Shortest args.length (order.map fun i => args.map fun l => l.getD i d) := by
    refine ⟨?_, ?_⟩
    · obtain ⟨i, r, rfl⟩ := List.exists_cons_of_length_pos (by omega : 0 < order.length)
      exact ⟨_, List.mem_map_of_mem List.mem_cons_self, by rw [List.length_map]⟩
    · intro a ha
      obtain ⟨i, -, rfl⟩ := List.mem_map.mp ha
      rw [List.length_map]
  rw [zipAll_rows hs]
  refine List.ext_getElem (by simp) fun j h1 h2 => ?_
  have hj : j < args.length := by simpa using h2
  rw [List.getElem_map, List.getElem_range, List.getElem_map, List.filterMap_map]
  have : ((fun l : List α => l[j]?) ∘ fun i => args.map fun l => l.getD i d) = fun i => some (args[j].getD i d) := by
    funext i
    simp [hj]
  rw [this, List.filterMap_eq_map']

/-- **C181, kept.** What belongs together is kept: the tuples of the result, one entry of every list, are those of the arguments. -/
theorem C181_kept {α : Type} (d : α) {n : ℕ} (hn : 0 < n) {args : List (List α)} (h : Shortest n args) {order : List ℕ}
    (ho : order.Perm (List.range n)) :
    ((List.range n).map fun k => (shuffleInUnison order args).map fun l => l.getD k d).Perm
      ((List.range n).map fun k => args.map fun l => l.getD k d) := by
  rw [C181_together d hn h ho]
  have e : ((List.range n).map fun k => (args.map fun a => order.map fun i => a.getD i d).map fun l => l.getD k d) =
      order.map fun i => args.map fun l => l.getD i d := by
    have hlen : order.length = n := by rw [ho.length_eq, List.length_range]
    refine List.ext_getElem (by simp [hlen]) fun k h1 h2 => ?_
    have hk : k < order.length := by simpa using h2
    rw [List.getElem_map, List.getElem_range, List.getElem_map, List.map_map]
    refine List.map_congr_left fun a _ => ?_
    simp [hk]
  rw [e]
  exact ho.map _

/-- **C181, nothing left.** If one of the lists is empty, or there are none, the result has no lists at all (assigning it to two or three
names, as all callers do, raises ValueError). -/
theorem C181_empty {α : Type} (order : List ℕ) {args : List (List α)} (h : args = [] ∨ [] ∈ args) : shuffleInUnison order args = [] := by
  have e : zipAll args = [] := by
    rcases h with rfl | h
    · rfl
    · rw [zipAll_rows (n := 0) ⟨⟨[], h, rfl⟩, fun _ _ => Nat.zero_le _⟩]; rfl
  unfold shuffleInUnison
  rw [e]
  simp [zipAll]

/-- three images, labels and kinds of image, in the order 2, 0, 1. -/
example : shuffleInUnison [2, 0, 1] [[10, 11, 12], [20, 21, 22, 23], [0, 0, 1]] = [[12, 10, 11], [22, 20, 21], [1, 0, 0]] := by
  decide +kernel

example := C181_kept 0 (n := 3) (by omega) (args := [[10, 11, 12], [20, 21, 22, 23], [0, 0, 1]]) ⟨⟨_, List.mem_cons_self, rfl⟩, by decide⟩
  (order := [2, 0, 1]) (by decide)

example := C181_empty (α := ℕ) [] (args := [[], [1, 2]]) (.inr List.mem_cons_self)

end Verif.Props
