import Verif.Model.TypedSnakes
import Verif.Spec.TypedSwap
import Verif.Props.C74

/-!
# Lemmas for `swap_node_types`
-/

namespace Verif.TypedSnakes

open Finset Verif.Common Verif.Spec Verif.Typed Verif.Props

theorem mapM_total {α β : Type} {f : α → Except PyErr β} {g : α → β} {l : List α} (h : ∀ a ∈ l, f a = .ok (g a)) :
    l.mapM f = .ok (l.map g) := by
  induction l with
  | nil => rfl
  | cons a l ih =>
    rw [List.mapM_cons, h a List.mem_cons_self, ih fun b hb => h b (List.mem_cons_of_mem _ hb)]
    rfl

theorem at?_ok {α : Type} {l : List α} {i : ℕ} (h : i < l.length) (d : α) : at? l i = .ok (l.getD i d) := by
  unfold at?
  rw [getElem?_getD h d]

theorem perm_mem {T : ℕ} {p : List ℕ} (hp : Involution T p) {i : ℕ} (h : i ∈ p) : i < T := by
  obtain ⟨k, hk, rfl⟩ := List.getElem_of_mem h
  have := hp.lt k (hp.length ▸ hk)
  rwa [List.getD_eq_getElem _ _ hk] at this

theorem pick_ok {α : Type} {T : ℕ} {p : List ℕ} (hp : Involution T p) {l : List α} (hl : l.length = T) (d : α) :
    pick l p = .ok (p.map fun i => l.getD i d) :=
  mapM_total fun i hi => at?_ok (by rw [hl]; exact perm_mem hp hi) d

theorem getD_pmap {α : Type} {T : ℕ} {p : List ℕ} (hp : Involution T p) (g : ℕ → α) (d : α) {t : ℕ} (ht : t < T) :
    (p.map g).getD t d = g (p.getD t 0) := by
  rw [List.getD_eq_getElem _ _ (by rw [List.length_map, hp.length]; exact ht), List.getElem_map,
    List.getD_eq_getElem _ _ (by rw [hp.length]; exact ht)]

theorem renamed_getD {T : ℕ} {p : List ℕ} (hp : Involution T p) (l : List ℕ) {t : ℕ} (ht : t < T) :
    (renamed p l).getD t 0 = l.getD (p.getD t 0) 0 := getD_pmap hp _ 0 ht

theorem renamed_length {T : ℕ} {p : List ℕ} (hp : Involution T p) (l : List ℕ) : (renamed p l).length = T := by
  unfold renamed
  rw [List.length_map, hp.length]

/-- sums over the types do not depend on their names. -/
theorem sum_perm {T : ℕ} {p : List ℕ} (hp : Involution T p) {M : Type} [AddCommMonoid M] (g : ℕ → M) :
    ∑ t ∈ range T, g (p.getD t 0) = ∑ t ∈ range T, g t := by
  refine Finset.sum_nbij' (fun t => p.getD t 0) (fun t => p.getD t 0) ?_ ?_ ?_ ?_ ?_
  · exact fun t ht => mem_range.mpr (hp.lt t (mem_range.mp ht))
  · exact fun t ht => mem_range.mpr (hp.lt t (mem_range.mp ht))
  · exact fun t ht => hp.back t (mem_range.mp ht)
  · exact fun t ht => hp.back t (mem_range.mp ht)
  · exact fun t _ => rfl

theorem renamed_sum {T : ℕ} {p : List ℕ} (hp : Involution T p) {l : List ℕ} (hl : l.length = T) : (renamed p l).sum = l.sum := by
  rw [← before_all, ← before_all, before_eq_sum, before_eq_sum, renamed_length hp, hl, ← sum_perm hp]
  exact sum_congr rfl fun t ht => by rw [renamed_getD hp l (hp.lt t (mem_range.mp ht)), hp.back t (mem_range.mp ht)]

theorem renamed_twice {T : ℕ} {p : List ℕ} (hp : Involution T p) {l : List ℕ} (hl : l.length = T) : renamed p (renamed p l) = l := by
  apply List.ext_getElem
  · rw [renamed_length hp, hl]
  · intro t h1 h2
    rw [← List.getD_eq_getElem _ 0 h1, ← List.getD_eq_getElem _ 0 h2, renamed_getD hp _ (hl ▸ h2), renamed_getD hp _ (hp.lt t (hl ▸ h2)),
      hp.back t (hl ▸ h2)]

/-! ### tables by label -/

theorem repeats_get (S : List ℕ) (g : ℕ → ℕ) : ∀ T, T ≤ S.length → ∀ t < T, ∀ s < S.getD t 0,
    ((List.range T).flatMap fun i => List.replicate (S.getD i 0) (g i))[before S t + s]? = some (g t) ∧
    ((List.range T).flatMap fun i => List.replicate (S.getD i 0) (g i)).length = before S T := by
  have hlen : ∀ T, ((List.range T).flatMap fun i => List.replicate (S.getD i 0) (g i)).length = before S T := by
    intro T
    induction T with
    | zero => simp [before]
    | succ T ih => rw [List.range_succ, List.flatMap_append, List.length_append, ih, before_succ]; simp
  intro T
  induction T with
  | zero => intro _ t ht; omega
  | succ T ih =>
    intro hT t ht s hs
    refine ⟨?_, hlen _⟩
    rw [List.range_succ, List.flatMap_append]
    rcases Nat.lt_succ_iff_lt_or_eq.mp ht with h | rfl
    · have h1 := (ih (by omega) t h s hs).1
      rw [List.getElem?_append_left]
      · exact h1
      · by_contra hc
        rw [List.getElem?_eq_none (by omega)] at h1
        cases h1
    · rw [List.getElem?_append_right (by rw [hlen]; omega), hlen, Nat.add_sub_cancel_left]
      rw [List.flatMap_cons, List.flatMap_nil, List.append_nil, List.getElem?_replicate, if_pos hs]

theorem npAt_repeat (S : List ℕ) (g : ℕ → ℕ) {t s : ℕ} (ht : t < S.length) (hs : s < S.getD t 0) :
    npAt ((List.range S.length).flatMap fun i => List.replicate (S.getD i 0) (g i)) ((before S t : ℤ) + s) = .ok (g t) := by
  unfold npAt
  rw [if_pos (by positivity), show ((before S t : ℤ) + s).toNat = before S t + s by omega]
  unfold at?
  rw [(repeats_get S g S.length le_rfl t ht s hs).1]

/-- a label in the new numbering. -/
theorem relabel_ok {T : ℕ} {p : List ℕ} (hp : Involution T p) {S : List ℕ} (hS : S.length = T) {t s : ℕ} (ht : t < T)
    (hs : s < S.getD t 0) : relabel p S (renamed p S) ((before S t : ℤ) + s) = .ok ((before (renamed p S) (p.getD t 0) : ℤ) + s) := by
  unfold relabel deltas types
  rw [npAt_repeat S _ (hS ▸ ht) hs, npAt_repeat S _ (hS ▸ ht) hs]
  simp only [bind, Except.bind]
  rw [at?_ok (by rw [hp.length]; exact ht) 0]
  simp only
  have hl := hp.lt t ht
  unfold cumStates
  rw [at?_ok (by simpa [renamed_length hp] using hl) 0, renamed_length hp, getD_map_range _ _ _ hl]
  simp only [Except.ok.injEq]
  unfold before
  ring

/-! ### moving the labels -/

theorem assignSlice_ok (dst src : List ℤ) (a : ℕ) (h : a + src.length ≤ dst.length) :
    ∃ r, assignSlice dst a (a + src.length) src = .ok r ∧ r.length = dst.length ∧
      (∀ k < src.length, r.getD (a + k) 0 = src.getD k 0) ∧
      ∀ q, q < a ∨ a + src.length ≤ q → r.getD q 0 = dst.getD q 0 := by
  unfold assignSlice
  simp only
  have hk : min (a + src.length) dst.length - min a dst.length = src.length := by omega
  rw [hk, if_pos rfl]
  have ha : min a dst.length = a := by omega
  rw [ha]
  have hl : (dst.take a).length = a := by rw [List.length_take]; omega
  refine ⟨_, rfl, ?_, ?_, ?_⟩
  · simp only [List.length_append, List.length_take, List.length_drop]
    omega
  · intro k hk
    rw [List.append_assoc, List.getD_append_right _ _ _ _ (by omega), hl, Nat.add_sub_cancel_left, List.getD_append _ _ _ _ hk]
  · intro q hq
    rcases hq with hq | hq
    · rw [List.append_assoc, List.getD_append _ _ _ _ (by omega)]
      rw [List.getD_eq_getElem?_getD, List.getElem?_take_of_lt hq, ← List.getD_eq_getElem?_getD]
    · rw [List.getD_append_right _ _ _ _ (by rw [List.length_append, hl]; exact hq), List.length_append, hl,
        List.getD_eq_getElem?_getD, List.getElem?_drop, ← List.getD_eq_getElem?_getD]
      congr 1
      omega

theorem foldlM_range_succ {β : Type} (f : β → ℕ → Except PyErr β) (K : ℕ) (b : β) :
    (List.range (K + 1)).foldlM f b = (List.range K).foldlM f b >>= fun c => f c K := by
  rw [List.range_succ, List.foldlM_append]
  cases (List.range K).foldlM f b with
  | error e => rfl
  | ok c =>
    change (List.foldlM f c [K]) = f c K
    simp only [List.foldlM_cons, List.foldlM_nil]
    cases f c K <;> rfl

/-- After the loop, the labels of type `t` are at the place of the type with the new name. -/
theorem moveLabels_ok {T : ℕ} {p : List ℕ} (hp : Involution T p) {n : List ℕ} (hn : n.length = T) (y : List ℤ)
    (hy : y.length = n.sum) :
    ∃ r, moveLabels p n (renamed p n) y = .ok r ∧ r.length = y.length ∧
      ∀ t < T, ∀ i < n.getD t 0, r.getD (before (renamed p n) (p.getD t 0) + i) 0 = y.getD (before n t + i) 0 := by
  have key : ∀ K ≤ T, ∃ r, (List.range K).foldlM (moveStep p n (renamed p n) y) (List.replicate y.length 0) = .ok r ∧
      r.length = y.length ∧
      ∀ t < K, ∀ i < n.getD t 0, r.getD (before (renamed p n) (p.getD t 0) + i) 0 = y.getD (before n t + i) 0 := by
    intro K
    induction K with
    | zero => exact fun _ => ⟨_, rfl, by simp, fun t ht => by omega⟩
    | succ K ih =>
      intro hK
      obtain ⟨r, h1, h2, h3⟩ := ih (by omega)
      have hKT : K < T := by omega
      have hj := hp.lt K hKT
      have hnj : (renamed p n).getD (p.getD K 0) 0 = n.getD K 0 := by rw [renamed_getD hp _ hj, hp.back K hKT]
      have hsrc : before n K + n.getD K 0 ≤ y.length := by
        rw [hy, ← before_succ]; exact before_le_sum _ _
      have hsl := slice_eq y (before n K) (n.getD K 0) hsrc
      have hslen : (slice y (before n K) (n.getD K 0)).length = n.getD K 0 := by rw [hsl]; simp
      have hdst : before (renamed p n) (p.getD K 0) + n.getD K 0 ≤ r.length := by
        rw [h2, hy, ← renamed_sum hp hn, ← hnj, ← before_succ]; exact before_le_sum _ _
      obtain ⟨r', e1, e2, e3, e4⟩ := assignSlice_ok r (slice y (before n K) (n.getD K 0)) (before (renamed p n) (p.getD K 0))
        (by rw [hslen]; exact hdst)
      refine ⟨r', ?_, e2.trans h2, ?_⟩
      · rw [foldlM_range_succ, h1]
        change moveStep p n (renamed p n) y r K = _
        unfold moveStep
        rw [at?_ok (by rw [hp.length]; exact hKT) 0]
        simp only [bind, Except.bind]
        rw [if_neg (by rw [renamed_length hp]; omega)]
        have := before_succ (renamed p n) (p.getD K 0)
        rw [hnj] at this
        unfold before at this e1
        rw [this, ← e1]
        unfold before at hslen
        rw [hslen]
      · intro t ht i hi
        rcases Nat.lt_succ_iff_lt_or_eq.mp ht with h | rfl
        · rw [e4, h3 t h i hi]
          rw [hslen]
          by_contra hc
          have htT : t < T := by omega
          have hnt : (renamed p n).getD (p.getD t 0) 0 = n.getD t 0 := by rw [renamed_getD hp _ (hp.lt t htT), hp.back t htT]
          have hb := before_succ (renamed p n) (p.getD t 0)
          have hb' := before_succ (renamed p n) (p.getD K 0)
          have := block_unique (renamed p n) (s := before (renamed p n) (p.getD t 0) + i) (a := p.getD t 0) (b := p.getD K 0)
            (by unfold before; omega) (by change _ < before (renamed p n) _; omega) (by change before (renamed p n) _ ≤ _; omega)
            (by change _ < before (renamed p n) _; omega)
          have h4 := congrArg (fun u => p.getD u 0) this
          simp only [hp.back t htT, hp.back K hKT] at h4
          omega
        · rw [e3 i (by rw [hslen]; exact hi), hsl, getD_map_range _ _ _ hi]
  obtain ⟨r, h1, h2, h3⟩ := key T le_rfl
  exact ⟨r, by unfold moveLabels; rw [hn]; exact h1, h2, h3⟩

/-! ### the instance -/

theorem pairs_get {T : ℕ} {p : List ℕ} (hp : Involution T p) (g : ℕ → ℕ → ℕ) {a b : ℕ} (ha : a < T) (hb : b < T) :
    (p.flatMap fun i => p.map fun j => g i j)[a * T + b]? = some (g (p.getD a 0) (p.getD b 0)) := by
  have : ∀ (l : List ℕ) (a : ℕ), a < l.length → (l.flatMap fun i => p.map fun j => g i j)[a * T + b]? =
      some (g (l.getD a 0) (p.getD b 0)) := by
    intro l
    induction l with
    | nil => intro a h; simp at h
    | cons c l ih =>
      intro a h
      rw [List.flatMap_cons]
      cases a with
      | zero =>
        rw [Nat.zero_mul, Nat.zero_add, List.getElem?_append_left (by rw [List.length_map, hp.length]; exact hb), List.getElem?_map,
          getElem?_getD (by rw [hp.length]; exact hb) 0]
        rfl
      | succ a =>
        rw [List.getElem?_append_right (by rw [List.length_map, hp.length, Nat.succ_mul]; omega), List.length_map, hp.length,
          show (a + 1) * T + b - T = a * T + b by rw [Nat.succ_mul]; omega, ih a (by simpa using h)]
        rfl
  exact this p a (by rw [hp.length]; exact ha)

theorem pairs_length {T : ℕ} {p : List ℕ} (hp : Involution T p) (g : ℕ → ℕ → ℕ) :
    (p.flatMap fun i => p.map fun j => g i j).length = T * T := by
  have : ∀ l : List ℕ, (l.flatMap fun i => p.map fun j => g i j).length = l.length * T := by
    intro l
    induction l with
    | nil => simp
    | cons c l ih => rw [List.flatMap_cons, List.length_append, ih, List.length_map, hp.length, List.length_cons]; ring
  rw [this, hp.length]

theorem pickPairs_ok {α : Type} {T : ℕ} {p : List ℕ} (hp : Involution T p) {l : List (Option α)} (hl : l.length = T * T) :
    ∃ r, pickPairs T l p = .ok r ∧ RenamedTable T p l r := by
  refine ⟨_, mapM_total (g := fun k => l.getD k none) fun k hk => at?_ok ?_ none, ?_, ?_⟩
  · obtain ⟨i, hi, hk⟩ := List.mem_flatMap.mp hk
    obtain ⟨j, hj, rfl⟩ := List.mem_map.mp hk
    have h1 := perm_mem hp hi
    have h2 := perm_mem hp hj
    rw [hl]
    nlinarith
  · rw [List.length_map, pairs_length hp]
  · intro a ha b hb
    rw [List.getD_eq_getElem?_getD, List.getElem?_map, pairs_get hp _ ha hb]
    rfl

theorem rowCount_all {T : ℕ} {nodes : List (Option Mat)} (h1 : nodes.length = T) (h2 : ∀ f ∈ nodes, f ≠ none) :
    nodes.mapM rowCount = .ok (counts T nodes) := by
  rw [mapM_total (g := fun o => (o.map Mat.rows).getD 0)]
  · congr 1
    apply List.ext_getElem
    · rw [List.length_map, counts_length, h1]
    · intro t ht ht'
      rw [List.getElem_map, ← List.getD_eq_getElem _ 0 ht', counts_getD (by rw [counts_length] at ht'; exact ht')]
      unfold rowsOf
      rw [List.getD_eq_getElem _ _ (by simpa using ht)]
  · intro o ho
    cases o with
    | none => exact absurd rfl (h2 _ ho)
    | some M => rfl

/-- an index of a node is a type and a number within the type. -/
theorem labels_ext {n : List ℕ} {y y' : List ℤ} (h : y.length = n.sum) (h' : y'.length = n.sum)
    (he : ∀ t < n.length, ∀ i < n.getD t 0, y.getD (before n t + i) 0 = y'.getD (before n t + i) 0) : y = y' := by
  apply List.ext_getElem (h.trans h'.symm)
  intro k h1 h2
  obtain ⟨t, ht, i, hi, rfl⟩ := exists_node n (h ▸ h1)
  have := he t ht i hi
  rwa [List.getD_eq_getElem _ _ h1, List.getD_eq_getElem _ _ h2] at this

/-- `swap_node_types` for an involution: everything belongs to the type with the new name. -/
theorem swapOne_ok {T : ℕ} {p : List ℕ} (hp : Involution T p) {S : List ℕ} (hS : S.length = T) (x : Typed.X) (y : List ℤ)
    (h1 : x.nodeFeatures.length = T) (h2 : ∀ f ∈ x.nodeFeatures, f ≠ none) (h3 : x.edges.length = T * T)
    (h4 : x.edgeFeatures.length = T * T) (hy : LabelsFit S (counts T x.nodeFeatures) y) :
    ∃ x' y', swapOne p S (x, y) = .ok (x', y') ∧ RenamedList T p x.nodeFeatures x'.nodeFeatures ∧
      RenamedTable T p x.edges x'.edges ∧ RenamedTable T p x.edgeFeatures x'.edgeFeatures ∧
      counts T x'.nodeFeatures = renamed p (counts T x.nodeFeatures) ∧
      y'.length = y.length ∧
      ∀ t < T, ∀ i < (counts T x.nodeFeatures).getD t 0,
        y'.getD (before (renamed p (counts T x.nodeFeatures)) (p.getD t 0) + i) 0 =
          (before (renamed p S) (p.getD t 0) : ℤ) + stateOf S (counts T x.nodeFeatures) y t i := by
  set n := counts T x.nodeFeatures with hn
  have hnl : n.length = T := counts_length _ _
  have hnodes := pick_ok hp h1 (none : Option Mat)
  set nodes' := p.map fun i => x.nodeFeatures.getD i none with hnodes'
  have hren : RenamedList T p x.nodeFeatures nodes' :=
    ⟨by rw [hnodes', List.length_map, hp.length], fun t ht => getD_pmap hp _ _ ht⟩
  have hcounts : counts T nodes' = renamed p n := by
    apply List.ext_getElem
    · rw [counts_length, renamed_length hp]
    · intro t ht ht'
      have htT : t < T := by rwa [counts_length] at ht
      rw [← List.getD_eq_getElem _ 0 ht, ← List.getD_eq_getElem _ 0 ht', counts_getD htT, renamed_getD hp _ htT, hn,
        counts_getD (hp.lt t htT)]
      unfold rowsOf
      rw [hren.2 t htT]
  have hsome : ∀ f ∈ nodes', f ≠ none := by
    intro f hf
    obtain ⟨i, hi, rfl⟩ := List.mem_map.mp hf
    rw [List.getD_eq_getElem _ _ (by rw [h1]; exact perm_mem hp hi)]
    exact h2 _ (List.getElem_mem _)
  have hr1 := rowCount_all h1 h2
  have hr2 := rowCount_all hren.1 hsome
  obtain ⟨r, hm, hrl, hrv⟩ := moveLabels_ok hp hnl y hy.1
  obtain ⟨es, he, he'⟩ := pickPairs_ok hp h3
  obtain ⟨fs, hf, hf'⟩ := pickPairs_ok hp h4
  have hlab : ∀ l ∈ r, ∃ t < T, ∃ s < S.getD t 0, l = (before S t : ℤ) + s := by
    intro l hl
    obtain ⟨k, hk, rfl⟩ := List.getElem_of_mem hl
    have hk' : k < (renamed p n).sum := by rw [renamed_sum hp hnl, ← hy.1, ← hrl]; exact hk
    obtain ⟨u, hu, i, hi, rfl⟩ := exists_node _ hk'
    rw [renamed_length hp] at hu
    rw [renamed_getD hp _ hu] at hi
    have h5 := hrv (p.getD u 0) (hp.lt u hu) i hi
    rw [hp.back u hu, List.getD_eq_getElem _ _ hk] at h5
    have h6 := hy.2 (p.getD u 0) (by rw [hnl]; exact hp.lt u hu) i hi
    rw [← h5] at h6
    have h7 := before_succ S (p.getD u 0)
    refine ⟨p.getD u 0, hp.lt u hu, (r[before (renamed p n) u + i] - before S (p.getD u 0)).toNat, by omega, by omega⟩
  obtain ⟨g, hg⟩ : ∃ g : ℤ → ℤ, ∀ t < T, ∀ s < S.getD t 0, relabel p S (renamed p S) ((before S t : ℤ) + s) = .ok (g (before S t + s)) :=
    ⟨fun l => match relabel p S (renamed p S) l with | .ok v => v | .error _ => 0, fun t ht s hs => by
      simp only [relabel_ok hp hS ht hs]⟩
  have hrel : r.mapM (relabel p S (renamed p S)) = .ok (r.map g) := mapM_total fun l hl => by
    obtain ⟨t, ht, s, hs, rfl⟩ := hlab l hl
    exact hg t ht s hs
  refine ⟨⟨nodes', es, fs⟩, r.map g, ?_, hren, he', hf', hcounts, ?_, ?_⟩
  rotate_left
  · exact (List.length_map _).trans hrl
  · intro t ht i hi
    have hlt : before (renamed p n) (p.getD t 0) + i < r.length := by
      rw [hrl, hy.1, ← renamed_sum hp hnl]
      have := before_succ (renamed p n) (p.getD t 0)
      rw [renamed_getD hp _ (hp.lt t ht), hp.back t ht] at this
      have h9 := before_le_sum (renamed p n) (p.getD t 0 + 1)
      omega
    rw [List.getD_eq_getElem _ _ (by rw [List.length_map]; exact hlt), List.getElem_map, ← List.getD_eq_getElem _ 0 hlt, hrv t ht i hi]
    have h6 := hy.2 t (by rw [hnl]; exact ht) i hi
    have h7 := before_succ S t
    have hst : y.getD (before n t + i) 0 = (before S t : ℤ) + stateOf S n y t i := by
      unfold stateOf
      omega
    have hlt2 : stateOf S n y t i < S.getD t 0 := by
      unfold stateOf
      omega
    have h8 := hg t ht _ hlt2
    rw [relabel_ok hp hS ht hlt2] at h8
    rw [hst, Except.ok.inj h8]
  · unfold swapOne
    have hpick : pick S p = .ok (renamed p S) := pick_ok hp hS 0
    rw [hpick, hnodes]
    simp only [bind, Except.bind]
    rw [hr1, hr2]
    simp only
    rw [hcounts, hm]
    simp only
    rw [hrel]
    simp only
    rw [hS, he, hf]

end Verif.TypedSnakes
