import Verif.Props.C21

/-!
# C36: flattenY and unflattenY are inverse
# C37: typed label validation
# C38: decoding yields labels in the range of the type
# C75: setInferenceException
-/

namespace Verif.Props

open Finset Verif.Common Verif.GraphCRF Verif.Spec Verif.Typed

/-! ### C36 -/

/-- The concatenation of lists, at the positions of one of them. -/
theorem getD_flatten (l : List (List ℤ)) : ∀ (t i : ℕ), t < l.length → i < (l.getD t []).length →
    l.flatten.getD (before (l.map List.length) t + i) 0 = (l.getD t []).getD i 0 := by
  induction l with
  | nil => intro t i ht; simp at ht
  | cons a l ih =>
    intro t i ht hi
    cases t with
    | zero =>
      simp only [before, List.take_zero, List.sum_nil, zero_add, List.flatten_cons, List.getD_cons_zero]
        at hi ⊢
      exact List.getD_append _ _ _ _ hi
    | succ t =>
      simp only [List.getD_cons_succ, List.length_cons] at hi ht ⊢
      simp only [before, List.map_cons, List.take_succ_cons, List.sum_cons, List.flatten_cons]
      rw [List.getD_append_right _ _ _ _ (by omega)]
      rw [← ih t i (by omega) hi]
      congr 1
      simp only [before]
      omega

theorem slice_flatten (l : List (List ℤ)) : ∀ t < l.length,
    slice l.flatten (before (l.map List.length) t) (l.getD t []).length = l.getD t [] := by
  intro t ht
  have hlen : l.flatten.length = (l.map List.length).sum := List.length_flatten
  have hle : before (l.map List.length) t + (l.getD t []).length ≤ l.flatten.length := by
    rw [hlen]
    have h := before_succ (l.map List.length) t
    have : (l.map List.length).getD t 0 = (l.getD t []).length := by
      rw [List.getD_eq_getElem?_getD, List.getElem?_map, List.getD_eq_getElem?_getD,
        List.getElem?_eq_getElem ht]
      rfl
    rw [this] at h
    rw [← h]
    exact before_le_sum _ _
  rw [slice_eq _ _ _ hle]
  refine (eq_map_range _ _ _ rfl fun i hi => ?_).symm
  rw [getD_flatten l t i ht hi, List.getElem?_eq_getElem hi, List.getD_eq_getElem _ _ hi]

theorem flattenY_ok {m : Typed.Model} (hm : Good m) {ys : List (List ℤ)} (hl : ys.length = m.nTypes) :
    flattenY m ys = .ok (((List.range m.nTypes).map fun t =>
      (ys.getD t []).map fun l => l + (before m.nStates t : ℤ)).flatten) := by
  have hz : m.starts.zip ys =
      (List.range m.nTypes).map fun t => (before m.nStates t, ys.getD t []) := by
    apply eq_map_range
    · rw [List.length_zip, starts_eq, List.length_map, List.length_range]; omega
    · intro t ht
      apply zip_some
      · rw [starts_eq, List.getElem?_map, List.getElem?_range (by omega)]; rfl
      · rw [List.getD_eq_getElem?_getD, List.getElem?_eq_getElem (by omega : t < ys.length)]; rfl
  have hne : m.starts.zip ys ≠ [] := by
    rw [hz]
    intro h
    have := congrArg List.length h
    rw [List.length_map, List.length_range, List.length_nil] at this
    exact absurd this hm.pos.ne'
  have key : flattenY m ys =
      .ok ((m.starts.zip ys).flatMap fun q => q.2.map fun l => l + (q.1 : ℤ)) := by
    unfold flattenY
    cases h : m.starts.zip ys with
    | nil => exact absurd h hne
    | cons p ps => rfl
  rw [key, hz, List.flatMap_def, List.map_map]
  rfl

theorem unflattenLoop_ok (flat : List ℤ) (l : List (ℕ × Option Mat)) : ∀ i, (∀ p ∈ l, p.2 ≠ none) →
    unflattenLoop flat i l = .ok (scan (fun i (p : ℕ × Option Mat) =>
      (slice flat i ((p.2.map Mat.rows).getD 0)).map fun z => z - (p.1 : ℤ))
      (fun p => (p.2.map Mat.rows).getD 0) i l, i + (l.map fun p => (p.2.map Mat.rows).getD 0).sum) := by
  induction l with
  | nil => intro i _; rfl
  | cons p l ih =>
    intro i h
    obtain ⟨start, f⟩ := p
    cases f with
    | none => exact absurd rfl (h (start, none) (by simp))
    | some f =>
      unfold unflattenLoop
      rw [ih _ fun q hq => h q (by simp [hq])]
      simp only [bind, Except.bind, pure, Except.pure]
      rw [List.map_cons, List.sum_cons, ← add_assoc]
      rfl

theorem unflattenLoop_none (flat : List ℤ) (l : List (ℕ × Option Mat)) : ∀ i, (∃ p ∈ l, p.2 = none) →
    unflattenLoop flat i l = .error .attributeError := by
  induction l with
  | nil => intro i h; simp at h
  | cons p l ih =>
    intro i h
    obtain ⟨start, f⟩ := p
    cases f with
    | none => rfl
    | some f =>
      unfold unflattenLoop
      rw [ih _ (by
        obtain ⟨q, hq, hn⟩ := h
        rcases List.mem_cons.mp hq with rfl | hq
        · simp at hn
        · exact ⟨q, hq, hn⟩)]
      rfl

theorem zip_starts {m : Typed.Model} {x : Typed.X} (h1 : x.nodeFeatures.length = m.nTypes) :
    m.starts.zip x.nodeFeatures = (List.range m.nTypes).map fun t =>
      (before m.nStates t, x.nodeFeatures.getD t none) := by
  apply eq_map_range
  · rw [List.length_zip, starts_eq, List.length_map, List.length_range]; omega
  · intro t ht
    apply zip_some
    · rw [starts_eq, List.getElem?_map, List.getElem?_range (by omega)]; rfl
    · rw [List.getD_eq_getElem?_getD, List.getElem?_eq_getElem (by omega : t < x.nodeFeatures.length)]
      rfl

theorem unflattenY_eq {m : Typed.Model} {x : Typed.X}
    (h1 : x.nodeFeatures.length = m.nTypes) (hs : ∀ f ∈ x.nodeFeatures, f ≠ none) (y : List ℤ) :
    unflattenY m x y = if y.length ≠ (counts m.nTypes x.nodeFeatures).sum then .error .valueError
      else .ok ((List.range m.nTypes).map fun t =>
        (slice y (before (counts m.nTypes x.nodeFeatures) t) (rowsOf x.nodeFeatures t)).map
          fun z => z - (before m.nStates t : ℤ)) := by
  have hz := zip_starts (m := m) h1
  unfold unflattenY
  rw [hz, unflattenLoop_ok _ _ 0 (by
    intro p hp
    obtain ⟨t, ht, rfl⟩ := List.mem_map.mp hp
    simp only
    rw [List.getD_eq_getElem?_getD, List.getElem?_eq_getElem (by
      rw [h1]; exact List.mem_range.mp ht)]
    exact hs _ (List.getElem_mem _))]
  simp only [bind, Except.bind]
  have hsum : 0 + (((List.range m.nTypes).map fun t =>
      (before m.nStates t, x.nodeFeatures.getD t none)).map
        fun p => (p.2.map Mat.rows).getD 0).sum = (counts m.nTypes x.nodeFeatures).sum := by
    rw [zero_add, List.map_map]
    rfl
  rw [hsum]
  congr 2
  rw [scan_range]
  apply List.map_congr_left
  intro t ht
  simp only [zero_add]
  rw [before_counts (List.mem_range.mp ht).le]
  rfl

theorem getElem?_getD {α : Type} {l : List α} {t : ℕ} (h : t < l.length) (d : α) :
    l[t]? = some (l.getD t d) := by
  rw [List.getD_eq_getElem?_getD, List.getElem?_eq_getElem h]; rfl

/-- **C36 (1).** Flattening labels given per type and unflattening the result gives back the labels,
whatever the labels are, if node features are given for all types and there is one label per node. -/
theorem C36_unflatten_flatten {T : ℕ} {S F : List ℕ} {rows cols : ℕ} {Fe : ℕ → ℕ → ℕ}
    {cw : Option (List Vec)} {m : Typed.Model} (hm : construct T S F rows cols Fe cw = .ok m)
    (x : Typed.X) (h1 : x.nodeFeatures.length = T) (hs : ∀ f ∈ x.nodeFeatures, f ≠ none)
    (ys : List (List ℤ)) (hy : ys.map List.length = counts T x.nodeFeatures) :
    ∃ flat, flattenY m ys = .ok flat ∧ unflattenY m x flat = .ok ys := by
  obtain ⟨hg, rfl, rfl, rfl, rfl⟩ := construct_good hm
  have hl : ys.length = m.nTypes := by
    have := congrArg List.length hy
    rwa [List.length_map, counts_length] at this
  refine ⟨_, flattenY_ok hg hl, ?_⟩
  rw [unflattenY_eq h1 hs]
  set L := (List.range m.nTypes).map fun t =>
      (ys.getD t []).map fun l => l + (before m.nStates t : ℤ) with hL
  have hlens : L.map List.length = counts m.nTypes x.nodeFeatures := by
    rw [← hy, hL, List.map_map]
    refine (eq_map_range _ _ _ (by rw [List.length_map, hl]) fun t ht => ?_).symm
    rw [List.getElem?_map, getElem?_getD (by omega) []]
    simp
  have hyt : ∀ t < m.nTypes, (ys.getD t []).length = rowsOf x.nodeFeatures t := by
    intro t ht
    rw [← counts_getD ht, ← hy, List.getD_eq_getElem?_getD (l := ys.map List.length),
      List.getElem?_map, getElem?_getD (by omega) []]
    rfl
  have hLt : ∀ t < m.nTypes, L.getD t [] =
      (ys.getD t []).map fun l => l + (before m.nStates t : ℤ) := fun t ht => getD_map_range _ _ _ ht
  rw [if_neg (by rw [not_not, List.length_flatten, hlens])]
  congr 1
  refine (eq_map_range _ _ _ hl fun t ht => ?_).symm
  rw [getElem?_getD (by omega) []]
  congr 1
  have hsl := slice_flatten L t (by rw [hL]; simpa using ht)
  rw [hlens, hLt t ht, List.length_map, hyt t ht] at hsl
  rw [hsl, List.map_map]
  have : (fun z => z - (before m.nStates t : ℤ)) ∘ (fun l => l + (before m.nStates t : ℤ)) = id := by
    funext z; simp
  rw [this, List.map_id]

/-- **C36 (2).** Unflattening a flat labelling and flattening the result gives back the labelling. -/
theorem C36_flatten_unflatten {T : ℕ} {S F : List ℕ} {rows cols : ℕ} {Fe : ℕ → ℕ → ℕ}
    {cw : Option (List Vec)} {m : Typed.Model} (hm : construct T S F rows cols Fe cw = .ok m)
    (x : Typed.X) (h1 : x.nodeFeatures.length = T) (y : List ℤ) (ys : List (List ℤ))
    (hy : unflattenY m x y = .ok ys) : flattenY m ys = .ok y := by
  obtain ⟨hg, rfl, rfl, rfl, rfl⟩ := construct_good hm
  have hs : ∀ f ∈ x.nodeFeatures, f ≠ none := by
    intro f hfm hn
    unfold unflattenY at hy
    rw [unflattenLoop_none] at hy
    · cases hy
    · rw [zip_starts h1]
      obtain ⟨t, ht, hft⟩ := List.getElem_of_mem hfm
      refine ⟨(before m.nStates t, x.nodeFeatures.getD t none), List.mem_map.mpr ⟨t, ?_, rfl⟩, ?_⟩
      · exact List.mem_range.mpr (by omega)
      · simp only
        rw [List.getD_eq_getElem?_getD, List.getElem?_eq_getElem ht, hft, hn]
        rfl
  rw [unflattenY_eq h1 hs] at hy
  split_ifs at hy with hlen
  rw [Except.ok.injEq] at hy
  subst hy
  rw [flattenY_ok hg (by simp)]
  congr 1
  have hlen' := not_not.mp hlen
  -- the blocks of `y`
  have hblk : ∀ t, t ≤ m.nTypes → ((List.range t).map fun k =>
      slice y (before (counts m.nTypes x.nodeFeatures) k) (rowsOf x.nodeFeatures k)).flatten =
      y.take (before (counts m.nTypes x.nodeFeatures) t) := by
    intro t
    induction t with
    | zero => intro _; simp [before]
    | succ t ih =>
      intro ht
      rw [List.range_succ, List.map_append, List.flatten_append, ih (by omega), before_succ,
        counts_getD (by omega : t < m.nTypes), List.take_add]
      simp [slice]
  have hall := hblk m.nTypes le_rfl
  have : before (counts m.nTypes x.nodeFeatures) m.nTypes = y.length := by
    rw [hlen', ← before_all, counts_length]
  rw [this, List.take_length] at hall
  conv_rhs => rw [← hall]
  congr 1
  apply List.map_congr_left
  intro t ht
  rw [getD_map_range _ _ _ (List.mem_range.mp ht), List.map_map]
  have : (fun l => l + (before m.nStates t : ℤ)) ∘ (fun z => z - (before m.nStates t : ℤ)) = id := by
    funext z; simp
  rw [this, List.map_id]

/-- **C36 (3).** A flat labelling is unflattened exactly if it has one label per node; otherwise
`ValueError`. -/
theorem C36_unflatten_sizes {T : ℕ} {S F : List ℕ} {rows cols : ℕ} {Fe : ℕ → ℕ → ℕ}
    {cw : Option (List Vec)} {m : Typed.Model} (hm : construct T S F rows cols Fe cw = .ok m)
    (x : Typed.X) (h1 : x.nodeFeatures.length = T) (hs : ∀ f ∈ x.nodeFeatures, f ≠ none) (y : List ℤ) :
    ((∃ ys, unflattenY m x y = .ok ys) ↔ y.length = (counts T x.nodeFeatures).sum) ∧
    (y.length ≠ (counts T x.nodeFeatures).sum → unflattenY m x y = .error .valueError) := by
  obtain ⟨hg, rfl, rfl, rfl, rfl⟩ := construct_good hm
  rw [unflattenY_eq h1 hs]
  by_cases h : y.length = (counts m.nTypes x.nodeFeatures).sum
  · rw [if_neg (not_not.mpr h)]
    simp [h]
  · rw [if_pos h]
    simp [h]

/-- **C36 (4).** If labels within the ranges of the types are flattened, the result is a labelling that
fits, and the labels of nodes of different types differ. -/
theorem C36_no_collision {T : ℕ} {S F : List ℕ} {rows cols : ℕ} {Fe : ℕ → ℕ → ℕ}
    {cw : Option (List Vec)} {m : Typed.Model} (hm : construct T S F rows cols Fe cw = .ok m)
    (ys : List (List ℤ)) (hl : ys.length = T)
    (hr : ∀ t < T, ∀ l ∈ ys.getD t [], 0 ≤ l ∧ l < (S.getD t 0 : ℤ)) :
    ∃ flat, flattenY m ys = .ok flat ∧ LabelsFit S (ys.map List.length) flat ∧
      ∀ t < T, ∀ u < T, t ≠ u → ∀ i < (ys.getD t []).length, ∀ j < (ys.getD u []).length,
        flat.getD (before (ys.map List.length) t + i) 0 ≠
          flat.getD (before (ys.map List.length) u + j) 0 := by
  obtain ⟨hg, rfl, rfl, rfl, rfl⟩ := construct_good hm
  refine ⟨_, flattenY_ok hg hl, ?_⟩
  set L := (List.range m.nTypes).map fun t =>
      (ys.getD t []).map fun l => l + (before m.nStates t : ℤ) with hL
  have hlens : L.map List.length = ys.map List.length := by
    rw [hL, List.map_map]
    refine (eq_map_range _ _ _ (by rw [List.length_map, hl]) fun t ht => ?_).symm
    rw [List.getElem?_map, getElem?_getD (by omega) []]
    simp
  have hLt : ∀ t < m.nTypes, L.getD t [] =
      (ys.getD t []).map fun l => l + (before m.nStates t : ℤ) := fun t ht => getD_map_range _ _ _ ht
  have hlt : ∀ t < m.nTypes, (ys.map List.length).getD t 0 = (ys.getD t []).length := by
    intro t ht
    rw [List.getD_eq_getElem?_getD, List.getElem?_map, getElem?_getD (by omega) []]
    rfl
  have hget : ∀ t < m.nTypes, ∀ i < (ys.getD t []).length,
      (before m.nStates t : ℤ) ≤ L.flatten.getD (before (ys.map List.length) t + i) 0 ∧
      L.flatten.getD (before (ys.map List.length) t + i) 0 < before m.nStates (t + 1) := by
    intro t ht i hi
    rw [← hlens, getD_flatten L t i (by rw [hL]; simpa using ht) (by
      rw [hLt t ht, List.length_map]; exact hi), hLt t ht, before_succ]
    have : ((ys.getD t []).map fun l => l + (before m.nStates t : ℤ)).getD i 0 =
        (ys.getD t []).getD i 0 + (before m.nStates t : ℤ) := by
      rw [List.getD_eq_getElem?_getD, List.getElem?_map, getElem?_getD hi 0]
      rfl
    rw [this]
    have hmem : (ys.getD t []).getD i 0 ∈ ys.getD t [] := by
      rw [List.getD_eq_getElem?_getD (l := ys.getD t []), List.getElem?_eq_getElem hi]
      exact List.getElem_mem hi
    have := hr t ht _ hmem
    push_cast
    omega
  refine ⟨⟨?_, ?_⟩, ?_⟩
  · rw [List.length_flatten, hlens]
  · intro t ht i hi
    rw [List.length_map, hl] at ht
    rw [hlt t ht] at hi
    exact hget t ht i hi
  · intro t ht u hu htu i hi j hj heq
    have a1 := hget t ht i hi
    have a2 := hget u hu j hj
    rw [heq] at a1
    rcases Nat.lt_or_gt_of_ne htu with h | h
    · have : before m.nStates (t + 1) ≤ before m.nStates u := take_sum_mono _ h
      omega
    · have : before m.nStates (u + 1) ≤ before m.nStates t := take_sum_mono _ h
      omega

/-- **C36 is violated** for sizes: labels for types that do not exist are not rejected by `flattenY`;
everything after the first `n_types + 1` entries is dropped silently. -/
theorem C36_violated_surplus (m : Typed.Model) (ys more : List (List ℤ))
    (h : ys.length = m.nTypes + 1) : flattenY m (ys ++ more) = flattenY m ys := by
  have : m.starts.zip (ys ++ more) = m.starts.zip ys := by
    have hs : m.starts.length = ys.length := by rw [starts_eq]; simp [h]
    have := List.zip_append (l₁ := m.starts) (r₁ := []) (l₂ := ys) (r₂ := more) hs
    rw [List.append_nil] at this
    rw [this]
    simp
  unfold flattenY
  rw [this]

/-- **C36 is violated** for missing node features: `None` stands for "no nodes of this type" everywhere
else, but `unflattenY` raises `AttributeError`. -/
theorem C36_violated_none {m : Typed.Model} (x : Typed.X) (h1 : x.nodeFeatures.length = m.nTypes)
    (hn : none ∈ x.nodeFeatures) (y : List ℤ) : unflattenY m x y = .error .attributeError := by
  unfold unflattenY
  rw [unflattenLoop_none]
  · rfl
  · rw [zip_starts h1]
    obtain ⟨t, ht, hft⟩ := List.getElem_of_mem hn
    refine ⟨(before m.nStates t, x.nodeFeatures.getD t none), List.mem_map.mpr ⟨t, ?_, rfl⟩, ?_⟩
    · exact List.mem_range.mpr (by omega)
    · simp only
      rw [List.getD_eq_getElem?_getD, List.getElem?_eq_getElem ht, hft]
      rfl

/-- Flattening and unflattening the labels of the example instance. -/
example : ∃ m, exTyped = .ok m ∧ flattenY m [[1, 0], [2]] = .ok [1, 0, 4] ∧
    unflattenY m exTypedX [1, 0, 4] = .ok [[1, 0], [2]] ∧
    [[1, 0], [2]].map List.length = counts 2 exTypedX.nodeFeatures ∧
    (∀ f ∈ exTypedX.nodeFeatures, f ≠ none) := by
  refine ⟨_, rfl, by decide +kernel, by decide +kernel, by decide +kernel, ?_⟩
  intro f hf
  simp only [exTypedX, List.mem_cons, List.not_mem_nil, or_false] at hf
  rcases hf with rfl | rfl <;> exact Option.some_ne_none _

/-- The hypotheses of the violations can be met. -/
example : ∃ m, exTyped = .ok m ∧ flattenY m ([[1], [2], [5]] ++ [[7]]) = .ok [1, 4, 10] ∧
    unflattenY m ⟨[some ⟨2, 1, fun _ _ => 0⟩, none], [], []⟩ [1, 0] = .error .attributeError :=
  ⟨_, rfl, by decide +kernel, by decide +kernel⟩

/-! ### C37 -/

/-- **C37 (1).** The label check accepts a flat labelling exactly if every node's label lies in the range
of its type. -/
theorem C37_check_labels {T : ℕ} {S F : List ℕ} {rows cols : ℕ} {Fe : ℕ → ℕ → ℕ}
    {cw : Option (List Vec)} {m : Typed.Model} (hm : construct T S F rows cols Fe cw = .ok m)
    (x : Typed.X) (h1 : T ≤ x.nodeFeatures.length) (y : List ℤ) :
    checkSizeXY m x y = .ok () ↔ LabelsFit S (counts T x.nodeFeatures) y := by
  obtain ⟨hg, rfl, rfl, rfl, rfl⟩ := construct_good hm
  exact checkSizeXY_iff hg h1 y

/-- **C37 (2).** For a single instance `initialize` performs the check. -/
theorem C37_initialize_one {T : ℕ} {S F : List ℕ} {rows cols : ℕ} {Fe : ℕ → ℕ → ℕ}
    {cw : Option (List Vec)} {m : Typed.Model} (hm : construct T S F rows cols Fe cw = .ok m)
    (x : Typed.X) (h1 : x.nodeFeatures.length = T) (h2 : x.edgeFeatures.length = T * T) (y : List ℤ) :
    initializeX m (.one x (some y)) = .ok () ↔
      TypedFits T F Fe x.nodeFeatures x.edges x.edgeFeatures ∧
      LabelsFit S (counts T x.nodeFeatures) y := by
  have e1 := C73_partial hm x
  have e2 := C37_check_labels hm x h1.ge y
  rw [← e2]
  have e3 : TypedFits T F Fe x.nodeFeatures x.edges x.edgeFeatures ↔ checkSizeX m x = .ok () := by
    rw [e1]; exact ⟨fun h => ⟨h1.ge, h2.ge, h⟩, fun h => h.2.2⟩
  rw [e3]
  unfold initializeX
  rw [bind_eq_ok]
  constructor
  · rintro ⟨_, h, h'⟩; exact ⟨h, h'⟩
  · rintro ⟨h, h'⟩; exact ⟨(), h, h'⟩

/-- **C37 is violated** for lists of samples (the documented use): `initialize` accepts everything, since
the lazy `map` is never consumed. -/
theorem C37_violated_initialize (m : Typed.Model) (xs : List Typed.X) (ys : Option (List (List ℤ))) :
    initializeX m (.many xs ys) = .ok () := rfl

/-- A sample that does not fit is accepted in a list though it is rejected alone. -/
example : ∃ m, exTyped = .ok m ∧ initializeX m (.one exTypedX (some [1, 0, 1])) =
      .error .inconsistentLabel ∧ initializeX m (.many [exTypedX] (some [[1, 0, 1]])) = .ok () ∧
    initializeX m (.one exTypedX (some [1, 0, 4])) = .ok () :=
  ⟨_, rfl, by decide +kernel, rfl, by decide +kernel⟩

/-! ### C38 -/

theorem decodeLoop_ok (l : List Mat) : ∀ c y, decodeLoop c l = .ok y →
    (∀ u ∈ l, 0 < u.cols) ∧ y = (scan (fun c (u : Mat) =>
      (List.range u.rows).map fun i => ((c + argmaxN (u.get i) u.cols : ℕ) : ℤ)) Mat.cols c l).flatten := by
  induction l with
  | nil => intro c y h; cases h; exact ⟨by simp, rfl⟩
  | cons u l ih =>
    intro c y h
    unfold decodeLoop at h
    split_ifs at h with h0
    rw [bind_eq_ok] at h
    obtain ⟨ys, h1, h2⟩ := h
    cases h2
    obtain ⟨hp, rfl⟩ := ih _ _ h1
    refine ⟨?_, rfl⟩
    intro v hv
    rcases List.mem_cons.mp hv with rfl | hv
    · exact Nat.pos_of_ne_zero h0
    · exact hp v hv

theorem decodeLoop_exists (l : List Mat) (h : ∀ u ∈ l, 0 < u.cols) : ∀ c, ∃ y, decodeLoop c l = .ok y := by
  induction l with
  | nil => intro c; exact ⟨[], rfl⟩
  | cons u l ih =>
    intro c
    unfold decodeLoop
    rw [if_neg (h u (by simp)).ne']
    obtain ⟨y, hy⟩ := ih (fun v hv => h v (by simp [hv])) (c + u.cols)
    rw [hy]
    exact ⟨_, rfl⟩

/-- **C38.** Whatever marginals the solver returns, decoding them succeeds (if there are types and every
type has a state) and assigns to every node a label in the range of its type, namely the first state
of highest marginal. Node counts and numbers of states are those of the marginals. -/
theorem C38_decode (us : List Mat) (hne : us ≠ []) (hpos : ∀ u ∈ us, 0 < u.cols) :
    ∃ y, decode us = .ok y ∧ LabelsFit (us.map Mat.cols) (us.map Mat.rows) y ∧
      ∀ t < us.length, ∀ i < (us.map Mat.rows).getD t 0,
        (∀ s < (us.map Mat.cols).getD t 0, unaryAt us t i s ≤
          unaryAt us t i (stateOf (us.map Mat.cols) (us.map Mat.rows) y t i)) ∧
        (∀ s < stateOf (us.map Mat.cols) (us.map Mat.rows) y t i, unaryAt us t i s <
          unaryAt us t i (stateOf (us.map Mat.cols) (us.map Mat.rows) y t i)) := by
  obtain ⟨y, hy⟩ := decodeLoop_exists us hpos 0
  obtain ⟨_, rfl⟩ := decodeLoop_ok us 0 y hy
  set U : ℕ → Mat := fun t => us.getD t ⟨0, 0, fun _ _ => 0⟩ with hU
  have hus : us = (List.range us.length).map U := eq_map_range us us.length U rfl fun t ht =>
    getElem?_getD ht _
  have hrow : ∀ t < us.length, (us.map Mat.rows).getD t 0 = (U t).rows := by
    intro t ht
    rw [List.getD_eq_getElem?_getD, List.getElem?_map,
      getElem?_getD ht (⟨0, 0, fun _ _ => 0⟩ : Mat)]
    rfl
  have hcol : ∀ t < us.length, (us.map Mat.cols).getD t 0 = (U t).cols := by
    intro t ht
    rw [List.getD_eq_getElem?_getD, List.getElem?_map,
      getElem?_getD ht (⟨0, 0, fun _ _ => 0⟩ : Mat)]
    rfl
  have hUpos : ∀ t < us.length, 0 < (U t).cols := by
    intro t ht
    apply hpos
    simp only [hU]
    rw [List.getD_eq_getElem?_getD, List.getElem?_eq_getElem ht]
    exact List.getElem_mem ht
  set L : List (List ℤ) := (List.range us.length).map fun t =>
    (List.range (U t).rows).map fun i =>
      ((before (us.map Mat.cols) t + argmaxN ((U t).get i) (U t).cols : ℕ) : ℤ) with hL
  have hsc : scan (fun c (u : Mat) =>
      (List.range u.rows).map fun i => ((c + argmaxN (u.get i) u.cols : ℕ) : ℤ)) Mat.cols 0 us = L := by
    conv_lhs => rw [hus, scan_range]
    apply List.map_congr_left
    intro t ht
    have ht' := List.mem_range.mp ht
    have : ∑ k ∈ range t, (U k).cols = before (us.map Mat.cols) t := by
      rw [before_eq_sum]
      apply sum_congr rfl
      intro k hk
      have := mem_range.mp hk
      exact (hcol k (by omega)).symm
    rw [zero_add, this]
  rw [hsc] at hy
  have hlens : L.map List.length = us.map Mat.rows := by
    rw [hL, List.map_map]
    refine (eq_map_range _ _ _ (by simp) fun t ht => ?_).symm
    rw [List.getElem?_map, getElem?_getD ht (⟨0, 0, fun _ _ => 0⟩ : Mat)]
    simp [hU]
  have hget : ∀ t < us.length, ∀ i < (U t).rows,
      L.flatten.getD (before (us.map Mat.rows) t + i) 0 =
        ((before (us.map Mat.cols) t + argmaxN ((U t).get i) (U t).cols : ℕ) : ℤ) := by
    intro t ht i hi
    have hLt : L.getD t [] = (List.range (U t).rows).map fun i =>
      ((before (us.map Mat.cols) t + argmaxN ((U t).get i) (U t).cols : ℕ) : ℤ) :=
      getD_map_range _ _ _ ht
    rw [← hlens, getD_flatten L t i (by rw [hL]; simpa using ht) (by rw [hLt]; simpa using hi), hLt,
      getD_map_range _ _ _ hi]
  refine ⟨L.flatten, ?_, ⟨?_, ?_⟩, ?_⟩
  · unfold decode
    rw [if_neg (by rw [List.length_eq_zero_iff]; exact hne)]
    exact hy
  · rw [List.length_flatten, hlens]
  · intro t ht i hi
    rw [List.length_map] at ht
    rw [hrow t ht] at hi
    rw [hget t ht i hi, before_succ, hcol t ht]
    have := argmaxN_lt ((U t).get i) (hUpos t ht)
    push_cast
    omega
  · intro t ht i hi
    rw [hrow t ht] at hi
    rw [hcol t ht]
    have hst : stateOf (us.map Mat.cols) (us.map Mat.rows) L.flatten t i =
        argmaxN ((U t).get i) (U t).cols := by
      unfold stateOf
      rw [hget t ht i hi]
      push_cast
      omega
    rw [hst]
    exact ⟨fun s hs => le_argmaxN ((U t).get i) hs, fun s hs => argmaxN_first ((U t).get i) hs⟩

/-- the solver answers with marginals of the shapes of the potentials. -/
def ShapesKept (solver : Typed.Solver) : Prop :=
  ∀ us ps es r, solver us ps es = .ok r →
    r.unary.map Mat.rows = us.map Mat.rows ∧ r.unary.map Mat.cols = us.map Mat.cols

/-- **C38, for `inference` of the model.** For every instance that fits, every weight vector and every
solver whose marginals have the shapes of the potentials: the discrete labellings returned by inference
pass the label check, i.e. can be handed to `joint_feature`, `loss` and `unflattenY`. -/
theorem C38_inference {T : ℕ} {S F : List ℕ} {rows cols : ℕ} {Fe : ℕ → ℕ → ℕ}
    {cw : Option (List Vec)} {m : Typed.Model} (hm : construct T S F rows cols Fe cw = .ok m)
    (x : Typed.X) (h1 : x.nodeFeatures.length = T) (h2 : x.edgeFeatures.length = T * T)
    (hf : TypedFits T F Fe x.nodeFeatures x.edges x.edgeFeatures)
    (w : Vec) (hw : w.size = typedSize T S F Fe) (solver : Typed.Solver) (hs : ShapesKept solver)
    (exc relaxed : Bool) (y : List ℤ) (e : ℚ)
    (hr : Typed.inference solver m exc x w relaxed = .ok (.discrete y, e)) :
    LabelsFit S (counts T x.nodeFeatures) y := by
  obtain ⟨hg, rfl, rfl, rfl, rfl⟩ := construct_good hm
  have hw' : w.size = m.size := by rw [hw, size_eq hg]
  obtain ⟨us, ps, hus, hps, hl, _, hrows, hcols, _, _⟩ := potentials_ok hg h1.ge h2.ge hf hw'
  unfold Typed.inference at hr
  rw [checkSizeW_ok hw', hus, hps] at hr
  simp only [bind, Except.bind] at hr
  unfold inferenceMulti at hr
  rw [bind_eq_ok] at hr
  obtain ⟨r, hsol, hr⟩ := hr
  obtain ⟨k1, k2⟩ := hs _ _ _ _ hsol
  rw [hrows] at k1
  rw [hcols] at k2
  simp only [Bool.false_and, Bool.false_eq_true, if_false] at hr
  split_ifs at hr
  · cases hr
  · rw [bind_eq_ok] at hr
    obtain ⟨y', hdec, hr⟩ := hr
    simp only [pure, Except.pure, Except.ok.injEq, Prod.mk.injEq, TVal.discrete.injEq] at hr
    obtain ⟨rfl, _⟩ := hr
    unfold decode at hdec
    split_ifs at hdec with hlen
    have hpos := (decodeLoop_ok _ _ _ hdec).1
    obtain ⟨y'', hy'', hfit, _⟩ := C38_decode r.unary (by
      intro h; exact hlen (by rw [h]; rfl)) hpos
    unfold decode at hy''
    rw [if_neg hlen, hdec, Except.ok.injEq] at hy''
    rw [hy'', ← k1, ← k2]
    exact hfit

/-- Decoding of marginals of two types. -/
example : decode [⟨2, 2, fun i s => if i = s then 1 else 0⟩, ⟨1, 3, fun _ s => if s = 1 then 1 else 0⟩] =
    .ok [0, 1, 3] := by decide +kernel

/-- A solver that keeps the shapes (it returns the potentials as marginals). -/
def echoSolver (unsolved : Bool) : Typed.Solver := fun us _ _ => .ok ⟨us, [], 0, unsolved⟩

/-- The hypotheses of `C38_inference` can be met. -/
example : ShapesKept (echoSolver true) ∧ ∃ m, exTyped = .ok m ∧
    (Typed.inference (echoSolver true) m false exTypedX ⟨24, fun k => if k % 2 = 0 then 1 else 0⟩
      false).toOption.map (fun r => match r.1 with | .discrete y => y | _ => []) = some [0, 0, 2] := by
  refine ⟨?_, _, rfl, by decide +kernel⟩
  intro us ps es r h
  cases h
  exact ⟨rfl, rfl⟩

/-! ### C75 -/

/-- **C75 is violated.** `setInferenceException(True)` ("if inference cannot be done, raises an exception")
has no effect on inference: the flag is not passed on. -/
theorem C75_violated (solver : Typed.Solver) (m : Typed.Model) (x : Typed.X) (w : Vec) (relaxed : Bool) :
    Typed.inference solver m true x w relaxed = Typed.inference solver m false x w relaxed := rfl

/-- The flag would work if it reached the inference function: an unsolved problem raises the exception. -/
theorem C75_flag_of_backend (solver : Typed.Solver) (us : List Mat) (ps : List (Option Ten))
    (es : List RawEdges) (r : Typed.Solution) (h : solver us ps es = .ok r) (hu : r.unsolved = true) :
    inferenceMulti solver us ps es false true = .error .inferenceException := by
  unfold inferenceMulti
  rw [h]
  simp only [bind, Except.bind, hu]
  rfl

/-- An unsolved problem is decoded although exceptions were asked for. -/
example : ∃ m, exTyped = .ok m ∧
    (Typed.inference (echoSolver true) m true exTypedX ⟨24, fun _ => 0⟩ false).toOption.map
      (fun r => match r.1 with | .discrete y => y | _ => []) = some [0, 0, 2] :=
  ⟨_, rfl, by decide +kernel⟩

end Verif.Props
