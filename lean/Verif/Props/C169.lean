import Verif.Model.SnakeConstraints
import Verif.Spec.Logic
import Verif.Props.C165

/-!
# C169: the hard constraints of the snake examples say what they are meant to say
-/

namespace Verif.Props

open Verif.Common Verif.SnakeConstraints Verif.Spec

/-! ### counting -/

/-- The nodes with a label, as a count of true literals. -/
theorem count_literals (n : ℕ) (y : ℕ → ℕ) (s : ℕ) :
    ((List.range n).map fun i => literal (y i) s false).count true = ((Finset.range n).filter fun i => y i = s).card := by
  induction n with
  | zero => rfl
  | succ n ih =>
    rw [List.range_succ, List.map_append, List.count_append, ih, Finset.range_add_one, Finset.filter_insert]
    by_cases h : y n = s
    · rw [if_pos h, Finset.card_insert_of_notMem (by simp)]
      simp [literal, h]
    · rw [if_neg h]
      simp [literal, h]

theorem onlyOne_iff (n : ℕ) (y : ℕ → ℕ) (s : ℕ) :
    ((Finset.range n).filter fun i => y i = s).card = 1 ↔ OnlyOne n y s := by
  rw [Finset.card_eq_one]
  constructor
  · rintro ⟨a, ha⟩
    have h := (Finset.ext_iff.mp ha a).mpr (Finset.mem_singleton_self a)
    rw [Finset.mem_filter, Finset.mem_range] at h
    refine ⟨a, h.1, h.2, fun j hj hs => ?_⟩
    exact Finset.mem_singleton.mp ((Finset.ext_iff.mp ha j).mp (Finset.mem_filter.mpr ⟨Finset.mem_range.mpr hj, hs⟩))
  · rintro ⟨a, ha, hs, h⟩
    refine ⟨a, Finset.ext fun j => ?_⟩
    rw [Finset.mem_filter, Finset.mem_range, Finset.mem_singleton]
    exact ⟨fun hj => h j hj.1 hj.2, fun hj => hj ▸ ⟨ha, hs⟩⟩

theorem notTwo_iff (n : ℕ) (y : ℕ → ℕ) (s : ℕ) :
    ((Finset.range n).filter fun i => y i = s).card ≤ 1 ↔ NotTwo n y s := by
  rw [Finset.card_le_one]
  constructor
  · intro h i hi j hj h1 h2
    exact h i (Finset.mem_filter.mpr ⟨Finset.mem_range.mpr hi, h1⟩) j (Finset.mem_filter.mpr ⟨Finset.mem_range.mpr hj, h2⟩)
  · intro h i hi j hj
    rw [Finset.mem_filter, Finset.mem_range] at hi hj
    exact h i hi.1 j hj.1 hi.2 hj.2

theorem none_iff (n : ℕ) (y : ℕ → ℕ) (s : ℕ) :
    ((Finset.range n).filter fun i => y i = s).card = 0 ↔ ∀ i < n, y i ≠ s := by
  rw [Finset.card_eq_zero, Finset.filter_eq_empty_iff]
  exact ⟨fun h i hi => h (Finset.mem_range.mpr hi), fun h i hi => h i (Finset.mem_range.mp hi)⟩

/-! ### one type of nodes -/

/-- The labelling satisfies all constraints of a list. -/
def SatAll (l : List Single) (y : ℕ → ℕ) : Prop := ∀ c ∈ l, SatSingle c.op c.nodes c.state c.negated y

theorem perGraph_one (last n : ℕ) (y : ℕ → ℕ) :
    SatAll (perGraph true last n) y ↔ ∀ s, 1 ≤ s → s ≤ last → OnlyOne n y s := by
  unfold SatAll perGraph
  rw [List.forall_mem_map]
  simp only [List.mem_range'_1, if_true, and_imp]
  have e : ∀ s, SatSingle "XOR" (List.range n) s false y ↔ OnlyOne n y s := fun s => by
    rw [← onlyOne_iff, ← count_literals]
    rfl
  constructor
  · exact fun h s h1 h2 => (e s).mp (h s h1 (by omega))
  · exact fun h s h1 h2 => (e s).mpr (h s h1 (by omega))

theorem perGraph_atMost (last n : ℕ) (y : ℕ → ℕ) :
    SatAll (perGraph false last n) y ↔ ∀ s, 1 ≤ s → s ≤ last → NotTwo n y s := by
  unfold SatAll perGraph
  rw [List.forall_mem_map]
  simp only [List.mem_range'_1, and_imp]
  have e : ∀ s, SatSingle "ATMOSTONE" (List.range n) s false y ↔ NotTwo n y s := fun s => by
    rw [← notTwo_iff, ← count_literals]
    rfl
  constructor
  · exact fun h s h1 h2 => (e s).mp (h s h1 (by omega))
  · exact fun h s h1 h2 => (e s).mpr (h s h1 (by omega))

/-- **C169.** `buildConstraints` gives every graph its own list of constraints; a labelling satisfies them exactly if each of the states
1 to 9 occurs exactly once (`bOne=True`), or at most once (`bOne=False`). -/
theorem C169_single (X : List EdgeFeature.X) (bOne : Bool) :
    (buildConstraints bOne X).length = X.length ∧
    ∀ (i : ℕ) x l, X[i]? = some x → (buildConstraints bOne X)[i]? = some l → ∀ y : ℕ → ℕ,
      SatAll l y ↔ ∀ s, 1 ≤ s → s ≤ 9 → if bOne then OnlyOne x.features.rows y s else NotTwo x.features.rows y s := by
  refine ⟨List.length_map _, fun i x l hx hl y => ?_⟩
  unfold buildConstraints at hl
  rw [List.getElem?_map, hx] at hl
  cases hl
  cases bOne
  · exact perGraph_atMost 9 _ y
  · exact perGraph_one 9 _ y

/-- **C169.** A graph with fewer than nine nodes has no labelling at all that satisfies the constraints of `buildConstraints(X)`; with
nine nodes or more there is one. -/
theorem C169_room (n : ℕ) : (∃ y : ℕ → ℕ, SatAll (perGraph true 9 n) y) ↔ 9 ≤ n := by
  constructor
  · rintro ⟨y, h⟩
    rw [perGraph_one] at h
    have hsub : Finset.Icc 1 9 ⊆ (Finset.range n).image y := fun s hs => by
      rw [Finset.mem_Icc] at hs
      obtain ⟨i, hi, hy, -⟩ := h s hs.1 hs.2
      exact Finset.mem_image.mpr ⟨i, Finset.mem_range.mpr hi, hy⟩
    have := (Finset.card_le_card hsub).trans Finset.card_image_le
    simpa using this
  · intro hn
    refine ⟨fun i => if i < 9 then i + 1 else 0, (perGraph_one 9 n _).mpr fun s h1 h9 => ⟨s - 1, by omega, ?_, fun j hj hs => ?_⟩⟩
    · simp only
      rw [if_pos (by omega)]
      omega
    · simp only at hs
      split at hs <;> omega

theorem mapM_const_ok {α β : Type} (f : α → Except PyErr β) (g : α → β) (l : List α) (h : ∀ a ∈ l, f a = .ok (g a)) :
    l.mapM f = .ok (l.map g) := by
  induction l with
  | nil => rfl
  | cons a l ih =>
    rw [List.mapM_cons, h a List.mem_cons_self, ih fun b hb => h b (List.mem_cons_of_mem _ hb)]
    rfl

/-- **C169.** On converted data `buildConstraintsFromSingleTyped` raises nothing, and the constraints ask for each of the states 1 to
`NCELL` exactly or at most once. -/
theorem C169_single_typed (nCell : ℕ) (X : List EdgeFeature.X) (bOne : Bool) :
    ∃ L, buildConstraintsFromSingleTyped nCell bOne (convertToSingleTypeX X) = .ok L ∧ L.length = X.length ∧
      ∀ (i : ℕ) x l, X[i]? = some x → L[i]? = some l → ∀ y : ℕ → ℕ,
        SatAll l y ↔ ∀ s, 1 ≤ s → s ≤ nCell → if bOne then OnlyOne x.features.rows y s else NotTwo x.features.rows y s := by
  refine ⟨X.map fun x => perGraph bOne nCell x.features.rows, ?_, List.length_map _, fun i x l hx hl y => ?_⟩
  · unfold buildConstraintsFromSingleTyped convertToSingleTypeX
    rw [mapM_const_ok _ (fun x => perGraph bOne nCell (match x.nodeFeatures with | [some M] => M.rows | _ => 0)), List.map_map]
    · rfl
    · intro x hx
      obtain ⟨x', -, rfl⟩ := List.mem_map.mp hx
      rfl
  · rw [List.getElem?_map, hx] at hl
    cases hl
    cases bOne
    · exact perGraph_atMost nCell _ y
    · exact perGraph_one nCell _ y

/-- **C169, conversion.** `convertToSingleTypeX` gives one type to every instance and keeps all its arrays. -/
theorem C169_converted (X : List EdgeFeature.X) :
    (convertToSingleTypeX X).length = X.length ∧
    ∀ (i : ℕ) x, X[i]? = some x → ∃ z, (convertToSingleTypeX X)[i]? = some z ∧ z.nodeFeatures = [some x.features] ∧
      z.edgeFeatures = [some x.edgeFeatures] ∧ ∃ es, z.edges = [some es] ∧ List.Forall₂ (fun e f => e = ((f.1 : ℤ), (f.2 : ℤ))) es x.edges := by
  refine ⟨List.length_map _, fun i x hx =>
    ⟨⟨[some x.features], [some (TypedSnakes.rawEdges x.edges)], [some x.edgeFeatures]⟩, ?_, rfl, rfl, TypedSnakes.rawEdges x.edges, rfl, ?_⟩⟩
  · unfold convertToSingleTypeX
    rw [List.getElem?_map, hx]
    rfl
  · unfold TypedSnakes.rawEdges
    rw [List.forall₂_map_left_iff]
    exact List.forall₂_same.mpr fun _ _ => rfl

/-- **C169, several types.** `buildConstraintsFromSingleTyped` raises `ValueError` for an instance that has not exactly one type. -/
theorem C169_several_types (nCell : ℕ) (bOne : Bool) (x : Typed.X) (X : List Typed.X)
    (hx : x.nodeFeatures.length ≠ 1 ∨ x.edges.length ≠ 1 ∨ x.edgeFeatures.length ≠ 1) :
    buildConstraintsFromSingleTyped nCell bOne (x :: X) = .error .valueError := by
  have : singleRows x = .error .valueError := by
    unfold singleRows
    split
    · rename_i h1 h2 h3
      simp [h1, h2, h3] at hx
    · rfl
  unfold buildConstraintsFromSingleTyped
  rw [List.mapM_cons]
  simp only [this, bind, Except.bind]

/-- An instance with two types. -/
example : buildConstraintsFromSingleTyped 3 true [⟨[none, none], [none, none, none, none], [none, none, none, none]⟩] = .error .valueError :=
  C169_several_types 3 true _ [] (by simp)

/-- A converted instance with an edge. -/
example := (C169_converted [⟨⟨3, 1, fun _ _ => 0⟩, [(0, 1)], ⟨1, 1, fun _ _ => 0⟩⟩]).2 0 _ rfl

/-! ### pixels and images -/

/-- The labelling satisfies all constraints of a list; `y 0` labels the nodes of the first type, `y 1` those of the second. -/
def SatAllMulti (l : List Multi) (y : ℕ → ℕ → ℕ) : Prop := ∀ c ∈ l, SatMulti c.op c.unary c.state c.negated y

theorem holds_out {op : String} {P : List Bool → Bool → Prop} (hop : ∀ l, OpHolds op l ↔ ∃ ins out, l = ins ++ [out] ∧ P ins out)
    (ins : List Bool) (out : Bool) : OpHolds op (ins ++ [out]) ↔ P ins out := by
  rw [hop]
  constructor
  · rintro ⟨i, o, h, hP⟩
    obtain ⟨h1, h2⟩ := List.append_inj' h rfl
    cases h2
    exact h1 ▸ hP
  · exact fun h => ⟨ins, out, rfl, h⟩

theorem twoTypes_lits (n : ℕ) (s t : ℕ) (y : ℕ → ℕ → ℕ) :
    ((List.range [List.range n, [0]].length).flatMap fun u => ([List.range n, [0]].getD u []).map fun k =>
      literal (y u k) (([some s, some t].getD u none).getD 0) (([some false, some false].getD u none).getD false)) =
    ((List.range n).map fun k => literal (y 0 k) s false) ++ [literal (y 1 0) t false] := by
  simp [List.range_succ]

theorem andOut_iff (n : ℕ) (y : ℕ → ℕ → ℕ) :
    SatMulti "ANDOUT" [List.range n, [0]] [some 0, some 0] [some false, some false] y ↔ (y 1 0 = 0 ↔ ∀ i < n, y 0 i = 0) := by
  unfold SatMulti
  rw [twoTypes_lits, holds_out (op := "ANDOUT") (P := fun ins out => (out = true ↔ ∀ b ∈ ins, b = true)) (fun l => Iff.rfl)]
  constructor
  · rintro ⟨-, h⟩
    simpa [literal] using h
  · intro h
    refine ⟨fun t ht _ => ?_, by simpa [literal] using h⟩
    have : t = 0 ∨ t = 1 := by simp at ht; omega
    rcases this with rfl | rfl <;> exact ⟨⟨_, rfl⟩, ⟨_, rfl⟩⟩

theorem xorOut_iff (n s : ℕ) (y : ℕ → ℕ → ℕ) :
    SatMulti "XOROUT" [List.range n, [0]] [some s, some 1] [some false, some false] y ↔
      if y 1 0 = 1 then OnlyOne n (y 0) s else ∀ i < n, y 0 i ≠ s := by
  unfold SatMulti
  rw [twoTypes_lits, holds_out (op := "XOROUT") (P := fun ins out => ins.count true = out.toNat) (fun l => Iff.rfl), count_literals]
  have key : ((Finset.range n).filter fun i => y 0 i = s).card = (literal (y 1 0) 1 false).toNat ↔
      if y 1 0 = 1 then OnlyOne n (y 0) s else ∀ i < n, y 0 i ≠ s := by
    by_cases h : y 1 0 = 1
    · rw [if_pos h, ← onlyOne_iff]
      simp [literal, h]
    · rw [if_neg h, ← none_iff]
      simp [literal, h]
  rw [key]
  refine ⟨fun h => h.2, fun h => ⟨fun t ht _ => ?_, h⟩⟩
  have : t = 0 ∨ t = 1 := by simp at ht; omega
  rcases this with rfl | rfl <;> exact ⟨⟨_, rfl⟩, ⟨_, rfl⟩⟩

theorem atMostOne_iff (n s : ℕ) (y : ℕ → ℕ → ℕ) :
    SatMulti "ATMOSTONE" [List.range n, []] [some s, none] [some false, none] y ↔ NotTwo n (y 0) s := by
  unfold SatMulti
  have e : ((List.range [List.range n, []].length).flatMap fun u => ([List.range n, []].getD u []).map fun k =>
      literal (y u k) (([some s, none].getD u none).getD 0) (([some false, none].getD u none).getD false)) =
      (List.range n).map fun k => literal (y 0 k) s false := by
    simp [List.range_succ]
  rw [e, ← notTwo_iff, ← count_literals]
  refine ⟨fun h => h.2, fun h => ⟨fun t ht hne => ?_, h⟩⟩
  have : t = 0 ∨ t = 1 := by simp at ht; omega
  rcases this with rfl | rfl
  · exact ⟨⟨_, rfl⟩, ⟨_, rfl⟩⟩
  · exact absurd rfl hne

/-- What is meant: the image is labelled 0 and all pixels are background, or it is labelled 1 and every cell of the snake is at exactly
one pixel. -/
def SnakeOrNothing (nCell n : ℕ) (y : ℕ → ℕ → ℕ) : Prop :=
  (y 1 0 = 0 ∧ ∀ i < n, y 0 i = 0) ∨ (y 1 0 = 1 ∧ ∀ s, 1 ≤ s → s ≤ nCell → OnlyOne n (y 0) s)

theorem snakeOrNot_iff (nCell n : ℕ) (y : ℕ → ℕ → ℕ) (hc : 1 ≤ nCell) (hy : y 1 0 < 2) :
    SatAllMulti (snakeOrNot nCell n) y ↔ SnakeOrNothing nCell n y := by
  unfold SatAllMulti snakeOrNot
  rw [List.forall_mem_cons, List.forall_mem_map, andOut_iff]
  simp only [List.mem_range'_1, and_imp, xorOut_iff]
  constructor
  · rintro ⟨h0, h⟩
    by_cases h1 : y 1 0 = 1
    · refine .inr ⟨h1, fun s hs hs' => ?_⟩
      have := h s hs (by omega)
      rwa [if_pos h1] at this
    · have hz : y 1 0 = 0 := by omega
      exact .inl ⟨hz, h0.mp hz⟩
  · rintro (⟨h0, h⟩ | ⟨h1, h⟩)
    · refine ⟨⟨fun _ => h, fun _ => h0⟩, fun s hs _ => ?_⟩
      rw [if_neg (by omega)]
      intro i hi
      rw [h i hi]
      omega
    · refine ⟨⟨fun h0 => by omega, fun hall => ?_⟩, fun s hs hs' => ?_⟩
      · obtain ⟨i, hi, h', -⟩ := h 1 le_rfl hc
        rw [hall i hi] at h'
        omega
      · rw [if_pos h1]
        exact h s hs (by omega)

theorem snakeOrNot_short {nCell n : ℕ} {y : ℕ → ℕ → ℕ} (hn : n < nCell) (h : SnakeOrNothing nCell n y) :
    y 1 0 = 0 ∧ ∀ i < n, y 0 i = 0 := by
  rcases h with h | ⟨-, h⟩
  · exact h
  · exfalso
    have hsub : Finset.Icc 1 nCell ⊆ (Finset.range n).image (y 0) := fun s hs => by
      rw [Finset.mem_Icc] at hs
      obtain ⟨i, hi, hy, -⟩ := h s hs.1 hs.2
      exact Finset.mem_image.mpr ⟨i, Finset.mem_range.mpr hi, hy⟩
    have := (Finset.card_le_card hsub).trans Finset.card_image_le
    simp at this
    omega

/-- The instances `convertToTwoType` makes have two types of nodes. -/
theorem convertOne_types {nCell : ℕ} {s : TypedSnakes.Sample} {r : Typed.X × List ℤ} (h : TypedSnakes.convertOne nCell s = .ok r) :
    r.1.nodeFeatures = [some s.pixels.features, some s.features] := by
  unfold TypedSnakes.convertOne at h
  obtain ⟨f, -, h⟩ := bind_eq_ok.mp h
  cases h
  rfl

/-- **C169.** `listConstraints` raises nothing for instances with two types of nodes; a labelling that gives the image one of its two
labels satisfies the constraints exactly if the image is labelled 0 and all pixels are background, or the image is labelled 1 and each of
the states 1 to `ncell` is at exactly one pixel. In particular an image with fewer than `ncell` pixels can only be labelled 0. -/
theorem C169_snake_or_nothing (nCell : ℕ) (hc : 1 ≤ nCell) (X : List Typed.X)
    (hX : ∀ x ∈ X, ∃ nf nf', x.nodeFeatures = [some nf, nf']) :
    ∃ L, listConstraints nCell X = .ok L ∧ L.length = X.length ∧
      ∀ (i : ℕ) x l nf nf', X[i]? = some x → L[i]? = some l → x.nodeFeatures = [some nf, nf'] →
        ∀ y : ℕ → ℕ → ℕ, y 1 0 < 2 → (SatAllMulti l y ↔ SnakeOrNothing nCell nf.rows y) ∧
          (nf.rows < nCell → SatAllMulti l y → y 1 0 = 0 ∧ ∀ i < nf.rows, y 0 i = 0) := by
  refine ⟨X.map fun x => snakeOrNot nCell (match x.nodeFeatures with | [some M, _] => M.rows | _ => 0), ?_, List.length_map _,
    fun i x l nf nf' hx hl hnf y hy => ?_⟩
  · refine mapM_const_ok _ _ _ fun x hx => ?_
    obtain ⟨nf, nf', h⟩ := hX x hx
    unfold nbPixels
    rw [h]
    rfl
  · rw [List.getElem?_map, hx] at hl
    cases hl
    have e := snakeOrNot_iff nCell nf.rows y hc hy
    simp only [hnf]
    exact ⟨e, fun hn h => snakeOrNot_short hn (e.mp h)⟩

/-- **C169.** `listConstraints_ATMOSTONE`: each of the states 1 to `ncell` is at one pixel at most; nothing is asked of the image. -/
theorem C169_at_most_one (nCell : ℕ) (X : List Typed.X) (hX : ∀ x ∈ X, ∃ nf nf', x.nodeFeatures = [some nf, nf']) :
    ∃ L, listConstraintsAtMostOne nCell X = .ok L ∧ L.length = X.length ∧
      ∀ (i : ℕ) x l nf nf', X[i]? = some x → L[i]? = some l → x.nodeFeatures = [some nf, nf'] →
        ∀ y : ℕ → ℕ → ℕ, SatAllMulti l y ↔ ∀ s, 1 ≤ s → s ≤ nCell → NotTwo nf.rows (y 0) s := by
  refine ⟨X.map fun x => atMostOneEach nCell (match x.nodeFeatures with | [some M, _] => M.rows | _ => 0), ?_, List.length_map _,
    fun i x l nf nf' hx hl hnf y => ?_⟩
  · refine mapM_const_ok _ _ _ fun x hx => ?_
    obtain ⟨nf, nf', h⟩ := hX x hx
    unfold nbPixels
    rw [h]
    rfl
  · rw [List.getElem?_map, hx] at hl
    cases hl
    simp only [hnf]
    unfold SatAllMulti atMostOneEach
    rw [List.forall_mem_map]
    simp only [List.mem_range'_1, and_imp, atMostOne_iff]
    exact ⟨fun h s h1 h2 => h s h1 (by omega), fun h s h1 h2 => h s h1 (by omega)⟩

/-- **C169.** The labels of a converted image satisfy both lists of constraints, if the image shows a snake whose cells are numbered
1 to `ncell` and is labelled 1, or shows none, has background labels only and is labelled 0. The two labels of the image are `ncell + 1`
and `ncell + 2` in the flat vector of labels, 0 and 1 among the states of its type. -/
theorem C169_truth (nCell : ℕ) (hc : 1 ≤ nCell) (s : TypedSnakes.Sample) (r : Typed.X × List ℤ)
    (hr : TypedSnakes.convertOne nCell s = .ok r) (hrows : s.pixels.features.rows = s.pict.h * s.pict.w) (y : ℕ → ℕ → ℕ)
    (hpix : ∀ i < s.pict.h * s.pict.w, r.2[i]? = some (y 0 i : ℤ))
    (himg : r.2[s.pict.h * s.pict.w]? = some ((y 1 0 : ℤ) + nCell + 1))
    (hs : s.label = 0 ∧ (∀ i < s.pict.h, ∀ j < s.pict.w, s.labels i j = 0) ∨
      s.label = 1 ∧ ∀ c : ℕ, 1 ≤ c → c ≤ nCell → ∃ i < s.pict.h, ∃ j < s.pict.w, s.labels i j = c ∧
        ∀ i' < s.pict.h, ∀ j' < s.pict.w, s.labels i' j' = c → i' = i ∧ j' = j) :
    ∀ l L, listConstraints nCell [r.1] = .ok [l] → listConstraintsAtMostOne nCell [r.1] = .ok [L] → SatAllMulti l y ∧ SatAllMulti L y := by
  have hnf := convertOne_types hr
  have hflat : r.2 = TypedSnakes.flatLabels nCell s := by
    unfold TypedSnakes.convertOne at hr
    obtain ⟨f, -, h⟩ := bind_eq_ok.mp hr
    cases h
    rfl
  have hpix' : ∀ i < s.pict.h * s.pict.w, (y 0 i : ℤ) = s.labels (i / s.pict.w) (i % s.pict.w) := by
    intro i hi
    have := hpix i hi
    rw [hflat] at this
    unfold TypedSnakes.flatLabels at this
    rw [List.getElem?_append_left (by simpa using hi), List.getElem?_map, List.getElem?_range hi] at this
    simpa using this.symm
  have himg' : (y 1 0 : ℤ) = s.label := by
    rw [hflat] at himg
    unfold TypedSnakes.flatLabels at himg
    rw [List.getElem?_append_right (by simp)] at himg
    simp at himg
    omega
  have hSN : SnakeOrNothing nCell (s.pict.h * s.pict.w) y := by
    rcases hs with ⟨h0, h⟩ | ⟨h1, h⟩
    · refine .inl ⟨by omega, fun i hi => ?_⟩
      have hw : 0 < s.pict.w := Nat.pos_of_ne_zero fun h => by rw [h] at hi; simp at hi
      have := hpix' i hi
      rw [h _ (Nat.div_lt_of_lt_mul (by rwa [Nat.mul_comm])) _ (Nat.mod_lt _ hw)] at this
      omega
    · refine .inr ⟨by omega, fun c hc1 hc2 => ?_⟩
      obtain ⟨i, hi, j, hj, hij, hu⟩ := h c hc1 hc2
      have hw : 0 < s.pict.w := by omega
      have hlt : i * s.pict.w + j < s.pict.h * s.pict.w :=
        calc i * s.pict.w + j < i * s.pict.w + s.pict.w := by omega
          _ = (i + 1) * s.pict.w := by ring
          _ ≤ s.pict.h * s.pict.w := Nat.mul_le_mul_right _ hi
      have hd : (i * s.pict.w + j) / s.pict.w = i := by
        rw [Nat.mul_comm, Nat.mul_add_div hw, Nat.div_eq_of_lt hj, Nat.add_zero]
      have hm : (i * s.pict.w + j) % s.pict.w = j := by
        rw [Nat.mul_comm, Nat.mul_add_mod, Nat.mod_eq_of_lt hj]
      refine ⟨i * s.pict.w + j, hlt, ?_, fun k hk hkc => ?_⟩
      · have := hpix' _ hlt
        rw [hd, hm, hij] at this
        exact_mod_cast this
      · have h' := hpix' k hk
        rw [hkc] at h'
        obtain ⟨e1, e2⟩ := hu (k / s.pict.w) (Nat.div_lt_of_lt_mul (by rwa [Nat.mul_comm])) (k % s.pict.w) (Nat.mod_lt _ hw) h'.symm
        have := Nat.div_add_mod k s.pict.w
        rw [e1, e2, Nat.mul_comm] at this
        exact this.symm
  have hy2 : y 1 0 < 2 := by rcases hs with h | h <;> omega
  have hX : ∀ x ∈ [r.1], ∃ nf nf', x.nodeFeatures = [some nf, nf'] := fun x hx => by
    rw [List.mem_singleton.mp hx]
    exact ⟨_, _, hnf⟩
  intro l L hl hL
  obtain ⟨l', h1, -, h2⟩ := C169_snake_or_nothing nCell hc [r.1] hX
  obtain ⟨L', h3, -, h4⟩ := C169_at_most_one nCell [r.1] hX
  rw [hl] at h1
  rw [hL] at h3
  cases h1
  cases h3
  have e1 := (h2 0 _ _ _ _ rfl rfl hnf y hy2).1
  have e2 := h4 0 _ _ _ _ rfl rfl hnf y
  rw [hrows] at e1 e2
  refine ⟨e1.mpr hSN, e2.mpr fun c hc1 hc2 i hi j hj hyi hyj => ?_⟩
  rcases hSN with ⟨-, h⟩ | ⟨-, h⟩
  · rw [h i hi] at hyi
    omega
  · obtain ⟨k, -, -, hk⟩ := h c hc1 hc2
    rw [hk i hi hyi, hk j hj hyj]

/-- **C169**, why the pixels come first: the output of an operator is its last variable: with the image first and
the pixels second, the same constraints (swapped as `swap_node_types` would) have the last pixel as their output. Then the labelling of a
snake violates them: two pixels, one cell of the snake, which is the first pixel. -/
theorem C169_order_matters :
    ∃ (l l' : List Multi) (y : ℕ → ℕ → ℕ), listConstraints 1 [⟨[some ⟨2, 1, fun _ _ => 0⟩, some ⟨1, 1, fun _ _ => 0⟩], [], []⟩] = .ok [l] ∧
      l.mapM (TypedSnakes.swapConstraint [1, 0]) = .ok l' ∧ SatAllMulti l y ∧
      ¬ SatAllMulti l' fun t => y (1 - t) := by
  refine ⟨_, _, fun t i => if t = 0 then if i = 0 then 1 else 0 else 1, rfl, rfl, ?_, ?_⟩
  · exact (snakeOrNot_iff 1 2 _ le_rfl (by decide)).mpr (.inr ⟨rfl, fun s h1 h2 => by
      have : s = 1 := by omega
      subst this
      exact ⟨0, by decide, rfl, by decide⟩⟩)
  · intro h
    have := (h _ (List.mem_cons_of_mem _ List.mem_cons_self)).2
    obtain ⟨ins, out, h1, h2⟩ := this
    have e : ins ++ [out] = [true, true] ++ [false] := h1.symm.trans (by decide)
    obtain ⟨e1, e2⟩ := List.append_inj' e rfl
    cases e2
    rw [e1] at h2
    exact absurd h2 (by decide)

/-! ### examples -/

/-- Ten nodes in a row, nine of them labelled 1 to 9. -/
example : SatAll (perGraph true 9 10) (fun i => i) :=
  (perGraph_one 9 10 _).mpr fun s _ h2 => ⟨s, by omega, rfl, fun _ _ h => h⟩

/-- Two instances, of ten nodes and of two. -/
example : ∀ y : ℕ → ℕ, SatAll ((buildConstraints true [⟨⟨10, 1, fun _ _ => 0⟩, [], ⟨0, 1, fun _ _ => 0⟩⟩,
    ⟨⟨2, 1, fun _ _ => 0⟩, [(0, 1)], ⟨1, 1, fun _ _ => 0⟩⟩]).getD 0 []) y ↔ ∀ s, 1 ≤ s → s ≤ 9 → OnlyOne 10 y s :=
  fun y => (C169_single [⟨⟨10, 1, fun _ _ => 0⟩, [], ⟨0, 1, fun _ _ => 0⟩⟩,
    ⟨⟨2, 1, fun _ _ => 0⟩, [(0, 1)], ⟨1, 1, fun _ _ => 0⟩⟩] true).2 0 _ _ rfl rfl y

/-- An instance with two pixels and a snake of two cells: it satisfies the constraints. -/
example : ∃ L, listConstraints 2 [⟨[some ⟨2, 1, fun _ _ => 0⟩, some ⟨1, 1, fun _ _ => 0⟩], [none, none, none, none],
    [none, none, none, none]⟩] = .ok L ∧ L.length = 1 ∧ ∀ l ∈ L, SatAllMulti l fun t i => if t = 0 then i + 1 else 1 := by
  obtain ⟨L, h1, h2, h3⟩ := C169_snake_or_nothing 2 (by decide) [⟨[some ⟨2, 1, fun _ _ => 0⟩, some ⟨1, 1, fun _ _ => 0⟩],
    [none, none, none, none], [none, none, none, none]⟩] (fun x hx => by rw [List.mem_singleton.mp hx]; exact ⟨_, _, rfl⟩)
  refine ⟨L, h1, h2, fun l hl => ?_⟩
  obtain ⟨i, hi, rfl⟩ := List.getElem_of_mem hl
  have : i = 0 := by rw [h2] at hi; simpa using hi
  subst this
  refine ((h3 0 _ _ _ _ rfl (List.getElem?_eq_getElem hi) rfl _ (by decide)).1).mpr (.inr ⟨rfl, fun s h4 h5 => ⟨s - 1, ?_, ?_, ?_⟩⟩)
  · simp only; omega
  · simp only [if_true]; omega
  · intro j _ hj
    simp only [if_true] at hj
    omega

/-- An image of two pixels, the first of which is a snake of one cell. -/
def shortSnake : TypedSnakes.Sample :=
  ⟨⟨1, 2, fun _ j c => if (j = 0 ∧ c = 0) ∨ (j = 1 ∧ c = 3) then 1 else 0⟩, ⟨⟨2, 1, fun _ _ => 1⟩, [(0, 1)], ⟨1, 1, fun _ _ => 1⟩⟩,
    fun _ j => if j = 0 then 1 else 0, ⟨1, 7, fun _ _ => 0⟩, 1⟩

/-- Its labels satisfy the constraints. -/
example : ∃ r, TypedSnakes.convertOne 1 shortSnake = .ok r ∧ ∀ l L, listConstraints 1 [r.1] = .ok [l] →
    listConstraintsAtMostOne 1 [r.1] = .ok [L] →
    SatAllMulti l (fun t i => if t = 0 ∧ i = 1 then 0 else 1) ∧ SatAllMulti L fun t i => if t = 0 ∧ i = 1 then 0 else 1 := by
  refine ⟨_, rfl, C169_truth 1 le_rfl shortSnake _ rfl rfl _ ?_ rfl (.inr ⟨rfl, fun c h1 h2 => ?_⟩)⟩
  · intro i hi
    have : i = 0 ∨ i = 1 := by simp [shortSnake] at hi; omega
    rcases this with rfl | rfl <;> rfl
  · have : c = 1 := by omega
    subst this
    refine ⟨0, by decide, 0, by decide, rfl, ?_⟩
    intro i' hi' j' hj' h
    simp only [shortSnake] at hi' hj' h
    refine ⟨by omega, ?_⟩
    by_contra hne
    rw [if_neg hne] at h
    simp at h

/-- Two pixels and an image, at most one pixel in each of the states 1 to 3. -/
example : ∃ L, listConstraintsAtMostOne 3 [⟨[some ⟨2, 1, fun _ _ => 0⟩, none], [], []⟩] = .ok L ∧ L.length = 1 ∧
    ∀ l, L[0]? = some l → ¬ SatAllMulti l fun _ _ => 2 := by
  obtain ⟨L, h1, h2, h3⟩ := C169_at_most_one 3 [⟨[some ⟨2, 1, fun _ _ => 0⟩, none], [], []⟩]
    (fun x hx => by rw [List.mem_singleton.mp hx]; exact ⟨_, _, rfl⟩)
  exact ⟨L, h1, h2, fun l hl h => absurd ((h3 0 _ _ _ _ rfl hl rfl _).mp h 2 (by decide) (by decide) 0 (by decide) 1 (by decide) rfl rfl)
    (by decide)⟩

/-- Three nodes, three cells. -/
example : ∃ L, buildConstraintsFromSingleTyped 3 true (convertToSingleTypeX [⟨⟨3, 1, fun _ _ => 0⟩, [(0, 1)], ⟨1, 1, fun _ _ => 0⟩⟩]) =
    .ok L ∧ ∀ l, L[0]? = some l → SatAll l fun i => i + 1 := by
  obtain ⟨L, h1, -, h3⟩ := C169_single_typed 3 [⟨⟨3, 1, fun _ _ => 0⟩, [(0, 1)], ⟨1, 1, fun _ _ => 0⟩⟩] true
  exact ⟨L, h1, fun l hl => (h3 0 _ _ rfl hl _).mpr fun s h4 h5 => ⟨s - 1, by simp only; omega, by simp only; omega, fun j _ hj => by simp only at hj; omega⟩⟩

end Verif.Props
