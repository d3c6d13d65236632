import Verif.Model.ShortenSnakes
import Verif.Props.C163
import Verif.Spec.ShortSnakes

/-!
# C172: shortened snakes
-/

namespace Verif.Props

open Verif.Snakes Verif.Spec

theorem mem_whereLabel {y : LabelPict} {P : ℤ → Bool} {p : ℕ × ℕ} :
    p ∈ whereLabel y P ↔ p.1 < y.h ∧ p.2 < y.w ∧ P (y.get p.1 p.2) = true := by
  unfold whereLabel
  obtain ⟨i, j⟩ := p
  rw [List.mem_filter]
  change (i, j) ∈ List.range y.h ×ˢ List.range y.w ∧ _ ↔ _
  rw [List.mem_product, List.mem_range, List.mem_range, and_assoc]

theorem pyMin_spec {L : List ℕ} (hL : L ≠ []) : ∃ m, pyMin L = .ok m ∧ m ∈ L ∧ ∀ a ∈ L, m ≤ a := by
  have key : ∀ (l : List ℕ) (a : ℕ), l.foldl min a ∈ a :: l ∧ ∀ b ∈ a :: l, l.foldl min a ≤ b := by
    intro l
    induction l with
    | nil => intro a; simp
    | cons c l ih =>
      intro a
      obtain ⟨h1, h2⟩ := ih (min a c)
      rw [List.foldl_cons]
      refine ⟨?_, ?_⟩
      · rcases List.mem_cons.mp h1 with h | h
        · rw [h]
          rcases min_choice a c with h3 | h3 <;> rw [h3] <;> simp
        · exact List.mem_cons_of_mem _ (List.mem_cons_of_mem _ h)
      · have h3 := h2 _ List.mem_cons_self
        intro b hb
        rcases List.mem_cons.mp hb with rfl | hb
        · exact h3.trans (min_le_left _ _)
        · rcases List.mem_cons.mp hb with rfl | hb
          · exact h3.trans (min_le_right _ _)
          · exact h2 b (List.mem_cons_of_mem _ hb)
  cases L with
  | nil => exact absurd rfl hL
  | cons a l => exact ⟨_, rfl, key l a⟩

theorem pyMax_spec {L : List ℕ} (hL : L ≠ []) : ∃ m, pyMax L = .ok m ∧ m ∈ L ∧ ∀ a ∈ L, a ≤ m := by
  have key : ∀ (l : List ℕ) (a : ℕ), l.foldl max a ∈ a :: l ∧ ∀ b ∈ a :: l, b ≤ l.foldl max a := by
    intro l
    induction l with
    | nil => intro a; simp
    | cons c l ih =>
      intro a
      obtain ⟨h1, h2⟩ := ih (max a c)
      rw [List.foldl_cons]
      refine ⟨?_, ?_⟩
      · rcases List.mem_cons.mp h1 with h | h
        · rw [h]
          rcases max_choice a c with h3 | h3 <;> rw [h3] <;> simp
        · exact List.mem_cons_of_mem _ (List.mem_cons_of_mem _ h)
      · have h3 := h2 _ List.mem_cons_self
        intro b hb
        rcases List.mem_cons.mp hb with rfl | hb
        · exact (le_max_left _ _).trans h3
        · rcases List.mem_cons.mp hb with rfl | hb
          · exact (le_max_right _ _).trans h3
          · exact h2 b (List.mem_cons_of_mem _ hb)
  cases L with
  | nil => exact absurd rfl hL
  | cons a l => exact ⟨_, rfl, key l a⟩

/-- The labels after the cells above `N` are erased. -/
def erasedLabels (N : ℤ) (y : LabelPict) : LabelPict := blankLabels y (whereLabel y fun l => N < l)

/-- The image after the cells above `N` are erased. -/
def erasedPict (N : ℤ) (x : Pict) (y : LabelPict) : Pict :=
  ⟨x.h, x.w, fun i j k => if (i, j) ∈ whereLabel y (fun l => N < l) then x.get 0 0 k else x.get i j k⟩

theorem erased_label (N : ℤ) (y : LabelPict) {i j : ℕ} (hi : i < y.h) (hj : j < y.w) :
    (erasedLabels N y).get i j = if N < y.get i j then 0 else y.get i j := by
  unfold erasedLabels blankLabels
  simp only [mem_whereLabel, hi, hj, true_and, decide_eq_true_eq]

theorem erased_pixel (N : ℤ) (x : Pict) (y : LabelPict) {i j : ℕ} (hi : i < y.h) (hj : j < y.w) (k : ℕ) :
    (erasedPict N x y).get i j k = if N < y.get i j then x.get 0 0 k else x.get i j k := by
  unfold erasedPict
  simp only [mem_whereLabel, hi, hj, true_and, decide_eq_true_eq]

theorem mem_kept {N : ℤ} {y : LabelPict} {p : ℕ × ℕ} :
    p ∈ whereLabel (erasedLabels N y) (fun l => l ≠ 0) ↔ Stays y.h y.w y.get N p.1 p.2 := by
  rw [mem_whereLabel]
  show p.1 < y.h ∧ p.2 < y.w ∧ _ ↔ _
  unfold Stays
  constructor
  · rintro ⟨h1, h2, h3⟩
    rw [erased_label N y h1 h2, decide_eq_true_eq] at h3
    split_ifs at h3 with h4
    · exact absurd rfl h3
    · exact ⟨h1, h2, h3, not_lt.mp h4⟩
  · rintro ⟨h1, h2, h3, h4⟩
    refine ⟨h1, h2, ?_⟩
    rw [erased_label N y h1 h2, if_neg (not_lt.mpr h4), decide_eq_true_eq]
    exact h3

/-- What `shorten_snakes` does with an image that has a cell to keep. -/
theorem shorten_eq (N : ℤ) (x : Pict) (y : LabelPict) (hh : x.h = y.h) (hw : x.w = y.w)
    (hk : ∃ i j, Stays y.h y.w y.get N i j) : ∃ r0 r1 c0 c1 : ℕ,
      (∃ j, Stays y.h y.w y.get N r0 j) ∧ (∃ j, Stays y.h y.w y.get N r1 j) ∧ (∃ i, Stays y.h y.w y.get N i c0) ∧
      (∃ i, Stays y.h y.w y.get N i c1) ∧
      (∀ i j, Stays y.h y.w y.get N i j → r0 ≤ i ∧ i ≤ r1 ∧ c0 ≤ j ∧ j ≤ c1) ∧
      shortenOne N x y = .ok ((erasedPict N x y, erasedLabels N y),
        cropPict (erasedPict N x y) ((r0 : ℤ) - 1) (r1 + 2) ((c0 : ℤ) - 1) (c1 + 2),
        cropLabels (erasedLabels N y) ((r0 : ℤ) - 1) (r1 + 2) ((c0 : ℤ) - 1) (c1 + 2)) := by
  obtain ⟨i, j, hij⟩ := hk
  have hne : whereLabel (erasedLabels N y) (fun l => l ≠ 0) ≠ [] :=
    List.ne_nil_of_mem ((mem_kept (p := (i, j))).mpr hij)
  have hne1 : (whereLabel (erasedLabels N y) (fun l => l ≠ 0)).map Prod.fst ≠ [] := by rwa [Ne, List.map_eq_nil_iff]
  have hne2 : (whereLabel (erasedLabels N y) (fun l => l ≠ 0)).map Prod.snd ≠ [] := by rwa [Ne, List.map_eq_nil_iff]
  obtain ⟨r0, e1, m1, b1⟩ := pyMin_spec hne1
  obtain ⟨r1, e2, m2, b2⟩ := pyMax_spec hne1
  obtain ⟨c0, e3, m3, b3⟩ := pyMin_spec hne2
  obtain ⟨c1, e4, m4, b4⟩ := pyMax_spec hne2
  obtain ⟨p1, hp1, rfl⟩ := List.mem_map.mp m1
  obtain ⟨p2, hp2, rfl⟩ := List.mem_map.mp m2
  obtain ⟨p3, hp3, rfl⟩ := List.mem_map.mp m3
  obtain ⟨p4, hp4, rfl⟩ := List.mem_map.mp m4
  refine ⟨p1.1, p2.1, p3.2, p4.2, ⟨_, mem_kept.mp hp1⟩, ⟨_, mem_kept.mp hp2⟩, ⟨_, mem_kept.mp hp3⟩, ⟨_, mem_kept.mp hp4⟩, ?_, ?_⟩
  · intro a b hab
    have h := (mem_kept (p := (a, b))).mpr hab
    have hf := List.mem_map_of_mem (f := Prod.fst) h
    have hs := List.mem_map_of_mem (f := Prod.snd) h
    exact ⟨b1 _ hf, b2 _ hf, b3 _ hs, b4 _ hs⟩
  · unfold shortenOne
    rw [if_neg (not_not.mpr ⟨hh, hw⟩)]
    have hb : blankPict x (whereLabel y fun l => decide (N < l)) = .ok (erasedPict N x y) := by
      unfold blankPict
      have := hij.1
      have := hij.2.1
      rw [if_neg (by omega)]
      rfl
    have hE : blankLabels y (whereLabel y fun l => decide (N < l)) = erasedLabels N y := rfl
    simp only [hb, bind, Except.bind, hE, e1, e2, e3, e4]

/-- **C172, the part.** When no cell that stays is in the first row or in the first column, `shorten_snakes` returns the part of the image
around the cells that stay, one pixel wider on all sides where the image has one, with the other cells erased. -/
theorem C172_part_partial (N : ℤ) (x : Pict) (y : LabelPict) (hh : x.h = y.h) (hw : x.w = y.w)
    (hk : ∃ i j, Stays y.h y.w y.get N i j) (hb : ∀ i j, Stays y.h y.w y.get N i j → 1 ≤ i ∧ 1 ≤ j) :
    ∃ (a : Pict × LabelPict) (x' : Pict) (y' : LabelPict) (top left : ℕ), shortenOne N x y = .ok (a, x', y') ∧
      x'.h = y'.h ∧ x'.w = y'.w ∧ PartOf y.h y.w x.get y.get N y'.h y'.w x'.get y'.get top left ∧
      Frames y.h y.w y.get N y'.h y'.w top left ∧ TightFrame y.h y.w y.get N y'.h y'.w top left := by
  obtain ⟨r0, r1, c0, c1, ⟨j0, h0⟩, ⟨j1, h1⟩, ⟨i0, h2⟩, ⟨i1, h3⟩, hall, he⟩ := shorten_eq N x y hh hw hk
  have s0 : sliceBound y.h ((r0 : ℤ) - 1) = r0 - 1 := by
    have := hb _ _ h0
    have := h0.1
    unfold sliceBound
    rw [if_neg (by omega)]
    omega
  have s1 : sliceBound y.h ((r1 : ℤ) + 2) = min (r1 + 2) y.h := by
    unfold sliceBound
    rw [if_neg (by omega)]
    omega
  have s2 : sliceBound y.w ((c0 : ℤ) - 1) = c0 - 1 := by
    have := hb _ _ h2
    have := h2.2.1
    unfold sliceBound
    rw [if_neg (by omega)]
    omega
  have s3 : sliceBound y.w ((c1 : ℤ) + 2) = min (c1 + 2) y.w := by
    unfold sliceBound
    rw [if_neg (by omega)]
    omega
  have g0 := hb _ _ h0
  have g1 := hall _ _ h1
  have g2 := hb _ _ h2
  have g3 := hall _ _ h3
  have b0 := h0.1
  have b1 := h1.1
  have b2 := h2.2.1
  have b3 := h3.2.1
  have dh : (cropLabels (erasedLabels N y) ((r0 : ℤ) - 1) (r1 + 2) ((c0 : ℤ) - 1) (c1 + 2)).h = min (r1 + 2) y.h - (r0 - 1) := by
    show sliceBound y.h _ - sliceBound y.h _ = _
    rw [s0, s1]
  have dw : (cropLabels (erasedLabels N y) ((r0 : ℤ) - 1) (r1 + 2) ((c0 : ℤ) - 1) (c1 + 2)).w = min (c1 + 2) y.w - (c0 - 1) := by
    show sliceBound y.w _ - sliceBound y.w _ = _
    rw [s2, s3]
  refine ⟨_, _, _, r0 - 1, c0 - 1, he, ?_, ?_, ?_, ?_, ?_⟩
  · show sliceBound x.h _ - sliceBound x.h _ = sliceBound y.h _ - sliceBound y.h _
    rw [hh]
  · show sliceBound x.w _ - sliceBound x.w _ = sliceBound y.w _ - sliceBound y.w _
    rw [hw]
  · intro i hi j hj
    rw [dh] at hi
    rw [dw] at hj
    have hi' : r0 - 1 + i < y.h := by omega
    have hj' : c0 - 1 + j < y.w := by omega
    have ex : ∀ c, (cropPict (erasedPict N x y) ((r0 : ℤ) - 1) (r1 + 2) ((c0 : ℤ) - 1) (c1 + 2)).get i j c =
        (erasedPict N x y).get (r0 - 1 + i) (c0 - 1 + j) c := by
      intro c
      show (erasedPict N x y).get (sliceBound x.h _ + i) (sliceBound x.w _ + j) c = _
      rw [hh, hw, s0, s2]
    have ey : (cropLabels (erasedLabels N y) ((r0 : ℤ) - 1) (r1 + 2) ((c0 : ℤ) - 1) (c1 + 2)).get i j =
        (erasedLabels N y).get (r0 - 1 + i) (c0 - 1 + j) := by
      show (erasedLabels N y).get (sliceBound y.h _ + i) (sliceBound y.w _ + j) = _
      rw [s0, s2]
    refine ⟨hi', hj', ?_, ?_⟩
    · intro hle
      rw [ey, erased_label N y hi' hj', if_neg (not_lt.mpr hle)]
      refine ⟨rfl, fun c => ?_⟩
      rw [ex, erased_pixel N x y hi' hj', if_neg (not_lt.mpr hle)]
    · intro hlt
      rw [ey, erased_label N y hi' hj', if_pos hlt]
      refine ⟨rfl, fun c => ?_⟩
      rw [ex, erased_pixel N x y hi' hj', if_pos hlt]
  · intro i j hij
    have h4 := hall _ _ hij
    have h5 := hij.1
    have h6 := hij.2.1
    rw [dh, dw]
    omega
  · rw [TightFrame, dh, dw]
    refine ⟨⟨j0, ?_⟩, ⟨i0, ?_⟩, ⟨r1, j1, h1, by omega⟩, ⟨i1, c1, h3, by omega⟩⟩
    · rwa [show r0 - 1 + 1 = r0 by omega]
    · rwa [show c0 - 1 + 1 = c0 by omega]

/-- **C172, in place.** After a successful call the arguments have their size, and the cells with labels above `N` are erased. -/
theorem C172_in_place (N : ℤ) (x : Pict) (y : LabelPict) (a o : Pict × LabelPict) (h : shortenOne N x y = .ok (a, o)) :
    a.1.h = x.h ∧ a.1.w = x.w ∧ a.2.h = y.h ∧ a.2.w = y.w ∧ x.h = y.h ∧ x.w = y.w ∧
      PartOf y.h y.w x.get y.get N y.h y.w a.1.get a.2.get 0 0 := by
  have hs : x.h = y.h ∧ x.w = y.w := by
    by_contra hc
    unfold shortenOne at h
    rw [if_pos hc] at h
    cases h
  have ha : a = (erasedPict N x y, erasedLabels N y) := by
    unfold shortenOne at h
    rw [if_neg (not_not.mpr hs)] at h
    obtain ⟨x1, h1, h⟩ := bind_eq_ok.mp h
    obtain ⟨_, _, h⟩ := bind_eq_ok.mp h
    obtain ⟨_, _, h⟩ := bind_eq_ok.mp h
    obtain ⟨_, _, h⟩ := bind_eq_ok.mp h
    obtain ⟨_, _, h⟩ := bind_eq_ok.mp h
    unfold blankPict at h1
    split_ifs at h1
    have h2 := Except.ok.inj h1
    have h3 := (Prod.mk.inj (Except.ok.inj h)).1
    rw [← h3, ← h2]
    rfl
  subst ha
  refine ⟨rfl, rfl, rfl, rfl, hs.1, hs.2, ?_⟩
  intro i hi j hj
  rw [Nat.zero_add, Nat.zero_add]
  refine ⟨hi, hj, fun h4 => ⟨?_, fun c => ?_⟩, fun h4 => ⟨?_, fun c => ?_⟩⟩
  · rw [erased_label N y hi hj, if_neg (not_lt.mpr h4)]
  · rw [erased_pixel N x y hi hj, if_neg (not_lt.mpr h4)]
  · rw [erased_label N y hi hj, if_pos h4]
  · rw [erased_pixel N x y hi hj, if_pos h4]

/-- **C172, sizes.** Labels of another size than the image raise `AssertionError`. -/
theorem C172_sizes (N : ℤ) (x : Pict) (y : LabelPict) (h : x.h ≠ y.h ∨ x.w ≠ y.w) :
    shortenOne N x y = .error .assertionError := by
  unfold shortenOne
  rw [if_pos]
  tauto

/-- **C172, nothing to keep.** An image without a cell that stays raises `ValueError`. -/
theorem C172_nothing (N : ℤ) (x : Pict) (y : LabelPict) (hh : x.h = y.h) (hw : x.w = y.w) (h0 : 0 < x.h) (w0 : 0 < x.w)
    (hk : ¬ ∃ i j, Stays y.h y.w y.get N i j) : shortenOne N x y = .error .valueError := by
  have hnil : whereLabel (erasedLabels N y) (fun l => l ≠ 0) = [] := by
    rw [List.eq_nil_iff_forall_not_mem]
    intro p hp
    exact hk ⟨_, _, mem_kept.mp hp⟩
  unfold shortenOne
  rw [if_neg (not_not.mpr ⟨hh, hw⟩)]
  have hb : blankPict x (whereLabel y fun l => decide (N < l)) = .ok (erasedPict N x y) := by
    unfold blankPict
    rw [if_neg (by omega)]
    rfl
  have hE : blankLabels y (whereLabel y fun l => decide (N < l)) = erasedLabels N y := rfl
  simp only [hb, bind, Except.bind, hE, hnil, List.map_nil, pyMin]

/-- **C172, no pixels.** An image without pixels raises `IndexError`. -/
theorem C172_no_pixels (N : ℤ) (x : Pict) (y : LabelPict) (hh : x.h = y.h) (hw : x.w = y.w) (h0 : x.h = 0 ∨ x.w = 0) :
    shortenOne N x y = .error .indexError := by
  unfold shortenOne
  rw [if_neg (not_not.mpr ⟨hh, hw⟩)]
  simp only [blankPict, if_pos h0, bind, Except.bind]

/-- **C172, the first row.** When a cell that stays is in the first row, at most the last row of the image is returned, and no row when
the cells that stay end above the last two rows. -/
theorem C172_violated_first_row (N : ℤ) (x : Pict) (y : LabelPict) (hh : x.h = y.h) (hw : x.w = y.w)
    (hk : ∃ j, Stays y.h y.w y.get N 0 j) : ∃ (a : Pict × LabelPict) (x' : Pict) (y' : LabelPict),
      shortenOne N x y = .ok (a, x', y') ∧ x'.h = y'.h ∧ y'.h ≤ 1 ∧
      ((∀ i j, Stays y.h y.w y.get N i j → i + 2 < y.h) → y'.h = 0) := by
  obtain ⟨j, hj⟩ := hk
  obtain ⟨r0, r1, c0, c1, ⟨j0, h0⟩, ⟨j1, h1⟩, -, -, hall, he⟩ := shorten_eq N x y hh hw ⟨0, j, hj⟩
  have hr : r0 = 0 := by have := hall _ _ hj; omega
  subst hr
  have hpos := hj.1
  have s0 : sliceBound y.h (((0 : ℕ) : ℤ) - 1) = y.h - 1 := by
    unfold sliceBound
    rw [if_pos (by omega)]
    omega
  have s1 : sliceBound y.h ((r1 : ℤ) + 2) = min (r1 + 2) y.h := by
    unfold sliceBound
    rw [if_neg (by omega)]
    omega
  refine ⟨_, _, _, he, ?_, ?_, ?_⟩
  · show sliceBound x.h _ - sliceBound x.h _ = sliceBound y.h _ - sliceBound y.h _
    rw [hh]
  · show sliceBound y.h _ - sliceBound y.h _ ≤ 1
    rw [s0, s1]
    omega
  · intro h2
    have := h2 _ _ h1
    show sliceBound y.h _ - sliceBound y.h _ = 0
    rw [s0, s1]
    omega

/-- **C172, the first column.** The same for columns. -/
theorem C172_violated_first_column (N : ℤ) (x : Pict) (y : LabelPict) (hh : x.h = y.h) (hw : x.w = y.w)
    (hk : ∃ i, Stays y.h y.w y.get N i 0) : ∃ (a : Pict × LabelPict) (x' : Pict) (y' : LabelPict),
      shortenOne N x y = .ok (a, x', y') ∧ x'.w = y'.w ∧ y'.w ≤ 1 ∧
      ((∀ i j, Stays y.h y.w y.get N i j → j + 2 < y.w) → y'.w = 0) := by
  obtain ⟨i, hi⟩ := hk
  obtain ⟨r0, r1, c0, c1, -, -, ⟨i0, h0⟩, ⟨i1, h1⟩, hall, he⟩ := shorten_eq N x y hh hw ⟨i, 0, hi⟩
  have hr : c0 = 0 := by have := hall _ _ hi; omega
  subst hr
  have hpos := hi.2.1
  have s0 : sliceBound y.w (((0 : ℕ) : ℤ) - 1) = y.w - 1 := by
    unfold sliceBound
    rw [if_pos (by omega)]
    omega
  have s1 : sliceBound y.w ((c1 : ℤ) + 2) = min (c1 + 2) y.w := by
    unfold sliceBound
    rw [if_neg (by omega)]
    omega
  refine ⟨_, _, _, he, ?_, ?_, ?_⟩
  · show sliceBound x.w _ - sliceBound x.w _ = sliceBound y.w _ - sliceBound y.w _
    rw [hw]
  · show sliceBound y.w _ - sliceBound y.w _ ≤ 1
    rw [s0, s1]
    omega
  · intro h2
    have := h2 _ _ h1
    show sliceBound y.w _ - sliceBound y.w _ = 0
    rw [s0, s1]
    omega

/-- The cells of the part that stay are those of the image. -/
theorem part_stays {h w h' w' top left : ℕ} {x x' : ℕ → ℕ → ℕ → ℚ} {y y' : ℕ → ℕ → ℤ} {N : ℤ}
    (hp : PartOf h w x y N h' w' x' y' top left) (hf : Frames h w y N h' w' top left) (i j : ℕ) :
    Stays h' w' y' N i j ↔ Stays h w y N (top + i) (left + j) := by
  constructor
  · rintro ⟨h1, h2, h3, h4⟩
    obtain ⟨g1, g2, g3, g4⟩ := hp i h1 j h2
    rcases lt_or_ge N (y (top + i) (left + j)) with h5 | h5
    · exact absurd (g4 h5).1 h3
    · rw [(g3 h5).1] at h3
      exact ⟨g1, g2, h3, h5⟩
  · intro hs
    have h1 := hf _ _ hs
    have hi : i < h' := by omega
    have hj : j < w' := by omega
    have h2 := ((hp i hi j hj).2.2.1 hs.2.2.2).1
    exact ⟨hi, hj, by rw [h2]; exact hs.2.2.1, by rw [h2]; exact hs.2.2.2⟩

/-- **C172, again.** Shortening the part once more with the same length changes nothing. -/
theorem C172_again (N : ℤ) (x : Pict) (y : LabelPict) (hh : x.h = y.h) (hw : x.w = y.w)
    (hk : ∃ i j, Stays y.h y.w y.get N i j) (hb : ∀ i j, Stays y.h y.w y.get N i j → 1 ≤ i ∧ 1 ≤ j)
    (hN : 0 ≤ N) : ∃ (a b : Pict × LabelPict) (x' x'' : Pict) (y' y'' : LabelPict), shortenOne N x y = .ok (a, x', y') ∧
      shortenOne N x' y' = .ok (b, x'', y'') ∧ x''.h = x'.h ∧ x''.w = x'.w ∧ y''.h = y'.h ∧ y''.w = y'.w ∧
      ∀ i < y'.h, ∀ j < y'.w, y''.get i j = y'.get i j ∧ ∀ c, x''.get i j c = x'.get i j c := by
  obtain ⟨a, x', y', t, l, e1, s1, s2, p1, f1, t1⟩ := C172_part_partial N x y hh hw hk hb
  have st := part_stays p1 f1
  have mv : ∀ {i j}, Stays y.h y.w y.get N i j → Stays y'.h y'.w y'.get N (i - t) (j - l) := by
    intro i j h
    have := f1 _ _ h
    rw [st, show t + (i - t) = i by omega, show l + (j - l) = j by omega]
    exact h
  have hk' : ∃ i j, Stays y'.h y'.w y'.get N i j := by
    obtain ⟨i, j, h⟩ := hk
    exact ⟨_, _, mv h⟩
  have hb' : ∀ i j, Stays y'.h y'.w y'.get N i j → 1 ≤ i ∧ 1 ≤ j := by
    intro i j h
    have := f1 _ _ ((st i j).mp h)
    omega
  obtain ⟨b, x'', y'', t', l', e2, s3, s4, p2, f2, t2⟩ := C172_part_partial N x' y' s1 s2 hk' hb'
  obtain ⟨⟨j0, q0⟩, ⟨i0, q1⟩, ⟨i1, j1, q2, q2'⟩, ⟨i2, j2, q3, q3'⟩⟩ := t1
  have v0 := f2 _ _ (mv q0)
  have v1 := f2 _ _ (mv q1)
  have v2 := f2 _ _ (mv q2)
  have v3 := f2 _ _ (mv q3)
  have u2 := f1 _ _ q2
  have u3 := f1 _ _ q3
  have ht : t' = 0 := by omega
  have hl : l' = 0 := by omega
  subst ht hl
  have hy : y''.h = y'.h := by
    apply le_antisymm
    · by_contra hc
      have hw0 : 0 < y''.w := by omega
      have := (p2 y'.h (by omega) 0 hw0).1
      omega
    · omega
  have hz : y''.w = y'.w := by
    apply le_antisymm
    · by_contra hc
      have hw0 : 0 < y''.h := by omega
      have := (p2 0 hw0 y'.w (by omega)).2.1
      omega
    · omega
  refine ⟨a, b, x', x'', y', y'', e1, e2, by omega, by omega, hy, hz, ?_⟩
  intro i hi j hj
  have h2 := p2 i (by omega) j (by omega)
  rw [Nat.zero_add, Nat.zero_add] at h2
  have hle : y'.get i j ≤ N := by
    rcases lt_or_ge N (y.get (t + i) (l + j)) with h3 | h3
    · rw [((p1 i hi j hj).2.2.2 h3).1]
      exact hN
    · rw [((p1 i hi j hj).2.2.1 h3).1]
      exact h3
  exact h2.2.2.1 hle

/-- An image of a snake with its labels: one colour per pixel, background at the border, and the label zero exactly at the background. -/
structure LabelledSnake (h w : ℕ) (x : ℕ → ℕ → ℕ → ℚ) (y : ℕ → ℕ → ℤ) : Prop where
  one : OneHotPict h w x
  border : Bordered h w x
  labels : ∀ i < h, ∀ j < w, y i j = 0 ↔ x i j 3 = 1

theorem labelled_inside {h w : ℕ} {x : ℕ → ℕ → ℕ → ℚ} {y : ℕ → ℕ → ℤ} (hx : LabelledSnake h w x y) {N : ℤ} {i j : ℕ}
    (hs : Stays h w y N i j) : 1 ≤ i ∧ 1 ≤ j ∧ i + 1 < h ∧ j + 1 < w := by
  have h1 := hs.1
  have h2 := hs.2.1
  by_contra hc
  refine hs.2.2.1 ((hx.labels i h1 j h2).mpr (hx.border i h1 j h2 ?_))
  omega

theorem part_labelled {h w h' w' top left : ℕ} {x x' : ℕ → ℕ → ℕ → ℚ} {y y' : ℕ → ℕ → ℤ} {N : ℤ}
    (hx : LabelledSnake h w x y)
    (hp : PartOf h w x y N h' w' x' y' top left) (hf : Frames h w y N h' w' top left) : LabelledSnake h' w' x' y' := by
  have hl : ∀ i < h', ∀ j < w', y' i j = 0 ↔ x' i j 3 = 1 := by
    intro i hi j hj
    obtain ⟨g1, g2, g3, g4⟩ := hp i hi j hj
    rcases lt_or_ge N (y (top + i) (left + j)) with h5 | h5
    · rw [(g4 h5).1, (g4 h5).2 3]
      exact ⟨fun _ => hx.border 0 (by omega) 0 (by omega) (.inl rfl), fun _ => rfl⟩
    · rw [(g3 h5).1, (g3 h5).2 3]
      exact hx.labels _ g1 _ g2
  refine ⟨?_, ?_, hl⟩
  · intro i hi j hj
    obtain ⟨g1, g2, g3, g4⟩ := hp i hi j hj
    rcases lt_or_ge N (y (top + i) (left + j)) with h5 | h5
    · simp only [(g4 h5).2]
      exact hx.one 0 (by omega) 0 (by omega)
    · simp only [(g3 h5).2]
      exact hx.one _ g1 _ g2
  · intro i hi j hj hbd
    rw [← hl i hi j hj]
    by_contra hne
    have hst : Stays h w y N (top + i) (left + j) := by
      obtain ⟨g1, g2, g3, g4⟩ := hp i hi j hj
      rcases lt_or_ge N (y (top + i) (left + j)) with h5 | h5
      · exact absurd (g4 h5).1 hne
      · rw [(g3 h5).1] at hne
        exact ⟨g1, g2, hne, h5⟩
    have h1 := hf _ _ hst
    have h2 := labelled_inside hx hst
    omega

/-- A cell of a snake is not background. -/
theorem snake_label {h w : ℕ} {x : ℕ → ℕ → ℕ → ℚ} {y : ℕ → ℕ → ℤ} (hx : LabelledSnake h w x y) {p : ℤ × ℤ} {c : ℕ} (hc : c ≠ 3)
    (hp : HasColour h w x p c) : y p.1.toNat p.2.toNat ≠ 0 := by
  obtain ⟨h1, h2, h3, h4, h5, h6⟩ := hp
  have hi : p.1.toNat < h := by omega
  have hj : p.2.toNat < w := by omega
  rw [Ne, hx.labels _ hi _ hj]
  obtain ⟨d, hd, hd'⟩ := hx.one _ hi _ hj
  intro h7
  have e1 := (hd' c h5).mp h6
  have e2 := (hd' 3 (by omega)).mp h7
  omega

theorem part_colour {h w h' w' top left : ℕ} {x x' : ℕ → ℕ → ℕ → ℚ} {y y' : ℕ → ℕ → ℤ} {N : ℤ}
    (hx : LabelledSnake h w x y) (hp : PartOf h w x y N h' w' x' y' top left) (hf : Frames h w y N h' w' top left)
    (p : ℤ × ℤ) {c : ℕ} (hc : c ≠ 3) :
    HasColour h' w' x' (p - ((top : ℤ), (left : ℤ))) c ↔ HasColour h w x p c ∧ y p.1.toNat p.2.toNat ≤ N := by
  obtain ⟨a, b⟩ := p
  constructor
  · intro hcol
    have hne := snake_label (part_labelled hx hp hf) hc hcol
    obtain ⟨h1, h2, h3, h4, h5, h6⟩ := hcol
    simp only [Prod.mk_sub_mk] at h1 h2 h3 h4 h6 hne
    obtain ⟨g1, g2, g3, g4⟩ := hp (a - top).toNat (by omega) (b - left).toNat (by omega)
    have ea : top + (a - top).toNat = a.toNat := by omega
    have eb : left + (b - left).toNat = b.toNat := by omega
    rw [ea, eb] at g3 g4
    rw [ea] at g1
    rw [eb] at g2
    rcases lt_or_ge N (y a.toNat b.toNat) with h7 | h7
    · exact absurd (g4 h7).1 hne
    · refine ⟨⟨?_, ?_, ?_, ?_, h5, ?_⟩, h7⟩
      · show 0 ≤ a
        omega
      · show a < h
        omega
      · show 0 ≤ b
        omega
      · show b < w
        omega
      · rw [← (g3 h7).2 c]
        exact h6
  · rintro ⟨hcol, hle⟩
    have hne := snake_label hx hc hcol
    obtain ⟨h1, h2, h3, h4, h5, h6⟩ := hcol
    simp only at h1 h2 h3 h4 h6 hle hne
    have hs : Stays h w y N a.toNat b.toNat := ⟨by omega, by omega, hne, hle⟩
    have h7 := hf _ _ hs
    obtain ⟨g1, g2, g3, g4⟩ := hp (a - top).toNat (by omega) (b - left).toNat (by omega)
    have ea : top + (a - top).toNat = a.toNat := by omega
    have eb : left + (b - left).toNat = b.toNat := by omega
    rw [ea, eb] at g3
    refine ⟨?_, ?_, ?_, ?_, h5, ?_⟩ <;> simp only [Prod.mk_sub_mk]
    · omega
    · omega
    · omega
    · omega
    · rw [(g3 hle).2 c]
      exact h6

/-- **C172, snakes.** For an image with one colour per pixel, background at its border and the label zero exactly at the background,
`shorten_snakes` returns an image of this kind again, and its snakes are the snakes of the image with labels at most `N`. -/
theorem C172_snakes (N : ℤ) (x : Pict) (y : LabelPict) (hh : x.h = y.h) (hw : x.w = y.w)
    (hx : LabelledSnake y.h y.w x.get y.get) (hk : ∃ i j, Stays y.h y.w y.get N i j) :
    ∃ (a : Pict × LabelPict) (x' : Pict) (y' : LabelPict) (top left : ℕ), shortenOne N x y = .ok (a, x', y') ∧
      x'.h = y'.h ∧ x'.w = y'.w ∧ LabelledSnake y'.h y'.w x'.get y'.get ∧
      ∀ n p, IsSnake y'.h y'.w x'.get n (fun k => p k - ((top : ℤ), (left : ℤ))) ↔
        IsSnake y.h y.w x.get n p ∧ ∀ k < n, y.get (p k).1.toNat (p k).2.toNat ≤ N := by
  obtain ⟨a, x', y', t, l, e1, s1, s2, p1, f1, t1⟩ := C172_part_partial N x y hh hw hk fun i j hs => by
    have := labelled_inside hx hs
    omega
  refine ⟨a, x', y', t, l, e1, s1, s2, part_labelled hx p1 f1, ?_⟩
  intro n p
  have hadd : ∀ (q r d : ℤ × ℤ), q - ((t : ℤ), (l : ℤ)) = r - ((t : ℤ), (l : ℤ)) + d ↔ q = r + d := by
    intro q r d
    constructor
    · intro h
      have := congrArg (· + ((t : ℤ), (l : ℤ))) h
      simp only [sub_add_cancel] at this
      rw [this]
      abel
    · rintro rfl
      abel
  constructor
  · rintro ⟨h1, h2⟩
    refine ⟨⟨?_, ?_⟩, ?_⟩
    · intro k hk'
      obtain ⟨c, hc, h3, h4⟩ := h1 k hk'
      exact ⟨c, hc, ((part_colour hx p1 f1 (p k) hc).mp h3).1, fun h5 => (hadd _ _ _).mp (h4 h5)⟩
    · intro u hu v hv huv
      exact h2 u hu v hv (by simp only [huv])
    · intro k hk'
      obtain ⟨c, hc, h3, h4⟩ := h1 k hk'
      exact ((part_colour hx p1 f1 (p k) hc).mp h3).2
  · rintro ⟨⟨h1, h2⟩, h3⟩
    refine ⟨?_, ?_⟩
    · intro k hk'
      obtain ⟨c, hc, h4, h5⟩ := h1 k hk'
      exact ⟨c, hc, (part_colour hx p1 f1 (p k) hc).mpr ⟨h4, h3 k hk'⟩, fun h6 => (hadd _ _ _).mpr (h5 h6)⟩
    · intro u hu v hv huv
      exact h2 u hu v hv (sub_left_injective huv)

/-- **C172, seen snakes.** `isSnakePresent` finds a snake with an even number of cells in the returned image exactly when the image has
one whose labels are at most `N`. -/
theorem C172_present (N : ℤ) (x : Pict) (y : LabelPict) (hh : x.h = y.h) (hw : x.w = y.w)
    (hx : LabelledSnake y.h y.w x.get y.get) (hk : ∃ i j, Stays y.h y.w y.get N i j) (n : ℕ) (hn : 1 ≤ n) (he : Even n) :
    ∃ (a : Pict × LabelPict) (x' : Pict) (y' : LabelPict) (b : Bool), shortenOne N x y = .ok (a, x', y') ∧
      isSnakePresent x' n = .ok b ∧
      (b = true ↔ ∃ p, IsSnake y.h y.w x.get n p ∧ ∀ k < n, y.get (p k).1.toNat (p k).2.toNat ≤ N) := by
  obtain ⟨a, x', y', t, l, e1, s1, s2, hl, hs⟩ := C172_snakes N x y hh hw hx hk
  obtain ⟨b, h1, h2⟩ := C163_even x' (by rw [s1, s2]; exact hl.one) (by rw [s1, s2]; exact hl.border) n hn he
  refine ⟨a, x', y', b, e1, h1, ?_⟩
  rw [h2, s1, s2]
  constructor
  · rintro ⟨p, hp⟩
    refine ⟨fun k => p k + ((t : ℤ), (l : ℤ)), (hs n _).mp ?_⟩
    simpa only [add_sub_cancel_right] using hp
  · rintro ⟨p, hp⟩
    exact ⟨_, (hs n p).mpr hp⟩

/-- **C172, lists.** The lists returned have one entry per pair of entries, and it is that of the pair. -/
theorem C172_lists (N : ℤ) (lX : List Pict) (lY : List LabelPict) (rX : List Pict) (rY : List LabelPict) :
    shortenSnakes N lX lY = .ok (rX, rY) ↔ rX.length = rY.length ∧
      List.Forall₂ (fun p r => ∃ a, shortenOne N p.1 p.2 = .ok (a, r)) (lX.zip lY) (rX.zip rY) := by
  induction lX generalizing lY rX rY with
  | nil =>
    unfold shortenSnakes
    simp only [List.zip_nil_left, List.forall₂_nil_left_iff, List.zip_eq_nil_iff]
    constructor
    · intro h
      obtain ⟨rfl, rfl⟩ := Prod.mk.inj (Except.ok.inj h)
      exact ⟨rfl, .inl rfl⟩
    · rintro ⟨h1, rfl | rfl⟩
      · cases rY with
        | nil => rfl
        | cons _ _ => simp at h1
      · cases rX with
        | nil => rfl
        | cons _ _ => simp at h1
  | cons x lX ih =>
    cases lY with
    | nil =>
      unfold shortenSnakes
      simp only [List.zip_nil_right, List.forall₂_nil_left_iff, List.zip_eq_nil_iff]
      constructor
      · intro h
        obtain ⟨rfl, rfl⟩ := Prod.mk.inj (Except.ok.inj h)
        exact ⟨rfl, .inl rfl⟩
      · rintro ⟨h1, rfl | rfl⟩
        · cases rY with
          | nil => rfl
          | cons _ _ => simp at h1
        · cases rX with
          | nil => rfl
          | cons _ _ => simp at h1
    | cons y lY =>
      rw [shortenSnakes, List.zip_cons_cons]
      constructor
      · intro h
        obtain ⟨a, h1, h⟩ := bind_eq_ok.mp h
        obtain ⟨r, h2, h⟩ := bind_eq_ok.mp h
        obtain ⟨rfl, rfl⟩ := Prod.mk.inj (Except.ok.inj h)
        obtain ⟨h3, h4⟩ := (ih lY r.1 r.2).mp h2
        refine ⟨by simp [h3], ?_⟩
        rw [List.zip_cons_cons]
        exact .cons ⟨a.1, h1⟩ h4
      · rintro ⟨h1, h2⟩
        cases rX with
        | nil => rw [List.zip_nil_left] at h2; cases h2
        | cons x' rX =>
          cases rY with
          | nil => simp at h1
          | cons y' rY =>
            rw [List.zip_cons_cons] at h2
            cases h2 with
            | cons h3 h4 =>
              obtain ⟨a, h3⟩ := h3
              have h5 := (ih lY rX rY).mpr ⟨by simpa using h1, h4⟩
              simp only [h3, h5, bind, Except.bind]

/-- An image with a snake of four cells that goes right: its labels are `1`, `2`, `3`, `4`. -/
def fourPict : Pict := ⟨4, 7, fun i j c => if i = 1 ∧ 2 ≤ j ∧ j ≤ 5 then (if c = 2 then 1 else 0) else if c = 3 then 1 else 0⟩

/-- Its labels. -/
def fourLabels : LabelPict := ⟨4, 7, fun i j => if i = 1 ∧ 2 ≤ j ∧ j ≤ 5 then (j : ℤ) - 1 else 0⟩

theorem four_labelled : LabelledSnake 4 7 fourPict.get fourLabels.get := by
  refine ⟨?_, ?_, ?_⟩
  · intro i _ j _
    by_cases h : i = 1 ∧ 2 ≤ j ∧ j ≤ 5
    · exact ⟨2, by omega, fun c' _ => by simp [fourPict, h]⟩
    · exact ⟨3, by omega, fun c' _ => by simp only [fourPict, if_neg h]; split_ifs <;> simp_all⟩
  · intro i _ j _ h
    have hn : ¬ (i = 1 ∧ 2 ≤ j ∧ j ≤ 5) := by omega
    simp only [fourPict, if_neg hn, if_true]
  · intro i _ j _
    by_cases h : i = 1 ∧ 2 ≤ j ∧ j ≤ 5
    · simp only [fourPict, fourLabels, if_pos h]
      constructor
      · intro h1
        omega
      · intro h1
        norm_num at h1
    · simp [fourPict, fourLabels, if_neg h]

theorem four_stays : ∃ i j, Stays 4 7 fourLabels.get 2 i j := ⟨1, 2, by omega, by omega, by decide, by decide⟩

/-- The image meets the hypotheses, and the part has three rows and four columns. -/
example : (∃ a x' y', shortenOne 2 fourPict fourLabels = .ok (a, x', y') ∧ y'.h = 3 ∧ y'.w = 4 ∧ y'.get 1 1 = 1 ∧ y'.get 1 2 = 2 ∧
    y'.get 1 3 = 0) ∧ ∃ i j, Stays fourLabels.h fourLabels.w fourLabels.get 2 i j := by
  refine ⟨?_, four_stays⟩
  have h : ∀ o, shortenOne 2 fourPict fourLabels = .ok o → ∃ a x' y', shortenOne 2 fourPict fourLabels = .ok (a, x', y') ∧
      o.2.2 = y' := fun o h => ⟨o.1, o.2.1, o.2.2, h, rfl⟩
  obtain ⟨r0, r1, c0, c1, h0, h1, h2, h3, hall, he⟩ := shorten_eq 2 fourPict fourLabels rfl rfl four_stays
  have k1 := hall 1 2 ⟨by decide, by decide, by decide, by decide⟩
  have k2 := hall 1 3 ⟨by decide, by decide, by decide, by decide⟩
  have cell : ∀ i j, Stays fourLabels.h fourLabels.w fourLabels.get 2 i j → i = 1 ∧ 2 ≤ j ∧ j ≤ 3 := by
    rintro i j ⟨_, _, h5, h6⟩
    simp only [fourLabels] at h5 h6
    split_ifs at h5 h6 with h7
    · omega
    · exact absurd rfl h5
  obtain ⟨_, h0⟩ := h0
  obtain ⟨_, h1⟩ := h1
  obtain ⟨_, h2⟩ := h2
  obtain ⟨_, h3⟩ := h3
  have := cell _ _ h0
  have := cell _ _ h1
  have := cell _ _ h2
  have := cell _ _ h3
  obtain rfl : r0 = 1 := by omega
  obtain rfl : r1 = 1 := by omega
  obtain rfl : c0 = 2 := by omega
  obtain rfl : c1 = 3 := by omega
  exact ⟨_, _, _, he, by decide, by decide, by decide, by decide, by decide⟩

example : ∃ (a : Pict × LabelPict) (x' : Pict) (y' : LabelPict) (b : Bool), shortenOne 2 fourPict fourLabels = .ok (a, x', y') ∧
    isSnakePresent x' 4 = .ok b ∧ (b = true ↔ ∃ p, IsSnake 4 7 fourPict.get 4 p ∧
      ∀ k < 4, fourLabels.get (p k).1.toNat (p k).2.toNat ≤ 2) :=
  C172_present 2 fourPict fourLabels rfl rfl four_labelled four_stays 4 (by omega) (by decide)

/-- The same labels in an image without the first row. -/
def topLabels : LabelPict := ⟨4, 7, fun i j => if i = 0 ∧ 2 ≤ j ∧ j ≤ 5 then (j : ℤ) - 1 else 0⟩

/-- A snake in the first row is lost. -/
example : ∃ (a : Pict × LabelPict) (x' : Pict) (y' : LabelPict), shortenOne 2 ⟨4, 7, fun _ _ _ => 0⟩ topLabels = .ok (a, x', y') ∧ y'.h = 0 := by
  obtain ⟨a, x', y', h1, -, -, h2⟩ := C172_violated_first_row 2 ⟨4, 7, fun _ _ _ => 0⟩ topLabels rfl rfl
    ⟨2, by decide, by decide, by decide, by decide⟩
  refine ⟨a, x', y', h1, h2 ?_⟩
  rintro i j ⟨_, _, h5, _⟩
  simp only [topLabels] at h5 ⊢
  split_ifs at h5 with h7
  · omega
  · exact absurd rfl h5

/-- Without a cell that stays. -/
example : shortenOne 0 fourPict fourLabels = .error .valueError ∧
    shortenOne 2 fourPict ⟨4, 6, fun _ _ => 0⟩ = .error .assertionError := by
  refine ⟨C172_nothing 0 _ _ rfl rfl (by decide) (by decide) ?_, C172_sizes 2 _ _ (.inr (by decide))⟩
  rintro ⟨i, j, _, _, h5, h6⟩
  simp only [fourLabels] at h5 h6
  split_ifs at h5 h6 with h7
  · omega
  · exact absurd rfl h5

end Verif.Props
