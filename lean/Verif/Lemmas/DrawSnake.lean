import Verif.Lemmas.GenSnakes
import Mathlib.Tactic.NormNum

/-!
# Lemmas about the drawing of snakes
-/

namespace Verif.Lemmas

open Verif.Common Verif.Spec Verif.Snakes

theorem foldlInt_min : ∀ (l : List ℤ) (a : ℤ), l.foldl min a ∈ a :: l ∧ ∀ b ∈ a :: l, l.foldl min a ≤ b := by
  intro l
  induction l with
  | nil => intro a; simp
  | cons c l ih =>
    intro a
    obtain ⟨h1, h2⟩ := ih (min a c)
    refine ⟨?_, ?_⟩
    · rcases List.mem_cons.mp h1 with h | h
      · rw [List.foldl_cons, h]
        rcases min_choice a c with h' | h' <;> rw [h'] <;> simp
      · exact List.mem_cons_of_mem _ (List.mem_cons_of_mem _ h)
    · have h3 : l.foldl min (min a c) ≤ min a c := h2 _ (List.mem_cons_self ..)
      intro b hb
      rw [List.foldl_cons]
      rcases List.mem_cons.mp hb with rfl | hb
      · exact h3.trans (min_le_left _ _)
      rcases List.mem_cons.mp hb with rfl | hb
      · exact h3.trans (min_le_right _ _)
      · exact h2 b (List.mem_cons_of_mem _ hb)

theorem foldlInt_max : ∀ (l : List ℤ) (a : ℤ), l.foldl max a ∈ a :: l ∧ ∀ b ∈ a :: l, b ≤ l.foldl max a := by
  intro l
  induction l with
  | nil => intro a; simp
  | cons c l ih =>
    intro a
    obtain ⟨h1, h2⟩ := ih (max a c)
    refine ⟨?_, ?_⟩
    · rcases List.mem_cons.mp h1 with h | h
      · rw [List.foldl_cons, h]
        rcases max_choice a c with h' | h' <;> rw [h'] <;> simp
      · exact List.mem_cons_of_mem _ (List.mem_cons_of_mem _ h)
    · have h3 : max a c ≤ l.foldl max (max a c) := h2 _ (List.mem_cons_self ..)
      intro b hb
      rw [List.foldl_cons]
      rcases List.mem_cons.mp hb with rfl | hb
      · exact (le_max_left _ _).trans h3
      rcases List.mem_cons.mp hb with rfl | hb
      · exact (le_max_right _ _).trans h3
      · exact h2 b (List.mem_cons_of_mem _ hb)

theorem minCoordinate_spec {l : List ℤ} (h : l ≠ []) : ∃ m, minCoordinate l = .ok m ∧ m ∈ l ∧ ∀ a ∈ l, m ≤ a := by
  cases l with
  | nil => exact absurd rfl h
  | cons a l => exact ⟨_, rfl, foldlInt_min l a⟩

theorem maxCoordinate_spec {l : List ℤ} (h : l ≠ []) : ∃ m, maxCoordinate l = .ok m ∧ m ∈ l ∧ ∀ a ∈ l, a ≤ m := by
  cases l with
  | nil => exact absurd rfl h
  | cons a l => exact ⟨_, rfl, foldlInt_max l a⟩

theorem writeAll_other {V : Type} : ∀ (l : List ((ℕ × ℕ) × V)) (f : ℕ × ℕ → V) (p : ℕ × ℕ), p ∉ l.map Prod.fst → writeAll l f p = f p := by
  intro l
  induction l with
  | nil => intro f p _; rfl
  | cons s l ih =>
    intro f p hp
    simp only [List.map_cons, List.mem_cons, not_or] at hp
    change writeAll l _ p = _
    rw [ih _ p hp.2]
    simp only
    rw [if_neg hp.1]

theorem writeAll_mem {V : Type} : ∀ (l : List ((ℕ × ℕ) × V)) (f : ℕ × ℕ → V) (p : ℕ × ℕ) (v : V), (l.map Prod.fst).Nodup → (p, v) ∈ l →
    writeAll l f p = v := by
  intro l
  induction l with
  | nil => intro f p v _ h; exact absurd h (by simp)
  | cons s l ih =>
    intro f p v hn hm
    rw [List.map_cons, List.nodup_cons] at hn
    change writeAll l _ p = _
    rcases List.mem_cons.mp hm with h | h
    · subst h
      rw [writeAll_other l _ p hn.1]
      simp
    · exact ih _ p v hn.2 h

/-- the colour that stands for a direction. -/
def dirCode (d : ℕ) : ℕ := [0, 2, 1, 4].getD d 3

theorem dirCode_spec {d : ℕ} (hd : d < 4) : dirCode d < 5 ∧ dirCode d ≠ 3 ∧ pointsTo (dirCode d) = increment d := by
  interval_cases d <;> decide

theorem hot_direction {x : Pict} {i j d : ℕ} (hd : d < 4) (h : ∀ c, x.get i j c = directionColour d c) {c : ℕ} (hc : c < 5) :
    (asHot false x).get i j c = 1 ↔ c = dirCode d := by
  change (if colourClasses[c]? = some (colourNumber x i j) then (1 : ℚ) else 0) = 1 ↔ _
  unfold colourNumber
  rw [h, h, h]
  interval_cases d <;> interval_cases c <;> norm_num [colourClasses, directionColour, dirCode]

theorem hot_background {x : Pict} {i j : ℕ} (h : ∀ c, x.get i j c = backgroundColour c) {c : ℕ} (hc : c < 5) :
    (asHot false x).get i j c = 1 ↔ c = 3 := by
  change (if colourClasses[c]? = some (colourNumber x i j) then (1 : ℚ) else 0) = 1 ↔ _
  unfold colourNumber
  rw [h, h, h]
  interval_cases c <;> norm_num [colourClasses, backgroundColour]

theorem walk_head : ∀ {l : List ((ℤ × ℤ) × ℕ)} {p q : ℤ × ℤ}, Walk p l q → (l.map Prod.fst ++ [q]).getD 0 0 = p := by
  intro l p q h
  cases l with
  | nil => have h : p = q := h; simp [h]
  | cons s l => exact h.1

theorem walk_step : ∀ {l : List ((ℤ × ℤ) × ℕ)} {p q : ℤ × ℤ}, Walk p l q → ∀ k, (h : k < l.length) → (l[k]).2 < 4 ∧
    (l.map Prod.fst ++ [q]).getD (k + 1) 0 = (l[k]).1 + increment (l[k]).2 := by
  intro l
  induction l with
  | nil => intro p q _ k hk; exact absurd hk (by simp)
  | cons s l ih =>
    intro p q h k hk
    obtain ⟨h1, h2, h3⟩ := h
    cases k with
    | zero =>
      refine ⟨h2, ?_⟩
      change (l.map Prod.fst ++ [q]).getD 0 0 = s.1 + _
      rw [walk_head h3, h1]
      rfl
    | succ k => exact ih h3 k (by simpa using hk)

theorem getD_front {l : List ((ℤ × ℤ) × ℕ)} {q : ℤ × ℤ} {k : ℕ} (h : k < l.length) : (l.map Prod.fst ++ [q]).getD k 0 = (l[k]).1 := by
  rw [List.getD_eq_getElem _ _ (by simp; omega), List.getElem_append_left (by simpa using h), List.getElem_map]

/-- the image drawn for a walk. -/
theorem draw_spec {s q : ℤ × ℤ} {cells : List ((ℤ × ℤ) × ℕ)} (hne : cells ≠ []) (hw : Walk s cells q) (hs : SelfAvoiding cells q) :
    ∃ x y o, drawSnake cells = .ok (x, y) ∧ y.h = x.h ∧ y.w = x.w ∧
      Portrait cells.length x.h x.w (asHot false x).get y.get fun k => (cells.map Prod.fst).getD k 0 - o := by
  obtain ⟨m1, e1, a1, b1⟩ := minCoordinate_spec (l := cells.map fun s => s.1.1) (by simpa using hne)
  obtain ⟨m2, e2, a2, b2⟩ := minCoordinate_spec (l := cells.map fun s => s.1.2) (by simpa using hne)
  obtain ⟨M1, e3, a3, b3⟩ := maxCoordinate_spec (l := cells.map fun s => s.1.1) (by simpa using hne)
  obtain ⟨M2, e4, a4, b4⟩ := maxCoordinate_spec (l := cells.map fun s => s.1.2) (by simpa using hne)
  have bd : ∀ s ∈ cells, m1 ≤ s.1.1 ∧ s.1.1 ≤ M1 ∧ m2 ≤ s.1.2 ∧ s.1.2 ≤ M2 := fun s hs =>
    ⟨b1 _ (List.mem_map.mpr ⟨s, hs, rfl⟩), b3 _ (List.mem_map.mpr ⟨s, hs, rfl⟩), b2 _ (List.mem_map.mpr ⟨s, hs, rfl⟩),
      b4 _ (List.mem_map.mpr ⟨s, hs, rfl⟩)⟩
  let place := fun p : ℤ × ℤ => ((p.1 - m1 + 1).toNat, (p.2 - m2 + 1).toNat)
  let pixels := writeAll (cells.map fun s => (place s.1, directionColour s.2)) fun _ => backgroundColour
  let labels := writeAll (cells.zipIdx.map fun s => (place s.1.1, (((s.2 + 1) % 256 : ℕ) : ℤ))) fun _ => 0
  have hdraw : drawSnake cells = .ok (⟨(M1 - m1 + 3).toNat, (M2 - m2 + 3).toNat, fun i j c => pixels (i, j) c⟩,
      ⟨(M1 - m1 + 3).toNat, (M2 - m2 + 3).toNat, fun i j => labels (i, j)⟩) := by
    unfold drawSnake
    rw [e1, e2, e3, e4]
    rfl
  have hnod : (cells.map Prod.fst).Nodup := (List.nodup_append.mp hs).1
  have hinj : ∀ a ∈ cells, ∀ b ∈ cells, place a.1 = place b.1 → a.1 = b.1 := by
    intro a ha b hb h
    have ha := bd a ha
    have hb := bd b hb
    have h1 := congrArg Prod.fst h
    have h2 := congrArg Prod.snd h
    simp only [place] at h1 h2
    exact Prod.ext (by omega) (by omega)
  have hkeys : (cells.map fun s => place s.1).Nodup := by
    have : (cells.map fun s => place s.1) = (cells.map Prod.fst).map place := by simp
    rw [this]
    refine List.Nodup.map_on ?_ hnod
    intro a ha b hb h
    obtain ⟨a', ha', rfl⟩ := List.mem_map.mp ha
    obtain ⟨b', hb', rfl⟩ := List.mem_map.mp hb
    exact hinj a' ha' b' hb' h
  have hpix : ∀ s ∈ cells, pixels (place s.1) = directionColour s.2 := fun s hs =>
    writeAll_mem _ _ _ _ (by rw [List.map_map]; exact hkeys) (List.mem_map.mpr ⟨s, hs, rfl⟩)
  have hlab : ∀ k, (h : k < cells.length) → labels (place (cells[k]).1) = ((k + 1) % 256 : ℕ) := by
    intro k h
    refine writeAll_mem _ _ _ _ ?_ (List.mem_map.mpr ⟨(cells[k], k), ?_, rfl⟩)
    · have : (cells.zipIdx.map fun s => (place s.1.1, (((s.2 + 1) % 256 : ℕ) : ℤ))).map Prod.fst = (cells.map fun s => place s.1) := by
        rw [List.map_map]
        conv_rhs => rw [← List.zipIdx_map_fst 0 cells, List.map_map]
        rfl
      rw [this]
      exact hkeys
    · rw [List.mk_mem_zipIdx_iff_getElem?]
      exact List.getElem?_eq_getElem h
  have hp : ∀ k, (h : k < cells.length) → (cells.map Prod.fst).getD k 0 - (m1 - 1, m2 - 1) =
      ((cells[k]).1.1 - m1 + 1, (cells[k]).1.2 - m2 + 1) := by
    intro k h
    rw [List.getD_eq_getElem _ _ (by simpa using h), List.getElem_map]
    exact Prod.ext (by simp; ring) (by simp; ring)
  have hplace : ∀ k, (h : k < cells.length) →
      ((((cells.map Prod.fst).getD k 0 - (m1 - 1, m2 - 1)).1).toNat, (((cells.map Prod.fst).getD k 0 - (m1 - 1, m2 - 1)).2).toNat) =
        place (cells[k]).1 := by
    intro k h
    rw [hp k h]
  have hin : ∀ k, (h : k < cells.length) → 1 ≤ ((cells.map Prod.fst).getD k 0 - (m1 - 1, m2 - 1)).1 ∧
      ((cells.map Prod.fst).getD k 0 - (m1 - 1, m2 - 1)).1 + 2 ≤ (M1 - m1 + 3).toNat ∧
      1 ≤ ((cells.map Prod.fst).getD k 0 - (m1 - 1, m2 - 1)).2 ∧
      ((cells.map Prod.fst).getD k 0 - (m1 - 1, m2 - 1)).2 + 2 ≤ (M2 - m2 + 3).toNat := by
    intro k h
    have := bd _ (List.getElem_mem h)
    rw [hp k h]
    simp only
    refine ⟨by omega, by omega, by omega, by omega⟩
  have hother : ∀ i j : ℕ, (∀ k < cells.length, (cells.map Prod.fst).getD k 0 - (m1 - 1, m2 - 1) ≠ ((i : ℤ), (j : ℤ))) →
      (i, j) ∉ cells.map fun s => place s.1 := by
    intro i j h hm
    obtain ⟨a, ha, hae⟩ := List.mem_map.mp hm
    obtain ⟨k, hk, rfl⟩ := List.mem_iff_getElem.mp ha
    apply h k hk
    rw [← hplace k hk] at hae
    have := hin k hk
    have h1 := congrArg Prod.fst hae
    have h2 := congrArg Prod.snd hae
    simp only at h1 h2
    exact Prod.ext (by simp only; omega) (by simp only; omega)
  set x : Pict := ⟨(M1 - m1 + 3).toNat, (M2 - m2 + 3).toNat, fun i j c => pixels (i, j) c⟩ with hx
  have hotcell : ∀ k, (h : k < cells.length) → ∀ c < 5,
      ((asHot false x).get ((cells.map Prod.fst).getD k 0 - (m1 - 1, m2 - 1)).1.toNat
        ((cells.map Prod.fst).getD k 0 - (m1 - 1, m2 - 1)).2.toNat c = 1 ↔ c = dirCode (cells[k]).2) := by
    intro k h c hc
    refine hot_direction (walk_step hw k h).1 (fun c => ?_) hc
    change pixels (_, _) c = _
    rw [hplace k h, hpix _ (List.getElem_mem h)]
  have hotother : ∀ i j : ℕ, (∀ k < cells.length, (cells.map Prod.fst).getD k 0 - (m1 - 1, m2 - 1) ≠ ((i : ℤ), (j : ℤ))) → ∀ c < 5,
      ((asHot false x).get i j c = 1 ↔ c = 3) := by
    intro i j h c hc
    refine hot_background (fun c => ?_) hc
    change pixels (i, j) c = _
    have : pixels (i, j) = backgroundColour := writeAll_other _ _ _ (by rw [List.map_map]; exact hother i j h)
    rw [this]
  have hcol : ∀ k, (h : k < cells.length) → HasColour x.h x.w (asHot false x).get ((cells.map Prod.fst).getD k 0 - (m1 - 1, m2 - 1))
      (dirCode (cells[k]).2) := by
    intro k h
    have := hin k h
    have hd := dirCode_spec (walk_step hw k h).1
    exact ⟨by omega, by simp only [hx]; omega, by omega, by simp only [hx]; omega, hd.1, (hotcell k h _ hd.1).mpr rfl⟩
  have hPinj : ∀ a < cells.length, ∀ b < cells.length, (cells.map Prod.fst).getD a 0 - (m1 - 1, m2 - 1) =
      (cells.map Prod.fst).getD b 0 - (m1 - 1, m2 - 1) → a = b := by
    intro a ha b hb h
    have h := sub_left_injective h
    rw [List.getD_eq_getElem _ _ (by simpa using ha), List.getD_eq_getElem _ _ (by simpa using hb)] at h
    exact (List.Nodup.getElem_inj_iff hnod).mp h
  have hlen : 0 < cells.length := List.length_pos_iff.mpr hne
  have wit : ∀ a ∈ cells, ∃ k < cells.length, (cells.map Prod.fst).getD k 0 - (m1 - 1, m2 - 1) = (a.1.1 - m1 + 1, a.1.2 - m2 + 1) := by
    intro a ha
    obtain ⟨k, hk, rfl⟩ := List.mem_iff_getElem.mp ha
    exact ⟨k, hk, hp k hk⟩
  refine ⟨x, _, (m1 - 1, m2 - 1), hdraw, rfl, rfl, ?_⟩
  constructor
  · refine ⟨fun k hk => ⟨dirCode (cells[k]).2, (dirCode_spec (walk_step hw k hk).1).2.1, hcol k hk, fun hk1 => ?_⟩, hPinj⟩
    rw [(dirCode_spec (walk_step hw k hk).1).2.2]
    simp only
    have h1 := (walk_step hw k hk).2
    rw [getD_front hk1] at h1
    rw [List.getD_eq_getElem _ _ (by simpa using hk1), List.getElem_map, h1, List.getD_eq_getElem _ _ (by simpa using hk), List.getElem_map]
    abel
  · intro i hi j hj
    by_cases h : ∀ k < cells.length, (cells.map Prod.fst).getD k 0 - (m1 - 1, m2 - 1) ≠ ((i : ℤ), (j : ℤ))
    · exact ⟨3, by omega, hotother i j h⟩
    · push Not at h
      obtain ⟨k, hk, he⟩ := h
      have := hotcell k hk
      rw [he] at this
      exact ⟨_, (dirCode_spec (walk_step hw k hk).1).1, this⟩
  · intro i hi j hj hb
    refine (hotother i j ?_ 3 (by omega)).mpr rfl
    intro k hk he
    have := hin k hk
    rw [he] at this
    simp only [hx] at this hb hi hj
    omega
  · intro i hi j hj h
    exact (hotother i j h 3 (by omega)).mpr rfl
  · obtain ⟨a, ha, rfl⟩ := List.mem_map.mp a1
    obtain ⟨k, hk, he⟩ := wit a ha
    exact ⟨k, hk, by rw [he]; simp⟩
  · obtain ⟨a, ha, rfl⟩ := List.mem_map.mp a3
    obtain ⟨k, hk, he⟩ := wit a ha
    have := bd a ha
    exact ⟨k, hk, by rw [he]; simp only [hx]; omega⟩
  · obtain ⟨a, ha, rfl⟩ := List.mem_map.mp a2
    obtain ⟨k, hk, he⟩ := wit a ha
    exact ⟨k, hk, by rw [he]; simp⟩
  · obtain ⟨a, ha, rfl⟩ := List.mem_map.mp a4
    obtain ⟨k, hk, he⟩ := wit a ha
    have := bd a ha
    exact ⟨k, hk, by rw [he]; simp only [hx]; omega⟩
  · refine ⟨_, hcol (cells.length - 1) (by omega), fun k hk he => ?_⟩
    have hk1 : cells.length - 1 < cells.length := by omega
    rw [(dirCode_spec (walk_step hw _ hk1).1).2.2] at he
    have h1 := (walk_step hw _ hk1).2
    rw [Nat.sub_add_cancel hlen, List.getD_eq_getElem _ _ (by simp)] at h1
    rw [List.getElem_append_right (by simp)] at h1
    simp only [List.length_map, Nat.sub_self, List.getElem_singleton] at h1
    rw [List.getD_eq_getElem _ _ (by simpa using hk), List.getD_eq_getElem _ _ (by simpa using hk1), List.getElem_map, List.getElem_map,
      sub_add_eq_add_sub, ← h1] at he
    have he := sub_left_injective he
    exact (List.nodup_append.mp hs).2.2 _ (List.mem_map.mpr ⟨_, List.getElem_mem hk, he⟩) q (by simp) rfl
  · intro k hk
    change labels (_, _) = _
    rw [hplace k hk]
    exact hlab k hk
  · intro i hi j hj h
    refine writeAll_other _ _ _ ?_
    have h2 := hother i j h
    have : (cells.zipIdx.map fun s => (place s.1.1, (((s.2 + 1) % 256 : ℕ) : ℤ))).map Prod.fst = (cells.map fun s => place s.1) := by
      rw [List.map_map]
      conv_rhs => rw [← List.zipIdx_map_fst 0 cells, List.map_map]
      rfl
    rw [this]
    exact h2

end Verif.Lemmas
