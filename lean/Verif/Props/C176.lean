import Verif.Lemmas.DrawSnake
import Verif.Props.C163

/-!
# C176: generated snakes
-/

namespace Verif.Props

open Verif.Common Verif.Spec Verif.Snakes Verif.Lemmas

/-- An image with labels shows the snake with the given cells, moved to the image; the first cell is the middle of the board. -/
def ShowsCells (ncell : ℕ) (img : Pict × LabelPict) (sig : List (ℤ × ℤ)) : Prop :=
  sig.length = ncell ∧ sig.getD 0 0 = (1 + (ncell : ℤ), 1 + (ncell : ℤ)) ∧ img.2.h = img.1.h ∧ img.2.w = img.1.w ∧
    ∃ o, Portrait ncell img.1.h img.1.w (asHot false img.1).get img.2.get fun k => sig.getD k 0 - o

/-- All orders of the directions are permutations. -/
def Shuffled (attempts : List (ℕ → List ℕ)) : Prop := ∀ order ∈ attempts, ∀ k, (order k).Perm [0, 1, 2, 3]

theorem empty_inside (ncell : ℕ) : BoardInside (emptyBoard ncell) ncell (1 + (ncell : ℤ), 1 + (ncell : ℤ)) := by
  unfold BoardInside emptyBoard boardSize
  push_cast
  refine ⟨by omega, by omega, by omega, by omega⟩

theorem empty_marks (ncell : ℕ) : BoardMarks (emptyBoard ncell) [] := by
  intro p _ _
  simp [emptyBoard]

theorem first_attempt (ncell : ℕ) (order : ℕ → List ℕ) (ho : ∀ k, (order k).Perm [0, 1, 2, 3]) :
    (∃ out q, attemptLoop order ncell 0 (emptyBoard ncell) (1 + (ncell : ℤ)) (1 + (ncell : ℤ)) [] = .ok (some out) ∧
      out.length = 0 + ncell ∧ Walk (1 + (ncell : ℤ), 1 + (ncell : ℤ)) out q ∧ SelfAvoiding out q) ∨
    (attemptLoop order ncell 0 (emptyBoard ncell) (1 + (ncell : ℤ)) (1 + (ncell : ℤ)) [] = .ok none ∧ ∃ out q, 0 ≤ out.length ∧
      out.length < 0 + ncell ∧ Walk (1 + (ncell : ℤ), 1 + (ncell : ℤ)) out q ∧
      SelfAvoiding out q ∧ ∀ d < 4, q + increment d ∈ out.map Prod.fst) :=
  attempt_spec (1 + (ncell : ℤ), 1 + (ncell : ℤ)) order ho ncell 0 (emptyBoard ncell) (1 + (ncell : ℤ), 1 + (ncell : ℤ)) []
    (empty_inside ncell) (empty_marks ncell) rfl (by simp [SelfAvoiding])

theorem draw_cells {ncell : ℕ} (hn : 1 ≤ ncell) {q : ℤ × ℤ} {cells : List ((ℤ × ℤ) × ℕ)} (hl : cells.length = ncell)
    (hw : Walk (1 + (ncell : ℤ), 1 + (ncell : ℤ)) cells q) (hs : SelfAvoiding cells q) :
    ∃ img, drawSnake cells = .ok img ∧ ShowsCells ncell img (cells.map Prod.fst) := by
  have hne : cells ≠ [] := by rintro rfl; simp at hl; omega
  obtain ⟨x, y, o, h1, h2, h3, h4⟩ := draw_spec hne hw hs
  refine ⟨(x, y), h1, by simpa using hl, ?_, h2, h3, o, ?_⟩
  · have := walk_head hw
    rw [getD_front (by omega)] at this
    rw [List.getD_eq_getElem _ _ (by simp; omega), List.getElem_map]
    exact this
  · rw [hl] at h4
    exact h4

theorem genOne_spec {ncell : ℕ} (hn : 1 ≤ ncell) (known : List (List (ℤ × ℤ))) : ∀ attempts : List (ℕ → List ℕ), Shuffled attempts →
    genOne ncell known attempts = .ok none ∨
    ∃ img sig, genOne ncell known attempts = .ok (some (img, sig :: known)) ∧ sig ∉ known ∧ ShowsCells ncell img sig := by
  intro attempts
  induction attempts with
  | nil => intro _; exact .inl rfl
  | cons order rest ih =>
    intro hsh
    have ih := ih fun o ho => hsh o (List.mem_cons_of_mem _ ho)
    unfold genOne
    rcases first_attempt ncell order (hsh order (List.mem_cons_self ..)) with ⟨out, q, g1, g2, g3, g4⟩ | ⟨g1, -⟩
    · rw [g1]
      simp only [bind, Except.bind]
      by_cases hk : signature out ∈ known
      · rw [if_pos hk]; exact ih
      · rw [if_neg hk]
        obtain ⟨img, h1, h2⟩ := draw_cells hn (by simpa using g2) g3 g4
        rw [h1]
        exact .inr ⟨img, _, rfl, hk, h2⟩
    · rw [g1]
      exact ih

theorem genSnakes_spec {ncell : ℕ} (hn : 1 ≤ ncell) : ∀ (runs : List (List (ℕ → List ℕ))) (known : List (List (ℤ × ℤ))),
    (∀ a ∈ runs, Shuffled a) → genSnakes ncell runs known = .ok none ∨
    ∃ imgs sigs, genSnakes ncell runs known = .ok (some (imgs, sigs.reverse ++ known)) ∧ imgs.length = runs.length ∧
      List.Forall₂ (ShowsCells ncell) imgs sigs ∧ sigs.Nodup ∧ ∀ s ∈ sigs, s ∉ known := by
  intro runs
  induction runs with
  | nil => intro known _; exact .inr ⟨[], [], rfl, rfl, .nil, List.nodup_nil, by simp⟩
  | cons a runs ih =>
    intro known hsh
    unfold genSnakes
    rcases genOne_spec hn known a (hsh a (List.mem_cons_self ..)) with h | ⟨img, sig, h, h1, h2⟩
    · rw [h]; exact .inl rfl
    · rw [h]
      simp only [bind, Except.bind]
      rcases ih (sig :: known) fun b hb => hsh b (List.mem_cons_of_mem _ hb) with g | ⟨imgs, sigs, g, g0, g1, g2, g3⟩
      · rw [g]; exact .inl rfl
      · rw [g]
        refine .inr ⟨img :: imgs, sig :: sigs, by simp, by simp [g0], .cons h2 g1, ?_, ?_⟩
        · exact List.nodup_cons.mpr ⟨fun h => g3 sig h (List.mem_cons_self ..), g2⟩
        · intro s hs
          rcases List.mem_cons.mp hs with rfl | hs
          · exact h1
          · exact fun h => g3 s hs (List.mem_cons_of_mem _ h)

/-- **C176, images.** `genSnakes` never raises. Every image shows one snake of `ncell` cells and nothing else, in a frame of background of
one pixel; the cells are numbered by the labels. The cells of all snakes, with the first in the middle of the board, are added to the
dictionary; no snake is one of the dictionary, nor one of the others. -/
theorem C176_images (ncell : ℕ) (hn : 1 ≤ ncell) (runs : List (List (ℕ → List ℕ))) (known : List (List (ℤ × ℤ)))
    (hr : ∀ a ∈ runs, ∀ order ∈ a, ∀ k, (order k).Perm [0, 1, 2, 3]) :
    genSnakes ncell runs known = .ok none ∨
    ∃ imgs sigs, genSnakes ncell runs known = .ok (some (imgs, sigs.reverse ++ known)) ∧ imgs.length = runs.length ∧
      sigs.Nodup ∧ (∀ s ∈ sigs, s ∉ known) ∧
      List.Forall₂ (fun img sig => sig.length = ncell ∧ sig.getD 0 0 = (1 + (ncell : ℤ), 1 + (ncell : ℤ)) ∧
        img.2.h = img.1.h ∧ img.2.w = img.1.w ∧
        ∃ o, Portrait ncell img.1.h img.1.w (asHot false img.1).get img.2.get fun k => sig.getD k 0 - o) imgs sigs := by
  rcases genSnakes_spec hn runs known hr with h | ⟨imgs, sigs, h1, h2, h3, h4, h5⟩
  · exact .inl h
  · exact .inr ⟨imgs, sigs, h1, h2, h4, h5, h3⟩

theorem same_cells {ncell : ℕ} (hn : 1 ≤ ncell) (h255 : ncell ≤ 255) {a b : Pict × LabelPict} {s t : List (ℤ × ℤ)}
    (ha : ShowsCells ncell a s) (hb : ShowsCells ncell b t) (hh : a.2.h = b.2.h) (hw : a.2.w = b.2.w)
    (he : ∀ i < a.2.h, ∀ j < a.2.w, a.2.get i j = b.2.get i j) : s = t := by
  obtain ⟨a1, a2, a3, a4, o, ap⟩ := ha
  obtain ⟨b1, b2, b3, b4, o', bp⟩ := hb
  have key : ∀ k < ncell, s.getD k 0 - o = t.getD k 0 - o' := by
    intro k hk
    obtain ⟨c, -, ⟨c1, c2, c3, c4, -, -⟩, -⟩ := ap.snake.1 k hk
    have hl := ap.label k hk
    simp only at hl c1 c2 c3 c4
    rw [he _ (by omega) _ (by omega)] at hl
    by_contra hne
    have hex : ∃ k' < ncell, t.getD k' 0 - o' = (((s.getD k 0 - o).1.toNat : ℤ), ((s.getD k 0 - o).2.toNat : ℤ)) := by
      by_contra hcon
      push Not at hcon
      have := bp.blank (s.getD k 0 - o).1.toNat (by omega) (s.getD k 0 - o).2.toNat (by omega) hcon
      rw [this] at hl
      omega
    obtain ⟨k', hk', hke⟩ := hex
    have hl' : b.2.get (t.getD k' 0 - o').1.toNat (t.getD k' 0 - o').2.toNat = ((k' + 1) % 256 : ℕ) := bp.label k' hk'
    rw [hke] at hl'
    simp only [Int.toNat_natCast] at hl'
    rw [hl] at hl'
    have : k = k' := by omega
    subst this
    apply hne
    rw [hke]
    exact Prod.ext (by simp only; omega) (by simp only; omega)
  have ho : o = o' := by
    have := key 0 (by omega)
    rw [a2, b2] at this
    exact sub_right_injective this
  subst ho
  refine List.ext_getElem (by omega) fun k h1 h2 => ?_
  have := sub_left_injective (key k (by omega))
  rw [List.getD_eq_getElem _ _ h1, List.getD_eq_getElem _ _ h2] at this
  exact this

theorem pairwise_of_sigs {ncell : ℕ} (hn : 1 ≤ ncell) (h255 : ncell ≤ 255) {imgs : List (Pict × LabelPict)} {sigs : List (List (ℤ × ℤ))}
    (h : List.Forall₂ (ShowsCells ncell) imgs sigs) (hs : sigs.Nodup) :
    imgs.Pairwise fun a b => ¬ (a.2.h = b.2.h ∧ a.2.w = b.2.w ∧ ∀ i < a.2.h, ∀ j < a.2.w, a.2.get i j = b.2.get i j) := by
  induction h with
  | nil => exact .nil
  | cons h1 h2 ih =>
    rw [List.nodup_cons] at hs
    refine List.pairwise_cons.mpr ⟨?_, ih hs.2⟩
    rintro b hb ⟨e1, e2, e3⟩
    obtain ⟨i, hi, rfl⟩ := List.mem_iff_getElem.mp hb
    have hi' := h2.length_eq ▸ hi
    have := List.forall₂_iff_get.mp h2
    have hg := this.2 i hi hi'
    have heq := same_cells hn h255 h1 hg e1 e2 e3
    exact hs.1 (heq ▸ List.getElem_mem hi')

/-- **C176, different.** The labels of any two images of a call differ, up to 255 cells. -/
theorem C176_different (ncell : ℕ) (hn : 1 ≤ ncell) (h255 : ncell ≤ 255) (runs : List (List (ℕ → List ℕ))) (known : List (List (ℤ × ℤ)))
    (hr : ∀ a ∈ runs, ∀ order ∈ a, ∀ k, (order k).Perm [0, 1, 2, 3]) (imgs : List (Pict × LabelPict)) (known' : List (List (ℤ × ℤ)))
    (h : genSnakes ncell runs known = .ok (some (imgs, known'))) :
    imgs.Pairwise fun a b => ¬ (a.2.h = b.2.h ∧ a.2.w = b.2.w ∧ ∀ i < a.2.h, ∀ j < a.2.w, a.2.get i j = b.2.get i j) := by
  rcases genSnakes_spec hn runs known hr with g | ⟨imgs', sigs, g1, -, g3, g4, -⟩
  · rw [h] at g; exact absurd g (by simp)
  · rw [h] at g1
    simp only [Except.ok.injEq, Option.some.injEq, Prod.mk.injEq] at g1
    rw [g1.1]
    exact pairwise_of_sigs hn h255 g3 g4

theorem portrait_count {n : ℕ} {x : Pict} {y : ℕ → ℕ → ℤ} {p : ℕ → ℤ × ℤ} (h : Portrait n x.h x.w x.get y p) :
    (snakeCells x).length = n := by
  have hperm : (snakeCells x).Perm ((List.range n).map fun k => ((p k).1.toNat, (p k).2.toNat)) := by
    rw [List.perm_ext_iff_of_nodup]
    · intro q
      unfold snakeCells
      rw [List.mem_filter]
      have hprod : q ∈ (List.range x.h).product (List.range x.w) ↔ q.1 < x.h ∧ q.2 < x.w := by
        have := List.mem_product (l₁ := List.range x.h) (l₂ := List.range x.w) (a := q.1) (b := q.2)
        rw [List.mem_range, List.mem_range] at this
        exact this
      rw [hprod, List.mem_map]
      constructor
      · rintro ⟨⟨h1, h2⟩, h3⟩
        by_contra hcon
        refine absurd (h.rest q.1 h1 q.2 h2 fun k hk he => hcon ⟨k, List.mem_range.mpr hk, ?_⟩) (by simpa using h3)
        rw [he]
        simp
      · rintro ⟨k, hk, rfl⟩
        obtain ⟨c, hc, ⟨c1, c2, c3, c4, c5, c6⟩, -⟩ := h.snake.1 k (List.mem_range.mp hk)
        refine ⟨⟨by simp only; omega, by simp only; omega⟩, ?_⟩
        obtain ⟨c', hc', hu⟩ := h.one (p k).1.toNat (by omega) (p k).2.toNat (by omega)
        have e1 := (hu c c5).mp c6
        simp only [ne_eq, decide_not, Bool.not_eq_eq_eq_not, Bool.not_true, decide_eq_false_iff_not]
        intro h3
        have e2 := (hu 3 (by omega)).mp h3
        omega
    · unfold snakeCells
      exact (List.nodup_range.product List.nodup_range).filter _
    · refine List.Nodup.map_on ?_ List.nodup_range
      intro a ha b hb he
      have ha := List.mem_range.mp ha
      have hb := List.mem_range.mp hb
      obtain ⟨_, -, ⟨a1, _, a2, _, _, _⟩, -⟩ := h.snake.1 a ha
      obtain ⟨_, -, ⟨b1, _, b2, _, _, _⟩, -⟩ := h.snake.1 b hb
      refine h.snake.2 a ha b hb (Prod.ext ?_ ?_)
      · have := congrArg Prod.fst he; simp only at this; omega
      · have := congrArg Prod.snd he; simp only at this; omega
  rw [hperm.length_eq]
  simp

/-- **C176, present.** Every image is one that `augmentWithNoSnakeImages` expects, with `ncell` cells, and `isSnakePresent` finds the
snake. -/
theorem C176_present (ncell : ℕ) (hn : 1 ≤ ncell) (runs : List (List (ℕ → List ℕ))) (known : List (List (ℤ × ℤ)))
    (hr : ∀ a ∈ runs, ∀ order ∈ a, ∀ k, (order k).Perm [0, 1, 2, 3]) (imgs : List (Pict × LabelPict)) (known' : List (List (ℤ × ℤ)))
    (h : genSnakes ncell runs known = .ok (some (imgs, known'))) :
    ∀ img ∈ imgs, SnakeImage false ncell img.1 ∧ isSnakePresent (asHot false img.1) ncell = .ok true := by
  rcases genSnakes_spec hn runs known hr with g | ⟨imgs', sigs, g1, -, g3, -, -⟩
  · rw [h] at g; exact absurd g (by simp)
  · rw [h] at g1
    simp only [Except.ok.injEq, Option.some.injEq, Prod.mk.injEq] at g1
    rw [g1.1]
    intro img hm
    obtain ⟨i, hi, rfl⟩ := List.mem_iff_getElem.mp hm
    have hg := (List.forall₂_iff_get.mp g3).2 i hi (g3.length_eq ▸ hi)
    obtain ⟨-, -, -, -, o, hp⟩ := hg
    have hp' : Portrait ncell (asHot false imgs'[i].1).h (asHot false imgs'[i].1).w (asHot false imgs'[i].1).get imgs'[i].2.get _ := hp
    refine ⟨⟨hp.one, hp.border, portrait_count hp'⟩, ?_⟩
    obtain ⟨b, h1, h2⟩ := C163_present (asHot false imgs'[i].1) hp'.one hp'.border ncell hn
    rw [h1, h2.mpr (.inl ⟨_, hp'.snake⟩)]

/-- **C176, stuck.** An attempt is given up only if all four neighbours of the last place have been visited. -/
theorem C176_stuck (ncell : ℕ) (order : ℕ → List ℕ) (ho : ∀ k, (order k).Perm [0, 1, 2, 3])
    (h : attemptLoop order ncell 0 (emptyBoard ncell) (1 + ncell) (1 + ncell) [] = .ok none) :
    ∃ cells q, cells.length < ncell ∧ Walk (1 + (ncell : ℤ), 1 + (ncell : ℤ)) cells q ∧ SelfAvoiding cells q ∧
      (q.1 - 1, q.2) ∈ cells.map Prod.fst ∧ (q.1 + 1, q.2) ∈ cells.map Prod.fst ∧
      (q.1, q.2 - 1) ∈ cells.map Prod.fst ∧ (q.1, q.2 + 1) ∈ cells.map Prod.fst := by
  rcases first_attempt ncell order ho with ⟨out, q, g1, -⟩ | ⟨-, out, q, -, g2, g3, g4, g5⟩
  · rw [h] at g1
    exact absurd g1 (by simp)
  · refine ⟨out, q, by simpa using g2, g3, g4, ?_, ?_, ?_, ?_⟩
    · have := g5 0 (by omega)
      rwa [show q + increment 0 = (q.1 - 1, q.2) from Prod.ext (by simp [increment]; ring) (by simp [increment])] at this
    · have := g5 2 (by omega)
      rwa [show q + increment 2 = (q.1 + 1, q.2) from Prod.ext (by simp [increment]) (by simp [increment])] at this
    · have := g5 3 (by omega)
      rwa [show q + increment 3 = (q.1, q.2 - 1) from Prod.ext (by simp [increment]) (by simp [increment]; ring)] at this
    · have := g5 1 (by omega)
      rwa [show q + increment 1 = (q.1, q.2 + 1) from Prod.ext (by simp [increment]) (by simp [increment])] at this

/-- **C176, every snake.** Every snake that is not in the dictionary can be drawn: for some order of the directions the next attempt
returns it. -/
theorem C176_every (ncell : ℕ) (hn : 1 ≤ ncell) (cells : List ((ℤ × ℤ) × ℕ)) (q : ℤ × ℤ) (hl : cells.length = ncell)
    (hw : Walk (1 + (ncell : ℤ), 1 + (ncell : ℤ)) cells q) (hs : SelfAvoiding cells q) (known : List (List (ℤ × ℤ)))
    (hk : cells.map Prod.fst ∉ known) :
    ∃ order : ℕ → List ℕ, (∀ k, (order k).Perm [0, 1, 2, 3]) ∧ ∀ rest, ∃ img o,
      genOne ncell known (order :: rest) = .ok (some (img, cells.map Prod.fst :: known)) ∧
      Portrait ncell img.1.h img.1.w (asHot false img.1).get img.2.get fun k => (cells.map Prod.fst).getD k 0 - o := by
  refine ⟨fun k => orderFrom ((cells.map Prod.snd).getD k 0), fun k => ?_, fun rest => ?_⟩
  · simp only
    by_cases h : k < cells.length
    · rw [List.getD_eq_getElem _ _ (by simpa using h), List.getElem_map]
      exact orderFrom_perm (walk_step hw k h).1
    · rw [List.getD_eq_default _ _ (by simpa using h)]
      exact orderFrom_perm (by omega)
  · have h1 := attempt_reach (fun k => orderFrom ((cells.map Prod.snd).getD k 0)) q cells 0
      (emptyBoard ncell) (1 + (ncell : ℤ), 1 + (ncell : ℤ)) [] (by rw [hl]; exact empty_inside ncell) (empty_marks ncell) hw hs
      (fun a ha => by rw [Nat.zero_add, List.getD_eq_getElem _ _ (by simpa using ha), List.getElem_map])
    rw [hl] at h1
    obtain ⟨img, h2, h3⟩ := draw_cells hn hl hw hs
    obtain ⟨-, -, -, -, o, h4⟩ := h3
    refine ⟨img, o, ?_, h4⟩
    unfold genOne
    simp only at h1
    rw [h1]
    simp only [bind, Except.bind, List.nil_append]
    have hk' : signature cells ∉ known := hk
    rw [if_neg hk', h2]
    rfl

/-- **C176, eight bits.** From 256 cells on the label of cell 256 is that of the background. -/
theorem C176_violated_labels (ncell : ℕ) (hn : 256 ≤ ncell) (runs : List (List (ℕ → List ℕ))) (known : List (List (ℤ × ℤ)))
    (hr : ∀ a ∈ runs, ∀ order ∈ a, ∀ k, (order k).Perm [0, 1, 2, 3]) (imgs : List (Pict × LabelPict)) (known' : List (List (ℤ × ℤ)))
    (h : genSnakes ncell runs known = .ok (some (imgs, known'))) :
    ∀ img ∈ imgs, ∃ i < img.1.h, ∃ j < img.1.w, (asHot false img.1).get i j 3 ≠ 1 ∧ img.2.get i j = 0 := by
  rcases genSnakes_spec (ncell := ncell) (by omega) runs known hr with g | ⟨imgs', sigs, g1, -, g3, -, -⟩
  · rw [h] at g; exact absurd g (by simp)
  · rw [h] at g1
    simp only [Except.ok.injEq, Option.some.injEq, Prod.mk.injEq] at g1
    rw [g1.1]
    intro img hm
    obtain ⟨i, hi, rfl⟩ := List.mem_iff_getElem.mp hm
    obtain ⟨-, -, -, -, o, hp⟩ := (List.forall₂_iff_get.mp g3).2 i hi (g3.length_eq ▸ hi)
    obtain ⟨p, hp⟩ : ∃ p, Portrait ncell imgs'[i].1.h imgs'[i].1.w (asHot false imgs'[i].1).get imgs'[i].2.get p := ⟨_, hp⟩
    obtain ⟨c, hc, ⟨c1, c2, c3, c4, c5, c6⟩, -⟩ := hp.snake.1 255 (by omega)
    refine ⟨(p 255).1.toNat, by omega, (p 255).2.toNat, by omega, ?_, hp.label 255 (by omega)⟩
    obtain ⟨c', hc', hu⟩ := hp.one (p 255).1.toNat (by omega) (p 255).2.toNat (by omega)
    have e1 := (hu c c5).mp c6
    intro h3
    have e2 := (hu 3 (by omega)).mp h3
    omega

/-- **C176, endless.** There is one snake of one cell only: the loop that looks for a second one never ends. -/
theorem C176_violated_endless (a b : List (ℕ → List ℕ)) (rest : List (List (ℕ → List ℕ))) (known : List (List (ℤ × ℤ)))
    (hr : ∀ c ∈ a :: b :: rest, ∀ order ∈ c, ∀ k, (order k).Perm [0, 1, 2, 3]) : genSnakes 1 (a :: b :: rest) known = .ok none := by
  rcases genSnakes_spec le_rfl (a :: b :: rest) known hr with g | ⟨imgs, sigs, -, g2, g3, g4, -⟩
  · exact g
  · exfalso
    have hlen : sigs.length = rest.length + 2 := by rw [← g3.length_eq, g2]; simp
    match sigs, imgs, hlen, g3, g4 with
    | s :: t :: l, i :: j :: k, _, .cons ⟨h1, h2, _⟩ (.cons ⟨h3, h4, _⟩ _), g4 =>
      have : s = t := by
        match s, t, h1, h3 with
        | [u], [v], _, _ =>
          simp only [List.getD_cons_zero] at h2 h4
          rw [h2, h4]
      rw [this] at g4
      exact (List.nodup_cons.mp g4).1 (List.mem_cons_self ..)

/-- **C176, no cells.** Without cells there is nothing to draw and the call raises. -/
theorem C176_empty (order : ℕ → List ℕ) (a : List (ℕ → List ℕ)) (rest : List (List (ℕ → List ℕ))) (known : List (List (ℤ × ℤ)))
    (hk : [] ∉ known) : genSnakes 0 ((order :: a) :: rest) known = .error .valueError := by
  unfold genSnakes genOne attemptLoop
  simp only [bind, Except.bind]
  have : signature [] ∉ known := hk
  rw [if_neg this]
  rfl

/-- a snake of two cells: up, and then right. -/
def sampleOrder : ℕ → List ℕ := fun k => if k = 0 then [0, 1, 2, 3] else [2, 1, 0, 3]

example : ∀ a ∈ [[sampleOrder]], ∀ order ∈ a, ∀ k, (order k).Perm [0, 1, 2, 3] := by
  intro a ha order ho k
  simp only [List.mem_singleton] at ha
  subst ha
  simp only [List.mem_singleton] at ho
  subst ho
  unfold sampleOrder
  split <;> decide

example : (match genSnakes 2 [[sampleOrder]] [] with
    | .ok (some ([i], [[a, b]])) => i.1.h = 4 ∧ i.1.w = 3 ∧ i.2.get 2 1 = 1 ∧ i.2.get 1 1 = 2 ∧ i.2.get 0 1 = 0 ∧ a = (3, 3) ∧ b = (2, 3)
    | _ => False) := by
  refine ⟨?_, ?_, ?_, ?_, ?_, ?_, ?_⟩ <;> decide +kernel

example : [] ∉ ([] : List (List (ℤ × ℤ))) := by simp

example : Walk (1 + ((2 : ℕ) : ℤ), 1 + ((2 : ℕ) : ℤ)) [((3, 3), 0), ((2, 3), 1)] (2, 4) ∧ SelfAvoiding [((3, 3), 0), ((2, 3), 1)] (2, 4) := by
  unfold SelfAvoiding
  refine ⟨⟨by decide, by decide, by decide, by decide, ?_⟩, by decide⟩
  change (_ : ℤ × ℤ) = _
  decide

end Verif.Props
