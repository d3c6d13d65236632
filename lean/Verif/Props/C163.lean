import Verif.Model.SnakeWalk
import Verif.Spec.SnakePaths
import Mathlib.Tactic.Ring
import Mathlib.Tactic.Linarith
import Mathlib.Tactic.IntervalCases
import Mathlib.Data.List.Nodup
import Mathlib.Algebra.Ring.Parity

/-!
# C163: which images contain a snake
-/

namespace Verif.Props

open Verif.Common Verif.Spec Verif.Snakes

/-- the colour of a cell. -/
def colOf (x : Pict) (q : ℤ × ℤ) : ℕ := ((List.range 5).find? fun c => x.get q.1.toNat q.2.toNat c = 1).getD 3

/-- the cell that a cell points to. -/
def nextCell (x : Pict) (q : ℤ × ℤ) : ℤ × ℤ := q + pointsTo (colOf x q)

/-- in the image. -/
def InPict (x : Pict) (q : ℤ × ℤ) : Prop := 0 ≤ q.1 ∧ q.1 < x.h ∧ 0 ≤ q.2 ∧ q.2 < x.w

/-- in the image and not background. -/
def Body (x : Pict) (q : ℤ × ℤ) : Prop := InPict x q ∧ colOf x q ≠ 3

theorem colOf_spec {x : Pict} (ho : OneHotPict x.h x.w x.get) {q : ℤ × ℤ} (hq : InPict x q) :
    colOf x q < 5 ∧ (∀ c < 5, x.get q.1.toNat q.2.toNat c = 1 ↔ c = colOf x q) ∧
      colourIndex x q.1 q.2 = .ok (colOf x q) := by
  obtain ⟨h1, h2, h3, h4⟩ := hq
  obtain ⟨c, hc, hu⟩ := ho q.1.toNat (by omega) q.2.toNat (by omega)
  have hf : (List.range 5).find? (fun c => decide (x.get q.1.toNat q.2.toNat c = 1)) = some c := by
    rw [List.find?_eq_some_iff_append]
    refine ⟨by simpa using (hu c hc).mpr rfl, List.range c, (List.range (4 - c)).map (· + (c + 1)), ?_, ?_⟩
    · interval_cases c <;> rfl
    · intro a ha
      have := List.mem_range.mp ha
      simp only [Bool.not_eq_eq_eq_not, Bool.not_true, decide_eq_false_iff_not]
      rw [hu a (by omega)]
      omega
  have hcol : colOf x q = c := by unfold colOf; rw [hf]; rfl
  refine ⟨by omega, fun a ha => by rw [hcol]; exact hu a ha, ?_⟩
  unfold colourIndex axisIndex
  rw [if_pos ⟨h1, h2⟩, if_pos ⟨h3, h4⟩]
  simp only [bind, Except.bind]
  rw [hf, hcol]

theorem hasColour_iff {x : Pict} (ho : OneHotPict x.h x.w x.get) {q : ℤ × ℤ} {c : ℕ} :
    HasColour x.h x.w x.get q c ↔ InPict x q ∧ c = colOf x q := by
  unfold HasColour
  constructor
  · rintro ⟨h1, h2, h3, h4, h5, h6⟩
    have hq : InPict x q := ⟨h1, h2, h3, h4⟩
    exact ⟨hq, ((colOf_spec ho hq).2.1 c h5).mp h6⟩
  · rintro ⟨hq, rfl⟩
    obtain ⟨h1, h2, h3, h4⟩ := id hq
    obtain ⟨h5, h6, -⟩ := colOf_spec ho hq
    exact ⟨h1, h2, h3, h4, h5, (h6 _ h5).mpr rfl⟩

theorem body_next {x : Pict} (ho : OneHotPict x.h x.w x.get) (hb : Bordered x.h x.w x.get) {q : ℤ × ℤ} (hq : Body x q) :
    InPict x (nextCell x q) := by
  obtain ⟨hin, hc⟩ := hq
  obtain ⟨h1, h2, h3, h4⟩ := id hin
  obtain ⟨h5, h6, -⟩ := colOf_spec ho hin
  have hnb : ¬ (q.1.toNat = 0 ∨ q.1.toNat + 1 = x.h ∨ q.2.toNat = 0 ∨ q.2.toNat + 1 = x.w) := by
    intro h
    exact hc ((h6 3 (by omega)).mp (hb _ (by omega) _ (by omega) h)).symm
  unfold nextCell InPict
  generalize colOf x q = c at *
  interval_cases c <;> simp [pointsTo] <;> omega

theorem heading_ok {c : ℕ} (h : c < 5) (h3 : c ≠ 3) : heading c = .ok (pointsTo c) := by
  interval_cases c <;> simp_all [heading, pointsTo]

theorem walk_spec {x : Pict} (ho : OneHotPict x.h x.w x.get) (hb : Bordered x.h x.w x.get) (q : ℕ → ℤ × ℤ)
    (hq : ∀ k, q (k + 1) = nextCell x (q k)) (m : ℕ) : ∀ t, Body x (q t) →
    ∃ l, walkLoop x m (q t).1 (q t).2 (colOf x (q t)) ((List.range t).map fun k => q (k + 1)) = .ok l ∧ l.length ≤ t + m ∧
      (l.length = t + m ↔ ∀ k, t < k → k ≤ t + m → Body x (q k) ∧ ∀ a, 1 ≤ a → a < k → q a ≠ q k) := by
  induction m with
  | zero =>
    intro t _
    exact ⟨_, rfl, by simp, by simp; intro k h1 h2; omega⟩
  | succ m ih =>
    intro t ht
    obtain ⟨h1, h2, h3⟩ := colOf_spec ho ht.1
    have hin := body_next ho hb ht
    rw [← hq t] at hin
    obtain ⟨g1, g2, g3⟩ := colOf_spec ho hin
    have e1 : (q t).1 + (pointsTo (colOf x (q t))).1 = (q (t + 1)).1 := by rw [hq]; rfl
    have e2 : (q t).2 + (pointsTo (colOf x (q t))).2 = (q (t + 1)).2 := by rw [hq]; rfl
    unfold walkLoop
    rw [heading_ok h1 ht.2]
    simp only [bind, Except.bind, e1, e2, g3]
    have stop : ¬ (Body x (q (t + 1)) ∧ ∀ a, 1 ≤ a → a < t + 1 → q a ≠ q (t + 1)) →
        ((((List.range t).map fun k => q (k + 1)).length ≤ t + (m + 1)) ∧
        (((List.range t).map fun k => q (k + 1)).length = t + (m + 1) ↔
          ∀ k, t < k → k ≤ t + (m + 1) → Body x (q k) ∧ ∀ a, 1 ≤ a → a < k → q a ≠ q k)) := by
      intro hs
      simp only [List.length_map, List.length_range]
      refine ⟨by omega, fun h => by omega, fun h => absurd (h (t + 1) (by omega) (by omega)) hs⟩
    by_cases hc : colOf x (q (t + 1)) = 3
    · rw [if_pos hc]
      exact ⟨_, rfl, stop fun h => h.1.2 hc⟩
    · rw [if_neg hc]
      have hmem : ((q (t + 1)).1, (q (t + 1)).2) ∈ ((List.range t).map fun k => q (k + 1)) ↔ ∃ a, 1 ≤ a ∧ a < t + 1 ∧ q a = q (t + 1) := by
        simp only [List.mem_map, List.mem_range, Prod.mk.eta]
        constructor
        · rintro ⟨k, h4, h5⟩; exact ⟨k + 1, by omega, by omega, h5⟩
        · rintro ⟨a, h4, h5, h6⟩; exact ⟨a - 1, by omega, by rw [Nat.sub_add_cancel h4]; exact h6⟩
      by_cases hm : ((q (t + 1)).1, (q (t + 1)).2) ∈ ((List.range t).map fun k => q (k + 1))
      · rw [if_pos hm]
        obtain ⟨a, h4, h5, h6⟩ := hmem.mp hm
        exact ⟨_, rfl, stop fun h => h.2 a h4 h5 h6⟩
      · rw [if_neg hm]
        have hl : ((List.range t).map fun k => q (k + 1)) ++ [((q (t + 1)).1, (q (t + 1)).2)] =
            (List.range (t + 1)).map fun k => q (k + 1) := by
          rw [List.range_succ, List.map_append]
          rfl
        rw [hl]
        obtain ⟨l, l1, l2, l3⟩ := ih (t + 1) ⟨hin, hc⟩
        refine ⟨l, l1, by omega, ?_⟩
        rw [show t + (m + 1) = t + 1 + m by ring, l3]
        constructor
        · intro h k hk1 hk2
          rcases Nat.eq_or_lt_of_le (Nat.succ_le_of_lt hk1) with h4 | h4
          · subst h4
            exact ⟨⟨hin, hc⟩, fun a h5 h6 h7 => hm (hmem.mpr ⟨a, h5, h6, h7⟩)⟩
          · exact h k h4 hk2
        · intro h k hk1 hk2
          exact h k (by omega) hk2

/-- the cells reached from a cell. -/
def trail (x : Pict) (s : ℤ × ℤ) : ℕ → ℤ × ℤ
  | 0 => s
  | k + 1 => nextCell x (trail x s k)

theorem walkThru_spec {x : Pict} (ho : OneHotPict x.h x.w x.get) (hb : Bordered x.h x.w x.get) {s : ℤ × ℤ} (hs : Body x s) (m : ℕ) :
    ∃ l, walkThruSnake x s.1 s.2 (m + 1) = .ok l ∧ l.length ≤ m ∧
      (l.length = m ↔ ∀ k, 1 ≤ k → k ≤ m → Body x (trail x s k) ∧ ∀ a, 1 ≤ a → a < k → trail x s a ≠ trail x s k) := by
  obtain ⟨l, h1, h2, h3⟩ := walk_spec ho hb (trail x s) (fun _ => rfl) m 0 hs
  unfold walkThruSnake
  rw [(colOf_spec ho hs.1).2.2]
  refine ⟨l, ?_, by omega, ?_⟩
  · simp only [bind, Except.bind, Nat.add_sub_cancel]
    exact h1
  · rw [show (l.length = m) = (l.length = 0 + m) by rw [Nat.zero_add], h3]
    simp only [Nat.zero_add]
    exact Iff.rfl

theorem snake_trail {x : Pict} (ho : OneHotPict x.h x.w x.get) {n : ℕ} {p : ℕ → ℤ × ℤ} (h : IsSnake x.h x.w x.get n p) :
    ∀ k < n, p k = trail x (p 0) k ∧ Body x (p k) := by
  intro k
  induction k with
  | zero =>
    intro hk
    obtain ⟨c, h1, h2, -⟩ := h.1 0 hk
    obtain ⟨h3, rfl⟩ := (hasColour_iff ho).mp h2
    exact ⟨rfl, h3, h1⟩
  | succ k ih =>
    intro hk
    obtain ⟨e1, -⟩ := ih (by omega)
    obtain ⟨c, h1, h2, h4⟩ := h.1 k (by omega)
    obtain ⟨h3, rfl⟩ := (hasColour_iff ho).mp h2
    obtain ⟨c', g1, g2, -⟩ := h.1 (k + 1) hk
    obtain ⟨g3, rfl⟩ := (hasColour_iff ho).mp g2
    refine ⟨?_, g3, g1⟩
    rw [h4 hk, e1]
    rfl

theorem trail_snake {x : Pict} (ho : OneHotPict x.h x.w x.get) {n : ℕ} {s : ℤ × ℤ} (hbody : ∀ k < n, Body x (trail x s k))
    (hinj : ∀ a < n, ∀ b < n, trail x s a = trail x s b → a = b) : IsSnake x.h x.w x.get n (trail x s) :=
  ⟨fun k hk => ⟨colOf x (trail x s k), (hbody k hk).2, (hasColour_iff ho).mpr ⟨(hbody k hk).1, rfl⟩, fun _ => rfl⟩, hinj⟩

theorem trail_add (x : Pict) (s : ℤ × ℤ) (a b : ℕ) : trail x s (a + b) = trail x (trail x s a) b := by
  induction b with
  | zero => rfl
  | succ b ih => change nextCell x (trail x s (a + b)) = _; rw [ih]; rfl

/-- a walk of full length is along a snake or around a loop. -/
theorem full_iff {x : Pict} (ho : OneHotPict x.h x.w x.get) (m : ℕ) :
    (∃ s, Body x s ∧ ∀ k, 1 ≤ k → k ≤ m → Body x (trail x s k) ∧ ∀ a, 1 ≤ a → a < k → trail x s a ≠ trail x s k) ↔
      (∃ p, IsSnake x.h x.w x.get (m + 1) p) ∨ ∃ p, IsLoop x.h x.w x.get m p := by
  constructor
  · rintro ⟨s, hs, h⟩
    by_cases hret : ∃ k, 1 ≤ k ∧ k ≤ m ∧ trail x s k = s
    · obtain ⟨k, hk1, hk2, hk⟩ := hret
      have hkm : k = m := by
        by_contra hne
        have h1 : trail x s (k + 1) = trail x s 1 := by
          change nextCell x (trail x s k) = nextCell x s
          rw [hk]
        exact (h (k + 1) (by omega) (by omega)).2 1 le_rfl (by omega) h1.symm
      subst hkm
      right
      refine ⟨trail x s, hk1, trail_snake ho ?_ ?_, ?_⟩
      · intro a ha
        rcases Nat.eq_zero_or_pos a with rfl | h0
        · exact hs
        · exact (h a h0 (by omega)).1
      · have hlt : ∀ a b, a < b → b < k → trail x s a ≠ trail x s b := by
          intro a b hab hb he
          rcases Nat.eq_zero_or_pos a with rfl | h0
          · have : trail x s b = trail x s k := by rw [hk]; exact he.symm
            exact (h k hk1 le_rfl).2 b (by omega) hb this
          · exact (h b (by omega) (by omega)).2 a h0 hab he
        intro a ha b hb he
        by_contra hne
        rcases Nat.lt_or_gt_of_ne hne with h1 | h1
        · exact hlt a b h1 hb he
        · exact hlt b a h1 ha he.symm
      · have hbk : Body x (trail x s (k - 1)) := by
          rcases Nat.eq_zero_or_pos (k - 1) with h0 | h0
          · rw [h0]; exact hs
          · exact (h (k - 1) h0 (by omega)).1
        refine ⟨colOf x (trail x s (k - 1)), (hasColour_iff ho).mpr ⟨hbk.1, rfl⟩, ?_⟩
        change s = nextCell x (trail x s (k - 1))
        rw [show nextCell x (trail x s (k - 1)) = trail x s (k - 1 + 1) from rfl, Nat.sub_add_cancel hk1, hk]
    · left
      refine ⟨trail x s, trail_snake ho ?_ ?_⟩
      · intro a ha
        rcases Nat.eq_zero_or_pos a with rfl | h0
        · exact hs
        · exact (h a h0 (by omega)).1
      · have hlt : ∀ a b, a < b → b < m + 1 → trail x s a ≠ trail x s b := by
          intro a b hab hb he
          rcases Nat.eq_zero_or_pos a with rfl | h0
          · exact hret ⟨b, by omega, by omega, he.symm⟩
          · exact (h b (by omega) (by omega)).2 a h0 hab he
        intro a ha b hb he
        by_contra hne
        rcases Nat.lt_or_gt_of_ne hne with h1 | h1
        · exact hlt a b h1 hb he
        · exact hlt b a h1 ha he.symm
  · rintro (⟨p, hp⟩ | ⟨p, hm, hp, c, hc, hc2⟩)
    · have ht := snake_trail ho hp
      refine ⟨p 0, (ht 0 (by omega)).2, fun k hk1 hk2 => ⟨?_, fun a ha hak he => ?_⟩⟩
      · rw [← (ht k (by omega)).1]; exact (ht k (by omega)).2
      · rw [← (ht k (by omega)).1, ← (ht a (by omega)).1] at he
        have := hp.2 a (by omega) k (by omega) he
        omega
    · have ht := snake_trail ho hp
      obtain ⟨hin, rfl⟩ := (hasColour_iff ho).mp hc
      have hback : trail x (p 0) m = p 0 := by
        obtain ⟨m, rfl⟩ := Nat.exists_eq_add_of_le' hm
        change nextCell x (trail x (p 0) m) = p 0
        rw [← (ht m (by omega)).1]
        rw [Nat.add_sub_cancel] at hc2
        exact hc2.symm
      refine ⟨p 0, (ht 0 (by omega)).2, fun k hk1 hk2 => ?_⟩
      rcases Nat.eq_or_lt_of_le hk2 with rfl | hlt
      · rw [hback]
        refine ⟨(ht 0 (by omega)).2, fun a ha hak he => ?_⟩
        rw [← (ht a hak).1] at he
        have := hp.2 a hak 0 (by omega) he
        omega
      · rw [← (ht k hlt).1]
        refine ⟨(ht k hlt).2, fun a ha hak he => ?_⟩
        rw [← (ht a (by omega)).1] at he
        have := hp.2 a (by omega) k hlt he
        omega

theorem mem_snakeCells {x : Pict} {p : ℕ × ℕ} : p ∈ snakeCells x ↔ p.1 < x.h ∧ p.2 < x.w ∧ x.get p.1 p.2 3 ≠ 1 := by
  unfold snakeCells
  obtain ⟨a, b⟩ := p
  rw [List.mem_filter, show (List.range x.h).product (List.range x.w) = List.range x.h ×ˢ List.range x.w from rfl,
    List.mem_product, List.mem_range, List.mem_range, and_assoc]
  simp

theorem snakeCell_body {x : Pict} (ho : OneHotPict x.h x.w x.get) {p : ℕ × ℕ} (hp : p ∈ snakeCells x) :
    Body x ((p.1 : ℤ), (p.2 : ℤ)) := by
  obtain ⟨h1, h2, h3⟩ := mem_snakeCells.mp hp
  have hin : InPict x ((p.1 : ℤ), (p.2 : ℤ)) := ⟨by simp, by simpa using h1, by simp, by simpa using h2⟩
  refine ⟨hin, fun hc => h3 ?_⟩
  have := ((colOf_spec ho hin).2.1 3 (by omega)).mpr hc.symm
  simpa using this

theorem body_snakeCell {x : Pict} (ho : OneHotPict x.h x.w x.get) {s : ℤ × ℤ} (hs : Body x s) :
    (s.1.toNat, s.2.toNat) ∈ snakeCells x ∧ s = (((s.1.toNat : ℕ) : ℤ), ((s.2.toNat : ℕ) : ℤ)) := by
  obtain ⟨⟨h1, h2, h3, h4⟩, h5⟩ := id hs
  refine ⟨mem_snakeCells.mpr ⟨by simp only; omega, by simp only; omega, fun h => h5 ?_⟩, ?_⟩
  · exact (((colOf_spec ho hs.1).2.1 3 (by omega)).mp h).symm
  · ext <;> simp <;> omega

/-- **C163, walks.** For an image with one colour per pixel and background at the border, `isSnakePresent` raises nothing and says
whether there is a snake of `nCell` cells or a closed snake of `nCell - 1` cells. -/
theorem C163_present (x : Pict) (ho : OneHotPict x.h x.w x.get) (hb : Bordered x.h x.w x.get) (nCell : ℕ) (hn : 1 ≤ nCell) :
    ∃ b, isSnakePresent x nCell = .ok b ∧
      (b = true ↔ (∃ p, IsSnake x.h x.w x.get nCell p) ∨ ∃ p, IsLoop x.h x.w x.get (nCell - 1) p) := by
  obtain ⟨m, rfl⟩ := Nat.exists_eq_add_of_le' hn
  rw [Nat.add_sub_cancel, ← full_iff ho m]
  have key : ∀ L : List (ℕ × ℕ), (∀ p ∈ L, p ∈ snakeCells x) → ∃ b, presentLoop x (m + 1) L = .ok b ∧
      (b = true ↔ ∃ p ∈ L, ∀ k, 1 ≤ k → k ≤ m → Body x (trail x ((p.1 : ℤ), (p.2 : ℤ)) k) ∧
        ∀ a, 1 ≤ a → a < k → trail x ((p.1 : ℤ), (p.2 : ℤ)) a ≠ trail x ((p.1 : ℤ), (p.2 : ℤ)) k) := by
    intro L
    induction L with
    | nil => intro _; exact ⟨false, rfl, by simp⟩
    | cons p r ih =>
      intro hL
      obtain ⟨l, h1, -, h3⟩ := walkThru_spec ho hb (snakeCell_body ho (hL p List.mem_cons_self)) m
      obtain ⟨b, h4, h5⟩ := ih fun q hq => hL q (List.mem_cons_of_mem _ hq)
      unfold presentLoop
      simp only at h1
      rw [h1]
      simp only [bind, Except.bind]
      by_cases hl : l.length = m
      · rw [if_pos (by push_cast; omega)]
        exact ⟨true, rfl, by simp only [true_iff]; exact ⟨p, List.mem_cons_self, h3.mp hl⟩⟩
      · rw [if_neg (by push_cast; omega)]
        refine ⟨b, h4, h5.trans ⟨fun ⟨q, hq, h⟩ => ⟨q, List.mem_cons_of_mem _ hq, h⟩, ?_⟩⟩
        rintro ⟨q, hq, h⟩
        rcases List.mem_cons.mp hq with rfl | hq
        · exact absurd (h3.mpr h) hl
        · exact ⟨q, hq, h⟩
  obtain ⟨b, h1, h2⟩ := key _ fun p hp => hp
  refine ⟨b, h1, h2.trans ⟨?_, ?_⟩⟩
  · rintro ⟨p, hp, h⟩
    exact ⟨_, snakeCell_body ho hp, h⟩
  · rintro ⟨s, hs, h⟩
    obtain ⟨h3, h4⟩ := body_snakeCell ho hs
    exact ⟨_, h3, by simp only; rw [← h4]; exact h⟩

/-- a step changes the sum of the coordinates by one. -/
theorem pointsTo_parity {c : ℕ} (h : c < 5) (h3 : c ≠ 3) : ((pointsTo c).1 + (pointsTo c).2) % 2 = 1 := by
  interval_cases c <;> simp_all [pointsTo]

/-- closed snakes have an even number of cells. -/
theorem loop_even {x : Pict} (ho : OneHotPict x.h x.w x.get) {n : ℕ} {p : ℕ → ℤ × ℤ} (h : IsLoop x.h x.w x.get n p) : Even n := by
  obtain ⟨hm, hp, c, hc, hc2⟩ := h
  have ht := snake_trail ho hp
  have hpar : ∀ k < n, ((p k).1 + (p k).2 - ((p 0).1 + (p 0).2) - k) % 2 = 0 := by
    intro k
    induction k with
    | zero => intro _; simp
    | succ k ih =>
      intro hk
      have := ih (by omega)
      obtain ⟨c, h1, h2, h4⟩ := hp.1 k (by omega)
      rw [h4 hk]
      have := pointsTo_parity h2.2.2.2.2.1 h1
      simp only [Prod.fst_add, Prod.snd_add]
      push_cast
      omega
  have h1 := hpar (n - 1) (by omega)
  obtain ⟨hin, rfl⟩ := (hasColour_iff ho).mp hc
  have h2 := pointsTo_parity (colOf_spec ho hin).1 (ht (n - 1) (by omega)).2.2
  have e1 := congrArg Prod.fst hc2
  have e2 := congrArg Prod.snd hc2
  simp only [Prod.fst_add, Prod.snd_add] at e1 e2
  rw [Nat.even_iff]
  omega

/-- **C163, even lengths.** If `nCell` is even, as the default 10, `isSnakePresent` says whether there is a snake of `nCell` cells. -/
theorem C163_even (x : Pict) (ho : OneHotPict x.h x.w x.get) (hb : Bordered x.h x.w x.get) (nCell : ℕ) (hn : 1 ≤ nCell)
    (he : Even nCell) : ∃ b, isSnakePresent x nCell = .ok b ∧ (b = true ↔ ∃ p, IsSnake x.h x.w x.get nCell p) := by
  obtain ⟨b, h1, h2⟩ := C163_present x ho hb nCell hn
  refine ⟨b, h1, h2.trans ⟨?_, fun h => .inl h⟩⟩
  rintro (h | ⟨p, hp⟩)
  · exact h
  · have h3 := loop_even ho hp
    rw [Nat.even_iff] at h3 he
    have := hp.1
    omega

/-- `x'` is `x` with at most the pixel `p` changed, to the pixel of another cell that is not background. -/
def Recoloured (x x' : ℕ → ℕ → ℕ → ℚ) (h w : ℕ) : Prop :=
  x' = x ∨ ∃ a b a' b', a < h ∧ b < w ∧ a' < h ∧ b' < w ∧ (a, b) ≠ (a', b') ∧ x a b 3 ≠ 1 ∧ x a' b' 3 ≠ 1 ∧
    ∀ i j c, x' i j c = if i = a ∧ j = b then x a' b' c else x i j c

theorem recoloured_background {x x' : ℕ → ℕ → ℕ → ℚ} {h w : ℕ} (hr : Recoloured x x' h w) (i j : ℕ) : x' i j 3 = 1 ↔ x i j 3 = 1 := by
  rcases hr with rfl | ⟨a, b, a', b', -, -, -, -, -, h1, h2, h3⟩
  · rfl
  · rw [h3]
    split
    · next h => obtain ⟨rfl, rfl⟩ := h; exact ⟨fun h => absurd h h2, fun h => absurd h h1⟩
    · rfl

theorem recoloured_oneHot {x x' : ℕ → ℕ → ℕ → ℚ} {h w : ℕ} (hr : Recoloured x x' h w) (ho : OneHotPict h w x) : OneHotPict h w x' := by
  rcases hr with rfl | ⟨a, b, a', b', -, -, h1, h2, -, -, -, h3⟩
  · exact ho
  · intro i hi j hj
    by_cases he : i = a ∧ j = b
    · obtain ⟨c, hc, hu⟩ := ho a' h1 b' h2
      exact ⟨c, hc, fun c' hc' => by rw [h3, if_pos he]; exact hu c' hc'⟩
    · obtain ⟨c, hc, hu⟩ := ho i hi j hj
      exact ⟨c, hc, fun c' hc' => by rw [h3, if_neg he]; exact hu c' hc'⟩

theorem recoloured_bordered {x x' : ℕ → ℕ → ℕ → ℚ} {h w : ℕ} (hr : Recoloured x x' h w) (hb : Bordered h w x) : Bordered h w x' :=
  fun i hi j hj he => (recoloured_background hr i j).mpr (hb i hi j hj he)

theorem asHot_shape (oneHot : Bool) (x : Pict) : (asHot oneHot x).h = x.h ∧ (asHot oneHot x).w = x.w := by
  cases oneHot <;> exact ⟨rfl, rfl⟩

theorem asHot_copy (oneHot : Bool) (x : Pict) (p q : ℕ × ℕ) (i j c : ℕ) :
    (asHot oneHot (copyPixel x p q)).get i j c = if i = p.1 ∧ j = p.2 then (asHot oneHot x).get q.1 q.2 c else (asHot oneHot x).get i j c := by
  obtain ⟨a, b⟩ := p
  cases oneHot
  · simp only [asHot, copyPixel, oneHotColors, colourNumber, Prod.mk.injEq, Bool.false_eq_true, if_false]
    split <;> rfl
  · simp only [asHot, copyPixel, Prod.mk.injEq, if_true]

theorem change_loop (oneHot : Bool) (nch : ℕ) (x : Pict) {p : ℕ × ℕ} (hp : p ∈ snakeCells (asHot oneHot x)) (L : List (ℕ × ℕ))
    (hL : ∀ q ∈ L, q ∈ snakeCells (asHot oneHot x)) :
    (changeLoop nch p L x).h = x.h ∧ (changeLoop nch p L x).w = x.w ∧
      Recoloured (asHot oneHot x).get (asHot oneHot (changeLoop nch p L x)).get x.h x.w := by
  induction L with
  | nil => exact ⟨rfl, rfl, .inl rfl⟩
  | cons q r ih =>
    unfold changeLoop
    split
    · exact ih fun q hq => hL q (List.mem_cons_of_mem _ hq)
    · next hs =>
      refine ⟨rfl, rfl, .inr ⟨p.1, p.2, q.1, q.2, ?_⟩⟩
      obtain ⟨h1, h2, h3⟩ := mem_snakeCells.mp hp
      obtain ⟨g1, g2, g3⟩ := mem_snakeCells.mp (hL q List.mem_cons_self)
      rw [(asHot_shape oneHot x).1] at h1 g1
      rw [(asHot_shape oneHot x).2] at h2 g2
      refine ⟨h1, h2, g1, g2, ?_, h3, g3, asHot_copy oneHot x p q⟩
      intro he
      have : p = q := he
      subst this
      exact hs (by simp [samePixel])

/-- **C163, distortion.** `changeOneSnakeCell` on an image with `nCell` cells that are not background recolours at most one of them, in
the colour of another one. -/
theorem C163_change (oneHot : Bool) (nCell change : ℕ) (froms : List ℕ) (x : Pict)
    (hlen : (snakeCells (asHot oneHot x)).length = nCell) (hc : change < nCell) (hf : ∀ f ∈ froms, f < nCell) :
    ∃ x', changeOneSnakeCell oneHot nCell change froms x = .ok x' ∧ x'.h = x.h ∧ x'.w = x.w ∧
      Recoloured (asHot oneHot x).get (asHot oneHot x').get x.h x.w := by
  have hmem : ∀ f < nCell, (snakeCells (asHot oneHot x)).getD f (0, 0) ∈ snakeCells (asHot oneHot x) := by
    intro f hf
    rw [List.getD_eq_getElem _ _ (by omega)]
    exact List.getElem_mem _
  refine ⟨_, ?_, change_loop oneHot (if oneHot then 5 else 3) x (hmem change hc) (froms.map fun f => (snakeCells (asHot oneHot x)).getD f (0, 0)) ?_⟩
  · unfold changeOneSnakeCell
    simp only
    rw [if_neg (by simpa using hlen), if_neg (by omega)]
  · intro q hq
    obtain ⟨f, h1, rfl⟩ := List.mem_map.mp hq
    exact hmem f (hf f h1)

/-- **C163, number of cells.** Otherwise it raises `AssertionError`. -/
theorem C163_count (oneHot : Bool) (nCell change : ℕ) (froms : List ℕ) (x : Pict)
    (hlen : (snakeCells (asHot oneHot x)).length ≠ nCell) :
    changeOneSnakeCell oneHot nCell change froms x = .error .assertionError := by
  unfold changeOneSnakeCell
  simp only
  rw [if_pos hlen]

/-- One of the images: the image, as one colour per pixel, has background at its border and `nCell` other cells. -/
structure SnakeImage (oneHot : Bool) (nCell : ℕ) (x : Pict) : Prop where
  one : OneHotPict x.h x.w (asHot oneHot x).get
  border : Bordered x.h x.w (asHot oneHot x).get
  cells : (snakeCells (asHot oneHot x)).length = nCell

/-- an image contains a snake of `n` cells. -/
def ShowsSnake (oneHot : Bool) (n : ℕ) (x : Pict) : Prop := ∃ p, IsSnake x.h x.w (asHot oneHot x).get n p

/-- an image with its labels, before and after distortion. -/
def Distorted {L : Type} (oneHot : Bool) (a b : Pict × L) : Prop :=
  b.2 = a.2 ∧ b.1.h = a.1.h ∧ b.1.w = a.1.w ∧ Recoloured (asHot oneHot a.1).get (asHot oneHot b.1).get a.1.h a.1.w

theorem snakeCells_congr {x y : Pict} (hh : y.h = x.h) (hw : y.w = x.w) (hb : ∀ i j, y.get i j 3 = 1 ↔ x.get i j 3 = 1) :
    snakeCells y = snakeCells x := by
  unfold snakeCells
  rw [hh, hw]
  refine List.filter_congr fun p _ => ?_
  simp only [ne_eq, hb]

theorem distorted_image {L : Type} {oneHot : Bool} {nCell : ℕ} {a b : Pict × L} (hd : Distorted oneHot a b)
    (ha : SnakeImage oneHot nCell a.1) : SnakeImage oneHot nCell b.1 := by
  obtain ⟨-, h1, h2, h3⟩ := hd
  refine ⟨?_, ?_, ?_⟩
  · rw [h1, h2]; exact recoloured_oneHot h3 ha.one
  · rw [h1, h2]; exact recoloured_bordered h3 ha.border
  · rw [snakeCells_congr (by rw [(asHot_shape _ _).1, (asHot_shape _ _).1, h1]) (by rw [(asHot_shape _ _).2, (asHot_shape _ _).2, h2])
      (recoloured_background h3)]
    exact ha.cells

theorem distort_loop {L : Type} (oneHot : Bool) (nCell : ℕ) (hn : 1 ≤ nCell) (data : List (Pict × L)) :
    ∀ draws : List (ℕ × List ℕ), (∀ d ∈ draws, d.1 < nCell ∧ ∀ f ∈ d.2, f < nCell) → (∀ a ∈ data, SnakeImage oneHot nCell a.1) →
    ∃ out, distortLoop oneHot nCell data draws = .ok out ∧ List.Forall₂ (Distorted oneHot) data out := by
  induction data with
  | nil => intro _ _ _; exact ⟨[], rfl, .nil⟩
  | cons a r ih =>
    intro draws hd hx
    have h0 : (draws.headD (0, [])).1 < nCell ∧ ∀ f ∈ (draws.headD (0, [])).2, f < nCell := by
      cases draws with
      | nil => exact ⟨by simp only [List.headD_nil]; omega, by simp⟩
      | cons d _ => exact hd d List.mem_cons_self
    obtain ⟨x', h1, h2, h3, h4⟩ := C163_change oneHot nCell _ _ a.1 (hx a List.mem_cons_self).cells h0.1 h0.2
    obtain ⟨out, h5, h6⟩ := ih draws.tail (fun d h => hd d (List.mem_of_mem_tail h)) fun b hb => hx b (List.mem_cons_of_mem _ hb)
    refine ⟨(x', a.2) :: out, ?_, .cons ⟨rfl, h2, h3, h4⟩ h6⟩
    unfold distortLoop
    rw [h1]
    simp only [bind, Except.bind, h5]

open Classical in
theorem keep_loop {L : Type} (oneHot : Bool) (nCell : ℕ) (l : List (Pict × L)) (hx : ∀ a ∈ l, SnakeImage oneHot nCell a.1) :
    keepLoop oneHot l = .ok (l.filter fun a => ¬ ShowsSnake oneHot 10 a.1) := by
  induction l with
  | nil => rfl
  | cons a r ih =>
    have ha := hx a List.mem_cons_self
    obtain ⟨b, h1, h2⟩ := C163_even (asHot oneHot a.1) (by rw [(asHot_shape _ _).1, (asHot_shape _ _).2]; exact ha.one)
      (by rw [(asHot_shape _ _).1, (asHot_shape _ _).2]; exact ha.border) 10 (by omega) (by decide)
    rw [(asHot_shape _ _).1, (asHot_shape _ _).2] at h2
    change b = true ↔ ShowsSnake oneHot 10 a.1 at h2
    unfold keepLoop
    rw [h1, ih fun b hb => hx b (List.mem_cons_of_mem _ hb)]
    simp only [bind, Except.bind]
    rw [List.filter_cons]
    cases b
    · have hns : ¬ ShowsSnake oneHot 10 a.1 := fun h => by simpa using h2.mpr h
      simp [hns]
    · have hs : ShowsSnake oneHot 10 a.1 := h2.mp rfl
      simp [hs]

theorem forall₂_right {α : Type} {R : α → α → Prop} {P Q : α → Prop} (hRQ : ∀ a b, R a b → P a → Q b) {l l' : List α}
    (h : List.Forall₂ R l l') (hP : ∀ a ∈ l, P a) : ∀ b ∈ l', Q b := by
  induction h with
  | nil => simp
  | cons hab _ ih =>
    intro b hb
    rcases List.mem_cons.mp hb with rfl | hb
    · exact hRQ _ _ hab (hP _ List.mem_cons_self)
    · exact ih (fun a ha => hP a (List.mem_cons_of_mem _ ha)) b hb

theorem copies_eq {α : Type} (data : List α) (n : ℕ) :
    (List.range n).foldl (fun acc _ => acc ++ data) [] = (List.replicate n data).flatten := by
  induction n with
  | zero => rfl
  | succ n ih =>
    rw [List.range_succ, List.foldl_append, ih, List.replicate_succ', List.flatten_append]
    simp

open Classical in
/-- **C163, augmentation.** `augmentWithNoSnakeImages` keeps the images and appends distorted ones of `iMult` copies with zero labels,
exactly those that contain no snake of ten cells. -/
theorem C163_augment {L : Type} (zero : L → L) (oneHot : Bool) (iMult : ℤ) (nCell : ℕ) (hn : 1 ≤ nCell) (draws : List (ℕ × List ℕ))
    (hd : ∀ d ∈ draws, d.1 < nCell ∧ ∀ f ∈ d.2, f < nCell) (data : List (Pict × L)) (hx : ∀ a ∈ data, SnakeImage oneHot nCell a.1) :
    ∃ distorted, List.Forall₂ (Distorted oneHot) (List.replicate iMult.toNat data).flatten distorted ∧
      augmentWithNoSnakeImages zero oneHot iMult nCell draws data =
        .ok ((distorted.filter fun a => ¬ ShowsSnake oneHot 10 a.1).length,
          data ++ (distorted.filter fun a => ¬ ShowsSnake oneHot 10 a.1).map fun p => (p.1, zero p.2)) := by
  have hx' : ∀ a ∈ (List.replicate iMult.toNat data).flatten, SnakeImage oneHot nCell a.1 := fun a ha => by
    obtain ⟨l, hl, hal⟩ := List.mem_flatten.mp ha
    rw [List.eq_of_mem_replicate hl] at hal
    exact hx a hal
  obtain ⟨dis, h1, h2⟩ := distort_loop oneHot nCell hn _ draws hd hx'
  have h3 := keep_loop oneHot nCell dis (forall₂_right (P := fun a => SnakeImage oneHot nCell a.1)
    (fun a b hab ha => distorted_image hab ha) h2 hx')
  refine ⟨dis, h2, ?_⟩
  unfold augmentWithNoSnakeImages
  simp only [copies_eq]
  rw [h1]
  simp only [bind, Except.bind, h3]

/-- **C163, ten cells.** With `nCell=10` no appended image contains a snake of `nCell` cells. -/
theorem C163_ten {L : Type} (zero : L → L) (oneHot : Bool) (iMult : ℤ) (draws : List (ℕ × List ℕ))
    (hd : ∀ d ∈ draws, d.1 < 10 ∧ ∀ f ∈ d.2, f < 10) (data : List (Pict × L)) (hx : ∀ a ∈ data, SnakeImage oneHot 10 a.1) :
    ∃ added, augmentWithNoSnakeImages zero oneHot iMult 10 draws data = .ok (added.length, data ++ added) ∧
      ∀ b ∈ added, ¬ ShowsSnake oneHot 10 b.1 ∧ ∃ a ∈ data, b.2 = zero a.2 ∧
        Recoloured (asHot oneHot a.1).get (asHot oneHot b.1).get a.1.h a.1.w := by
  classical
  obtain ⟨dis, h1, h4⟩ := C163_augment zero oneHot iMult 10 (by omega) draws hd data hx
  refine ⟨(dis.filter fun a => ¬ ShowsSnake oneHot 10 a.1).map fun p => (p.1, zero p.2), by rw [List.length_map]; convert h4, ?_⟩
  intro b hb
  obtain ⟨c, hc, rfl⟩ := List.mem_map.mp hb
  obtain ⟨h5, h6⟩ := List.mem_filter.mp hc
  rw [decide_eq_true_eq] at h6
  refine ⟨h6, ?_⟩
  obtain ⟨n, hn, rfl⟩ := List.mem_iff_getElem.mp h5
  obtain ⟨g1, g2⟩ := List.forall₂_iff_get.mp h1
  have hac := g2 n (by omega) hn
  obtain ⟨l, hl, hal⟩ := List.mem_flatten.mp (List.getElem_mem (show n < (List.replicate iMult.toNat data).flatten.length by omega))
  rw [List.eq_of_mem_replicate hl] at hal
  exact ⟨_, hal, congrArg zero hac.1, hac.2.2.2⟩

/-- an image with fewer cells contains no snake. -/
theorem few_cells {oneHot : Bool} {nCell n : ℕ} {x : Pict} (hx : SnakeImage oneHot nCell x) (h : nCell < n) : ¬ ShowsSnake oneHot n x := by
  rintro ⟨p, hp⟩
  have hs := asHot_shape oneHot x
  have ho : OneHotPict (asHot oneHot x).h (asHot oneHot x).w (asHot oneHot x).get := by rw [hs.1, hs.2]; exact hx.one
  rw [← hs.1, ← hs.2] at hp
  have ht := snake_trail ho hp
  have hnd : ((List.range n).map fun k => ((p k).1.toNat, (p k).2.toNat)).Nodup := by
    refine List.Nodup.map_on ?_ List.nodup_range
    intro a ha b hb he
    rw [List.mem_range] at ha hb
    refine hp.2 a ha b hb ?_
    rw [(body_snakeCell ho (ht a ha).2).2, (body_snakeCell ho (ht b hb).2).2]
    simp only [Prod.mk.injEq] at he
    rw [he.1, he.2]
  have hsub : ((List.range n).map fun k => ((p k).1.toNat, (p k).2.toNat)) ⊆ snakeCells (asHot oneHot x) := by
    intro q hq
    obtain ⟨k, hk, rfl⟩ := List.mem_map.mp hq
    exact (body_snakeCell ho (ht k (List.mem_range.mp hk)).2).1
  have := (hnd.subperm hsub).length_le
  rw [List.length_map, List.length_range, hx.cells] at this
  omega

/-- **C163, fewer than ten cells.** With `nCell` below ten nothing is discarded: the check looks for ten cells. -/
theorem C163_short {L : Type} (zero : L → L) (oneHot : Bool) (iMult : ℤ) (nCell : ℕ) (hn : 1 ≤ nCell) (h10 : nCell < 10)
    (draws : List (ℕ × List ℕ)) (hd : ∀ d ∈ draws, d.1 < nCell ∧ ∀ f ∈ d.2, f < nCell) (data : List (Pict × L))
    (hx : ∀ a ∈ data, SnakeImage oneHot nCell a.1) :
    ∃ distorted, List.Forall₂ (Distorted oneHot) (List.replicate iMult.toNat data).flatten distorted ∧
      augmentWithNoSnakeImages zero oneHot iMult nCell draws data = .ok (iMult.toNat * data.length, data ++ distorted.map fun p => (p.1, zero p.2)) := by
  classical
  obtain ⟨dis, h1, h5⟩ := C163_augment zero oneHot iMult nCell hn draws hd data hx
  have hk : (dis.filter fun a => ¬ ShowsSnake oneHot 10 a.1) = dis := by
    rw [List.filter_eq_self]
    intro a ha
    rw [decide_eq_true_eq]
    exact few_cells (forall₂_right (P := fun a => SnakeImage oneHot nCell a.1) (Q := fun a => SnakeImage oneHot nCell a.1)
      (fun a b hab ha => distorted_image hab ha) h1 (fun a ha => by
        obtain ⟨l, hl, hal⟩ := List.mem_flatten.mp ha
        rw [List.eq_of_mem_replicate hl] at hal
        exact hx a hal) a ha) h10
  refine ⟨dis, h1, ?_⟩
  have hlen := h1.length_eq
  rw [List.length_flatten, List.map_replicate, List.sum_replicate, nsmul_eq_mul, Nat.cast_id] at hlen
  rw [hlen]
  rw [hk] at h5
  exact h5

/-- an image from its colours. -/
def pictOf (rows : List (List ℕ)) : Pict :=
  ⟨rows.length, (rows.headD []).length, fun i j c => if ((rows[i]?.getD [])[j]?.getD 3) = c then 1 else 0⟩

/-- four cells in a ring. -/
def ringPict : Pict := pictOf [[3, 3, 3, 3], [3, 2, 1, 3], [3, 0, 4, 3], [3, 3, 3, 3]]

/-- three cells in a row, the last one pointing down. -/
def rowPict : Pict := pictOf [[3, 3, 3, 3, 3], [3, 2, 2, 1, 3], [3, 3, 3, 3, 3]]

/-- ten cells in a row, the last one pointing down. -/
def tenPict : Pict := pictOf [[3, 3, 3, 3, 3, 3, 3, 3, 3, 3, 3, 3], [3, 2, 2, 2, 2, 2, 2, 2, 2, 2, 1, 3],
  [3, 3, 3, 3, 3, 3, 3, 3, 3, 3, 3, 3]]

theorem ring_image : SnakeImage true 4 ringPict := by
  refine ⟨?_, ?_, ?_⟩
  · unfold OneHotPict; decide +kernel
  · unfold Bordered; decide +kernel
  · decide +kernel

theorem row_image : SnakeImage true 3 rowPict := by
  refine ⟨?_, ?_, ?_⟩
  · unfold OneHotPict; decide +kernel
  · unfold Bordered; decide +kernel
  · decide +kernel

theorem ten_image : SnakeImage true 10 tenPict := by
  refine ⟨?_, ?_, ?_⟩
  · unfold OneHotPict; decide +kernel
  · unfold Bordered; decide +kernel
  · decide +kernel

/-- **C163, odd lengths.** For odd `nCell` a closed snake of one cell less is taken for a snake: the start cell is not in the list of
visited cells. -/
theorem C163_violated_odd : ∃ x : Pict, OneHotPict x.h x.w x.get ∧ Bordered x.h x.w x.get ∧
    isSnakePresent x 5 = .ok true ∧ ¬ ∃ p, IsSnake x.h x.w x.get 5 p :=
  ⟨ringPict, ring_image.one, ring_image.border, by decide +kernel, few_cells ring_image (by omega)⟩

/-- **C163, kept snakes.** With `nCell=3` an image is appended, with zero labels, that still shows a snake of three cells. -/
theorem C163_violated_short : SnakeImage true 3 rowPict ∧ ∃ b : Pict × ℕ,
    augmentWithNoSnakeImages (fun _ : ℕ => 0) true 1 3 [(2, [0])] [(rowPict, 1)] = .ok (1, [(rowPict, 1), b]) ∧
      b.2 = 0 ∧ ShowsSnake true 3 b.1 := by
  refine ⟨row_image, (copyPixel rowPict (1, 3) (1, 1), 0), ?_, rfl, fun k => (1, (k : ℤ) + 1), ?_, ?_⟩
  · have h1 : distortLoop (L := ℕ) true 3 [(rowPict, 1)] [(2, [0])] = .ok [(copyPixel rowPict (1, 3) (1, 1), 1)] := by
      have hc : changeOneSnakeCell true 3 2 [0] rowPict = .ok (copyPixel rowPict (1, 3) (1, 1)) := by
        unfold changeOneSnakeCell
        have hcells : snakeCells (asHot true rowPict) = [(1, 1), (1, 2), (1, 3)] := by decide +kernel
        simp only [hcells]
        have hs : samePixel 5 rowPict (1, 3) (1, 1) = false := by decide +kernel
        simp [changeLoop, hs]
      unfold distortLoop
      simp only [List.headD_cons, hc, bind, Except.bind, distortLoop]
    have h2 : isSnakePresent (asHot true (copyPixel rowPict (1, 3) (1, 1))) 10 = .ok false := by decide +kernel
    unfold augmentWithNoSnakeImages
    rw [copies_eq, show (List.replicate (1 : ℤ).toNat [(rowPict, 1)]).flatten = [(rowPict, 1)] from rfl]
    simp only
    rw [h1]
    simp only [bind, Except.bind, keepLoop, h2]
    rfl
  · intro k hk
    refine ⟨2, by omega, ?_, ?_⟩
    · unfold HasColour
      interval_cases k <;> decide +kernel
    · intro _
      simp [pointsTo]
  · intro a _ b _ h
    simpa using h

example : ∃ b, isSnakePresent tenPict 10 = .ok b ∧ (b = true ↔ ∃ p, IsSnake tenPict.h tenPict.w tenPict.get 10 p) :=
  C163_even _ ten_image.one ten_image.border 10 (by omega) (by decide)

example : isSnakePresent tenPict 10 = .ok true := by decide +kernel

example : isSnakePresent (copyPixel tenPict (1, 5) (1, 10)) 10 = .ok false := by decide +kernel

example := C163_present ringPict ring_image.one ring_image.border 5 (by omega)

example := C163_change true 10 4 [1, 9] tenPict ten_image.cells (by omega) (by decide)

example := C163_count true 9 4 [1, 9] tenPict (by rw [ten_image.cells]; omega)

example := C163_ten (fun _ : ℕ => 0) true 2 [(4, [1, 9])] (by decide) [(tenPict, 1)] (by simpa using ten_image)

example := C163_augment (fun _ : ℕ => 0) true 2 10 (by omega) [(4, [1, 9])] (by decide) [(tenPict, 1)] (by simpa using ten_image)

example := C163_short (fun _ : ℕ => 0) true 2 3 (by omega) (by omega) [(2, [0])] (by decide) [(rowPict, 1)] (by simpa using row_image)

/-- **C163, indices.** An index into an axis of length `n` means the element at that place, or, if negative, the one at that distance
from the end; there is no other element, and if there is none `IndexError` is raised. -/
theorem C163_index (n : ℕ) (i : ℤ) :
    (∀ k, axisIndex n i = .ok k ↔ k < n ∧ ((k : ℤ) = i ∨ (k : ℤ) = i + n)) ∧
      (axisIndex n i = .error .indexError ↔ i < -n ∨ (n : ℤ) ≤ i) := by
  unfold axisIndex
  refine ⟨fun k => ?_, ?_⟩
  · split_ifs with h1 h2
    · rw [Except.ok.injEq]
      omega
    · rw [Except.ok.injEq]
      omega
    · simp only [false_iff]
      omega
  · split_ifs with h1 h2
    · simp only [false_iff]
      omega
    · simp only [false_iff]
      omega
    · simp only [true_iff]
      omega

/-- above the only row of an image is that row again. -/
example : axisIndex 1 (-1) = .ok 0 ∧ axisIndex 3 (-1) = .ok 2 ∧ axisIndex 3 3 = .error .indexError := by decide

end Verif.Props
