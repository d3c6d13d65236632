import Verif.Model.GenSnakes
import Verif.Spec.SnakeSample
import Mathlib.Tactic.IntervalCases
import Mathlib.Tactic.Linarith
import Mathlib.Data.List.Nodup

/-!
# Lemmas about the generation of snakes
-/

namespace Verif.Lemmas

open Verif.Common Verif.Spec Verif.Snakes

theorem gen_axis {n : ℕ} {i : ℤ} (h0 : 0 ≤ i) (h1 : i < n) : axisIndex n i = .ok i.toNat := if_pos ⟨h0, h1⟩

theorem board_at {b : Board} {p : ℤ × ℤ} (h : 0 ≤ p.1 ∧ p.1 < b.ndim ∧ 0 ≤ p.2 ∧ p.2 < b.ndim) :
    b.at p.1 p.2 = .ok (b.get p.1.toNat p.2.toNat) := by
  unfold Board.at
  rw [gen_axis h.1 h.2.1, gen_axis h.2.2.1 h.2.2.2]
  rfl

theorem board_set {b : Board} {p : ℤ × ℤ} {d : ℕ} (h : 0 ≤ p.1 ∧ p.1 < b.ndim ∧ 0 ≤ p.2 ∧ p.2 < b.ndim) :
    b.set p.1 p.2 d = .ok ⟨b.ndim, fun r c => if r = p.1.toNat ∧ c = p.2.toNat then (d : ℤ) else b.get r c⟩ := by
  unfold Board.set
  rw [gen_axis h.1 h.2.1, gen_axis h.2.2.1 h.2.2.2]
  rfl

/-- distance from the border of the board. -/
def BoardInside (b : Board) (n : ℕ) (p : ℤ × ℤ) : Prop :=
  1 + (n : ℤ) ≤ p.1 ∧ p.1 + n + 2 ≤ b.ndim ∧ 1 + (n : ℤ) ≤ p.2 ∧ p.2 + n + 2 ≤ b.ndim

/-- the marked pixels are the cells so far. -/
def BoardMarks (b : Board) (cells : List ((ℤ × ℤ) × ℕ)) : Prop :=
  ∀ p : ℤ × ℤ, 0 ≤ p.1 → 0 ≤ p.2 → (b.get p.1.toNat p.2.toNat = -1 ↔ p ∉ cells.map Prod.fst)

theorem increment_near {d : ℕ} (hd : d < 4) (b : Board) (p : ℤ × ℤ) (n : ℕ) (h : BoardInside b n p) :
    0 ≤ (p + increment d).1 ∧ (p + increment d).1 < b.ndim ∧ 0 ≤ (p + increment d).2 ∧ (p + increment d).2 < b.ndim := by
  obtain ⟨h1, h2, h3, h4⟩ := h
  interval_cases d <;> simp [increment] <;> omega

theorem increment_inside {d : ℕ} (hd : d < 4) (b : Board) (p : ℤ × ℤ) (n : ℕ) (h : BoardInside b (n + 1) p) :
    BoardInside b n (p + increment d) := by
  obtain ⟨h1, h2, h3, h4⟩ := h
  unfold BoardInside
  push_cast at *
  interval_cases d <;> simp [increment] <;> omega

theorem increment_ne {d : ℕ} (hd : d < 4) (p : ℤ × ℤ) : p + increment d ≠ p := by
  intro h
  have h1 := congrArg Prod.fst h
  have h2 := congrArg Prod.snd h
  interval_cases d <;> simp [increment] at h1 h2

/-- the loop over directions. -/
theorem try_spec {b : Board} {p : ℤ × ℤ} {n : ℕ} (hp : BoardInside b n p) : ∀ l : List ℕ, l ≠ [] → (∀ d ∈ l, d < 4) →
    ∃ d ∈ l, tryDirections b p.1 p.2 l = .ok (d, (p + increment d).1, (p + increment d).2) ∧
      (b.get (p + increment d).1.toNat (p + increment d).2.toNat ≠ -1 →
        ∀ e ∈ l, b.get (p + increment e).1.toNat (p + increment e).2.toNat ≠ -1) := by
  intro l
  induction l with
  | nil => intro h; exact absurd rfl h
  | cons d rest ih =>
    intro _ hl
    have hat : b.at (p.1 + (increment d).1) (p.2 + (increment d).2) = .ok (b.get (p + increment d).1.toNat (p + increment d).2.toNat) :=
      board_at (increment_near (hl d (List.mem_cons_self ..)) b p n hp)
    unfold tryDirections
    simp only [bind, Except.bind]
    rw [hat]
    simp only
    by_cases hv : b.get (p + increment d).1.toNat (p + increment d).2.toNat = -1
    · rw [if_pos (.inl hv)]
      exact ⟨d, List.mem_cons_self .., rfl, fun h => absurd hv h⟩
    · by_cases hr : rest = []
      · rw [if_pos (.inr hr)]
        refine ⟨d, List.mem_cons_self .., rfl, fun h e he => ?_⟩
        rw [hr, List.mem_singleton] at he
        rw [he]
        exact h
      · rw [if_neg (by tauto)]
        obtain ⟨e, h1, h2, h3⟩ := ih hr fun e he => hl e (List.mem_cons_of_mem _ he)
        refine ⟨e, List.mem_cons_of_mem _ h1, h2, fun h f hf => ?_⟩
        rcases List.mem_cons.mp hf with rfl | hf
        · exact hv
        · exact h3 h f hf

theorem marks_set {b : Board} {cells : List ((ℤ × ℤ) × ℕ)} (hm : BoardMarks b cells) {p : ℤ × ℤ} (h0 : 0 ≤ p.1) (h1 : 0 ≤ p.2) (d : ℕ) :
    BoardMarks ⟨b.ndim, fun r c => if r = p.1.toNat ∧ c = p.2.toNat then (d : ℤ) else b.get r c⟩ (cells ++ [(p, d)]) := by
  intro q hq0 hq1
  simp only [List.map_append, List.map_cons, List.map_nil, List.mem_append, List.mem_singleton, not_or]
  by_cases h : q = p
  · subst h
    rw [if_pos ⟨rfl, rfl⟩]
    simp
  · rw [if_neg, hm q hq0 hq1]
    · exact ⟨fun h2 => ⟨h2, h⟩, fun h2 => h2.1⟩
    · rintro ⟨h2, h3⟩
      exact h (Prod.ext (by omega) (by omega))

theorem walk_snoc {d : ℕ} (hd : d < 4) {q : ℤ × ℤ} : ∀ (l : List ((ℤ × ℤ) × ℕ)) (p : ℤ × ℤ), Walk p l q →
    Walk p (l ++ [(q, d)]) (q + increment d) := by
  intro l
  induction l with
  | nil =>
    intro p h
    have h : p = q := h
    subst h
    refine ⟨rfl, hd, ?_⟩
    change p + _ = p + _
    interval_cases d <;> rfl
  | cons s l ih =>
    intro p h
    exact ⟨h.1, h.2.1, ih _ h.2.2⟩

theorem avoid_snoc {cells : List ((ℤ × ℤ) × ℕ)} {p : ℤ × ℤ} (h : SelfAvoiding cells p) {d : ℕ} {q : ℤ × ℤ}
    (hq : q ∉ (cells ++ [(p, d)]).map Prod.fst) : SelfAvoiding (cells ++ [(p, d)]) q := by
  unfold SelfAvoiding at *
  rw [List.nodup_append]
  refine ⟨by simpa using h, List.nodup_singleton _, ?_⟩
  intro a ha b hb hab
  rw [List.mem_singleton] at hb
  subst hb
  subst hab
  exact hq ha

/-- the loop over cells: a walk that visits no place twice, or stuck. -/
theorem attempt_spec (s : ℤ × ℤ) (order : ℕ → List ℕ) (ho : ∀ k, (order k).Perm [0, 1, 2, 3]) : ∀ (n k : ℕ) (b : Board) (p : ℤ × ℤ)
    (cells : List ((ℤ × ℤ) × ℕ)), BoardInside b n p → BoardMarks b cells → Walk s cells p → SelfAvoiding cells p →
    (∃ out q, attemptLoop order n k b p.1 p.2 cells = .ok (some out) ∧ out.length = cells.length + n ∧ Walk s out q ∧ SelfAvoiding out q) ∨
    (attemptLoop order n k b p.1 p.2 cells = .ok none ∧ ∃ out q, cells.length ≤ out.length ∧ out.length < cells.length + n ∧ Walk s out q ∧
      SelfAvoiding out q ∧ ∀ d < 4, q + increment d ∈ out.map Prod.fst) := by
  intro n
  induction n with
  | zero => intro k b p cells _ _ hw hs; exact .inl ⟨cells, p, rfl, rfl, hw, hs⟩
  | succ n ih =>
    intro k b p cells hi hm hw hs
    have hmem : ∀ d, d ∈ order k ↔ d < 4 := by
      intro d
      rw [(ho k).mem_iff]
      simp
      omega
    have hne : order k ≠ [] := by
      intro h
      have := (hmem 0).mpr (by omega)
      rw [h] at this
      exact absurd this (by simp)
    obtain ⟨d, hd, h1, h2⟩ := try_spec hi (order k) hne fun d hd => (hmem d).mp hd
    have hd4 := (hmem d).mp hd
    have near := increment_near hd4 b p _ hi
    unfold attemptLoop
    rw [h1]
    simp only [bind, Except.bind]
    rw [board_at near]
    simp only
    have hp : 0 ≤ p.1 ∧ p.1 < b.ndim ∧ 0 ≤ p.2 ∧ p.2 < b.ndim := by
      obtain ⟨a1, a2, a3, a4⟩ := hi
      push_cast at *
      refine ⟨by omega, by omega, by omega, by omega⟩
    by_cases hv : b.get (p + increment d).1.toNat (p + increment d).2.toNat = -1
    · rw [if_neg (by simpa using hv), board_set hp]
      simp only
      have hnew : p + increment d ∉ (cells ++ [(p, d)]).map Prod.fst := by
        simp only [List.map_append, List.map_cons, List.map_nil, List.mem_append, List.mem_singleton, not_or]
        exact ⟨(hm _ near.1 near.2.2.1).mp hv, increment_ne hd4 p⟩
      have := ih (k + 1) ⟨b.ndim, fun r c => if r = p.1.toNat ∧ c = p.2.toNat then (d : ℤ) else b.get r c⟩ (p + increment d) (cells ++ [(p, d)]) (increment_inside hd4 _ p n hi) (marks_set hm hp.1 hp.2.2.1 d)
        (walk_snoc hd4 _ _ hw) (avoid_snoc hs hnew)
      rw [List.length_append, List.length_singleton] at this
      rcases this with ⟨out, q, g1, g2, g3, g4⟩ | ⟨g1, out, q, g2, g3, g4⟩
      · exact .inl ⟨out, q, g1, by omega, g3, g4⟩
      · exact .inr ⟨g1, out, q, by omega, by omega, g4⟩
    · rw [if_pos (by simpa using hv)]
      refine .inr ⟨rfl, cells, p, le_rfl, by omega, hw, hs, fun e he => ?_⟩
      have h3 := h2 hv e ((hmem e).mpr he)
      have near' := increment_near he b p _ hi
      by_contra h4
      exact h3 ((hm _ near'.1 near'.2.2.1).mpr h4)

theorem walk_prefix_mem {s : ℤ × ℤ} : ∀ {l : List ((ℤ × ℤ) × ℕ)} {q : ℤ × ℤ}, Walk s l q → l ≠ [] → ∃ d < 4, ∃ t, l = (s, d) :: t ∧ Walk (s + increment d) t q := by
  intro l q h hl
  cases l with
  | nil => exact absurd rfl hl
  | cons a t =>
    obtain ⟨h1, h2, h3⟩ := h
    refine ⟨a.2, h2, t, by rw [← h1], ?_⟩
    have : increment a.2 = [((-1 : ℤ), (0 : ℤ)), (0, 1), (1, 0), (0, -1)].getD a.2 0 := rfl
    rw [this]
    exact h3

/-- the order that begins with a direction. -/
def orderFrom (d : ℕ) : List ℕ := d :: [0, 1, 2, 3].erase d

theorem orderFrom_perm {d : ℕ} (hd : d < 4) : (orderFrom d).Perm [0, 1, 2, 3] := by
  refine (List.perm_cons_erase ?_).symm
  interval_cases d <;> simp

theorem try_first {b : Board} {p : ℤ × ℤ} {n d : ℕ} (hp : BoardInside b n p) (hd : d < 4)
    (hv : b.get (p + increment d).1.toNat (p + increment d).2.toNat = -1) (l : List ℕ) :
    tryDirections b p.1 p.2 (d :: l) = .ok (d, (p + increment d).1, (p + increment d).2) := by
  unfold tryDirections
  have hat : b.at (p.1 + (increment d).1) (p.2 + (increment d).2) = .ok (b.get (p + increment d).1.toNat (p + increment d).2.toNat) :=
    board_at (increment_near hd b p n hp)
  simp only [bind, Except.bind]
  rw [hat]
  simp only
  rw [if_pos (.inl hv)]
  rfl

/-- every walk that visits no place twice can be drawn. -/
theorem attempt_reach (order : ℕ → List ℕ) (q : ℤ × ℤ) : ∀ (l : List ((ℤ × ℤ) × ℕ)) (k : ℕ) (b : Board) (p : ℤ × ℤ)
    (cells : List ((ℤ × ℤ) × ℕ)), BoardInside b l.length p → BoardMarks b cells → Walk p l q → SelfAvoiding (cells ++ l) q →
    (∀ a, (h : a < l.length) → order (k + a) = orderFrom (l[a]).2) →
    attemptLoop order l.length k b p.1 p.2 cells = .ok (some (cells ++ l)) := by
  intro l
  induction l with
  | nil => intro k b p cells _ _ _ _ _; rw [List.append_nil]; rfl
  | cons s l ih =>
    intro k b p cells hi hm hw hs hord
    obtain ⟨d, hd, t, he, hw'⟩ := walk_prefix_mem hw (by simp)
    obtain ⟨rfl, rfl⟩ := List.cons.inj he
    have hp : 0 ≤ p.1 ∧ p.1 < b.ndim ∧ 0 ≤ p.2 ∧ p.2 < b.ndim := by
      obtain ⟨a1, a2, a3, a4⟩ := hi
      refine ⟨by omega, by omega, by omega, by omega⟩
    have near := increment_near hd b p _ hi
    have hnext : p + increment d ∈ l.map Prod.fst ++ [q] := by
      cases l with
      | nil => have : p + increment d = q := hw'; simp [this]
      | cons a l => have : a.1 = p + increment d := hw'.1; simp [this]
    have hs' : (cells.map Prod.fst ++ (p :: (l.map Prod.fst ++ [q]))).Nodup := by
      unfold SelfAvoiding at hs
      simpa using hs
    have hv : b.get (p + increment d).1.toNat (p + increment d).2.toNat = -1 := by
      rw [hm _ near.1 near.2.2.1]
      intro h
      exact (List.nodup_append.mp hs').2.2 _ h _ (List.mem_cons_of_mem _ hnext) rfl
    have ho := hord 0 (by simp)
    simp only [Nat.add_zero, List.getElem_cons_zero] at ho
    simp only [List.length_cons]
    unfold attemptLoop
    rw [ho]
    unfold orderFrom
    rw [try_first hi hd hv]
    simp only [bind, Except.bind]
    rw [board_at near]
    simp only
    rw [if_neg (by simpa using hv), board_set hp]
    simp only
    have := ih (k + 1) ⟨b.ndim, fun r c => if r = p.1.toNat ∧ c = p.2.toNat then (d : ℤ) else b.get r c⟩ (p + increment d) (cells ++ [(p, d)]) (increment_inside hd _ p _ hi) (marks_set hm hp.1 hp.2.2.1 d) hw'
      (by unfold SelfAvoiding at *; simpa using hs)
      (fun a ha => by
        have := hord (a + 1) (by simpa using ha)
        rw [show k + 1 + a = k + (a + 1) by omega, this]
        rfl)
    rw [this]
    simp

end Verif.Lemmas
