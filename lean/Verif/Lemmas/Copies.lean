import Verif.Spec.Copies
import Verif.Model.OneSlack
import Mathlib.Algebra.BigOperators.Group.List.Basic
import Mathlib.Tactic.FieldSimp
import Mathlib.Tactic.Ring

/-!
# Sums over repeated data
-/

namespace Verif.Lemmas

open Verif.Spec Verif.Learner

/-- every sum over `l'` is `k` times that over `l`. -/
def Copies {α : Type} (k : ℕ) (l l' : List α) : Prop :=
  ∀ f : α → ℚ, (l'.map f).sum = k * (l.map f).sum

theorem copies_of_repeated {α : Type} {k : ℕ} {l l' : List α} (h : Repeated k l l') : Copies k l l' := by
  intro f
  rw [(h.map f).sum_eq]
  clear h
  induction k with
  | zero => simp
  | succ k ih =>
    rw [List.replicate_succ, List.flatten_cons, List.map_append, List.sum_append, ih]
    push_cast
    ring

theorem copies_map {α β : Type} {k : ℕ} {l l' : List α} (h : Copies k l l') (g : α → β) :
    Copies k (l.map g) (l'.map g) := by
  intro f
  rw [List.map_map, List.map_map]
  exact h _

theorem copies_length {α : Type} {k : ℕ} {l l' : List α} (h : Copies k l l') : l'.length = k * l.length := by
  have := h fun _ => 1
  simp only [List.map_const', List.sum_replicate, nsmul_eq_mul, mul_one] at this
  exact_mod_cast this

theorem copies_mem {α : Type} {k : ℕ} (hk : 0 < k) {l l' : List α} (h : Copies k l l') (a : α) : a ∈ l' ↔ a ∈ l := by
  classical
  have key : ∀ l : List α, (l.map fun b => if b = a then (1 : ℚ) else 0).sum = l.count a := by
    intro l
    induction l with
    | nil => simp
    | cons b l ih =>
      rw [List.map_cons, List.sum_cons, ih, List.count_cons]
      by_cases hb : b = a
      · simp [hb]; ring
      · simp [hb]
  have := h fun b => if b = a then (1 : ℚ) else 0
  rw [key, key] at this
  have h2 : l'.count a = k * l.count a := by exact_mod_cast this
  rw [← List.count_pos_iff, ← List.count_pos_iff, h2]
  exact ⟨fun h => Nat.pos_of_mul_pos_left h |> fun _ => by
    rcases Nat.eq_zero_or_pos (l.count a) with h0 | h0
    · rw [h0] at h; simp at h
    · exact h0, fun h => Nat.mul_pos hk h⟩

theorem copies_nil {α : Type} {k : ℕ} (hk : 0 < k) {l l' : List α} (h : Copies k l l') : l' = [] ↔ l = [] := by
  rw [← List.length_eq_zero_iff, ← List.length_eq_zero_iff, copies_length h]
  simp [hk.ne']

/-- means agree. -/
theorem copies_mean {α : Type} {k : ℕ} (hk : 0 < k) {l l' : List α} (h : Copies k l l') (f : α → ℚ) :
    (l'.map f).sum / (l'.length : ℚ) = (l.map f).sum / (l.length : ℚ) := by
  have hk' : (k : ℚ) ≠ 0 := by exact_mod_cast hk.ne'
  rw [h, copies_length h, Nat.cast_mul, mul_div_mul_left _ _ hk']

theorem copies_ratio {α : Type} {k : ℕ} (hk : 0 < k) {l l' : List α} (h : Copies k l l') (f g : α → ℚ) :
    (l'.map f).sum / (l'.map g).sum = (l.map f).sum / (l.map g).sum := by
  have hk' : (k : ℚ) ≠ 0 := by exact_mod_cast hk.ne'
  rw [h, h, mul_div_mul_left _ _ hk']

theorem copies_objectivePrimal {X Y : Type} {k : ℕ} (hk : 0 < k) {l l' : List (X × Y)} (h : Copies k l l')
    (m : SModel X Y) (w : W) (C : ℚ) (ns : Bool) :
    objectivePrimal m w l' (C / k) ns = objectivePrimal m w l C ns := by
  have hk' : (0 : ℚ) < k := by exact_mod_cast hk
  unfold objectivePrimal
  by_cases hl : l = []
  · rw [hl, (copies_nil hk h).mpr hl]; rfl
  · have hl' : ¬ l' = [] := fun h' => hl ((copies_nil hk h).mp h')
    rw [if_neg (by simpa using hl'), if_neg (by simpa using hl)]
    have key : ∀ f : X × Y → ℚ, max (l'.map f).sum 0 * (C / k) = max (l.map f).sum 0 * C := by
      intro f
      rw [h f]
      have : max (k * (l.map f).sum) 0 = k * max (l.map f).sum 0 := by
        rw [mul_max_of_nonneg _ _ hk'.le, mul_zero]
      rw [this]
      field_simp
    cases ns with
    | true => simp only [if_true, List.map_map]; rw [key]
    | false => simp only [Bool.false_eq_true, if_false]; rw [key]

theorem copies_trainingLoss {X Y : Type} {k : ℕ} (hk : 0 < k) {l l' : List (X × Y)} (h : Copies k l l')
    (m : SModel X Y) (e : ℕ) (w : W) (it : ℕ) (curve : List ℚ) :
    computeTrainingLoss m e w l' it curve = computeTrainingLoss m e w l it curve := by
  have hz : ∀ l : List (X × Y), (((l.map Prod.snd).zip (predict m w (l.map Prod.fst))).map fun p => m.loss p.1 p.2) =
      l.map fun s => m.loss s.2 (m.inference s.1 w) := by
    intro l
    induction l with
    | nil => rfl
    | cons s l ih =>
      simp only [List.map_cons, predict, List.zip_cons_cons] at ih ⊢
      rw [ih]
  unfold computeTrainingLoss score
  rw [hz, hz, List.map_map, List.map_map, copies_ratio hk h]

end Verif.Lemmas
