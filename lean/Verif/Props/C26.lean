import Verif.Props.C24

/-!
# C26: the loss is a weighted Hamming loss
-/

namespace Verif.Props

open Finset Verif.Common Verif.Loss

theorem weightedHamming_nonneg {n : ℕ} {c : ℕ → ℚ} {y yhat : ℕ → ℕ} (hc : ∀ i < n, 0 ≤ c (y i)) :
    0 ≤ weightedHamming n c y yhat := by
  unfold weightedHamming
  apply sum_nonneg
  intro i hi
  split
  · exact le_rfl
  · exact hc i (mem_range.mp hi)

theorem weightedHamming_eq_zero {n : ℕ} {c : ℕ → ℚ} {y yhat : ℕ → ℕ} (hc : ∀ i < n, 0 < c (y i)) :
    weightedHamming n c y yhat = 0 ↔ ∀ i < n, y i = yhat i := by
  unfold weightedHamming
  rw [sum_eq_zero_iff_of_nonneg]
  · constructor
    · intro h i hi
      have := h i (mem_range.mpr hi)
      by_contra hne
      rw [if_neg hne] at this
      exact absurd this (hc i hi).ne'
    · intro h i hi
      rw [if_pos (h i (mem_range.mp hi))]
  · intro i hi
    split
    · exact le_rfl
    · exact (hc i (mem_range.mp hi)).le

theorem weightedHamming_le {n : ℕ} {c : ℕ → ℚ} {y yhat : ℕ → ℕ} (hc : ∀ i < n, 0 ≤ c (y i)) :
    weightedHamming n c y yhat ≤ ∑ i ∈ range n, c (y i) := by
  unfold weightedHamming
  apply sum_le_sum
  intro i hi
  split
  · exact hc i (mem_range.mp hi)
  · exact le_rfl

/-- **C26a.** With positive class weights covering the true labels: `loss(y, yhat)` and `max_loss(y)` are
defined, `0 ≤ loss ≤ max_loss`, and the loss vanishes exactly if the labellings agree. -/
theorem C26_loss_bounds (c : Vec) (y yhat : Labels) (hs : yhat.size = y.size)
    (hc : ∀ i < y.size, y.get i < c.size) (hpos : ∀ s < c.size, 0 < c.get s) :
    ∃ L M, loss (some c) y yhat = .ok L ∧ maxLoss (some c) y = .ok M ∧ 0 ≤ L ∧ L ≤ M ∧
      (L = 0 ↔ ∀ i < y.size, y.get i = yhat.get i) := by
  have hp : ∀ i < y.size, 0 < c.get (y.get i) := fun i hi => hpos _ (hc i hi)
  refine ⟨_, _, loss_some_ok rfl hs hc, by simp only [maxLoss]; rw [if_pos hc],
    weightedHamming_nonneg fun i hi => (hp i hi).le,
    weightedHamming_le fun i hi => (hp i hi).le, weightedHamming_eq_zero hp⟩

/-- **C26b.** Without class weights: the same bounds, with `max_loss` the number of vertices. -/
theorem C26_loss_bounds_unweighted (y yhat : Labels) (hs : yhat.size = y.size) :
    ∃ L : ℚ, loss none y yhat = .ok L ∧ maxLoss none y = .ok (y.size : ℚ) ∧ 0 ≤ L ∧
      L ≤ y.size ∧ (L = 0 ↔ ∀ i < y.size, y.get i = yhat.get i) ∧
      L = ((range y.size).filter fun i => y.get i ≠ yhat.get i).card := by
  refine ⟨_, loss_none_ok rfl hs, rfl, weightedHamming_nonneg fun _ _ => zero_le_one, ?_,
    weightedHamming_eq_zero fun _ _ => zero_lt_one, ?_⟩
  · refine (weightedHamming_le fun _ _ => zero_le_one).trans ?_
    simp
  · unfold weightedHamming
    rw [card_filter]
    push_cast
    apply sum_congr rfl
    intro i _
    by_cases h : y.get i = yhat.get i <;> simp [h]

/-- **C26c.** Without class weights the loss is symmetric and satisfies the triangle inequality. -/
theorem C26_loss_metric (a b c : Labels) (hb : b.size = a.size) (hc : c.size = a.size) :
    loss none a b = loss none b a ∧
    ∃ Lab Lbc Lac, loss none a b = .ok Lab ∧ loss none b c = .ok Lbc ∧ loss none a c = .ok Lac ∧
      Lac ≤ Lab + Lbc := by
  constructor
  · rw [loss_none_ok (n := a.size) rfl hb, loss_none_ok (n := a.size) hb rfl]
    unfold weightedHamming
    simp only [eq_comm]
  · refine ⟨_, _, _, loss_none_ok rfl hb, loss_none_ok hb hc, loss_none_ok rfl hc, ?_⟩
    unfold weightedHamming
    rw [← sum_add_distrib]
    apply sum_le_sum
    intro i _
    by_cases h1 : a.get i = b.get i <;> by_cases h2 : b.get i = c.get i <;>
      by_cases h3 : a.get i = c.get i <;> simp_all

/-- Labels for which no class weight exists are rejected with `IndexError`. -/
theorem C26_label_without_weight (c : Vec) (y yhat : Labels) (hs : yhat.size = y.size) (i : ℕ)
    (hi : i < y.size) (h : c.size ≤ y.get i) : loss (some c) y yhat = .error .indexError := by
  unfold loss
  rw [if_neg (by omega)]
  simp only
  rw [if_neg]
  intro hall
  exact absurd (hall i hi) (by omega)

/-- concrete instance: three vertices, weights 2 and 3, two mistakes on true labels 0 and 1. -/
example : loss (some ⟨2, fun s => if s = 0 then 2 else 3⟩) ⟨3, fun i => if i = 0 then 0 else 1⟩
    ⟨3, fun i => if i = 1 then 1 else if i = 0 then 1 else 0⟩ = .ok 5 := by decide +kernel

end Verif.Props
