import Verif.Props.C26

/-!
# C27: the continuous loss extends the discrete loss
-/

namespace Verif.Props

open Finset Verif.Common Verif.Loss

theorem continuousLoss_some_ok {c : Vec} {y : Labels} {m : Mat} (hr : y.size ≤ m.rows)
    (hv : ∀ i < y.size, y.get i < m.cols) (hc : ∀ i < y.size, y.get i < c.size) :
    continuousLoss (some c) y m =
      .ok (∑ i ∈ range y.size, c.get (y.get i) * (1 - m.get i (y.get i))) := by
  unfold continuousLoss
  rw [if_neg (by omega), if_neg (not_not.mpr hv)]
  simp only
  rw [if_pos hc]

theorem continuousLoss_none_ok {y : Labels} {m : Mat} (hr : y.size ≤ m.rows)
    (hv : ∀ i < y.size, y.get i < m.cols) :
    continuousLoss none y m = .ok (∑ i ∈ range y.size, (1 - m.get i (y.get i))) := by
  unfold continuousLoss
  rw [if_neg (by omega), if_neg (not_not.mpr hv)]

/-- **C27a.** On one-hot marginals the continuous loss is the discrete loss. -/
theorem C27_onehot (cw : Option Vec) (S : ℕ) (y yhat : Labels) (hs : yhat.size = y.size)
    (hv : ∀ i < y.size, y.get i < S)
    (hc : ∀ c, cw = some c → ∀ i < y.size, y.get i < c.size) :
    ∃ L, loss cw y yhat = .ok L ∧
      continuousLoss cw y ⟨y.size, S, fun i s => if s = yhat.get i then 1 else 0⟩ = .ok L := by
  cases cw with
  | some c =>
    refine ⟨_, loss_some_ok rfl hs (hc c rfl), ?_⟩
    rw [continuousLoss_some_ok le_rfl hv (hc c rfl)]
    unfold weightedHamming
    congr 1
    apply sum_congr rfl; intro i _
    by_cases h : y.get i = yhat.get i <;> simp [h]
  | none =>
    refine ⟨_, loss_none_ok rfl hs, ?_⟩
    rw [continuousLoss_none_ok le_rfl hv]
    unfold weightedHamming
    congr 1
    apply sum_congr rfl; intro i _
    by_cases h : y.get i = yhat.get i <;> simp [h]

/-- **C27b.** The continuous loss is affine in the marginals. -/
theorem C27_affine (cw : Option Vec) (y : Labels) (r S : ℕ) (m m' : ℕ → ℕ → ℚ) (a : ℚ)
    (hr : y.size ≤ r) (hv : ∀ i < y.size, y.get i < S)
    (hc : ∀ c, cw = some c → ∀ i < y.size, y.get i < c.size) :
    ∃ L L', continuousLoss cw y ⟨r, S, m⟩ = .ok L ∧ continuousLoss cw y ⟨r, S, m'⟩ = .ok L' ∧
      continuousLoss cw y ⟨r, S, fun i s => a * m i s + (1 - a) * m' i s⟩ =
        .ok (a * L + (1 - a) * L') := by
  cases cw with
  | some c =>
    refine ⟨_, _, continuousLoss_some_ok hr hv (hc c rfl), continuousLoss_some_ok hr hv (hc c rfl),
      ?_⟩
    rw [continuousLoss_some_ok hr hv (hc c rfl), mul_sum, mul_sum, ← sum_add_distrib]
    congr 1
    apply sum_congr rfl; intro i _
    ring
  | none =>
    refine ⟨_, _, continuousLoss_none_ok hr hv, continuousLoss_none_ok hr hv, ?_⟩
    rw [continuousLoss_none_ok hr hv, mul_sum, mul_sum, ← sum_add_distrib]
    congr 1
    apply sum_congr rfl; intro i _
    ring

/-- **C27c.** For nonnegative marginals that sum to one at every vertex and nonnegative weights the
continuous loss lies between `0` and `max_loss(y)`. -/
theorem C27_range (cw : Option Vec) (y : Labels) (r S : ℕ) (m : ℕ → ℕ → ℚ)
    (hr : y.size ≤ r) (hv : ∀ i < y.size, y.get i < S)
    (hc : ∀ c, cw = some c → (∀ i < y.size, y.get i < c.size) ∧ ∀ s < c.size, 0 ≤ c.get s)
    (hnn : ∀ i < r, ∀ s < S, 0 ≤ m i s) (hsum : ∀ i < r, ∑ s ∈ range S, m i s = 1) :
    ∃ L M, continuousLoss cw y ⟨r, S, m⟩ = .ok L ∧ maxLoss cw y = .ok M ∧ 0 ≤ L ∧ L ≤ M := by
  have hm : ∀ i < y.size, 0 ≤ m i (y.get i) ∧ m i (y.get i) ≤ 1 := by
    intro i hi
    refine ⟨hnn i (by omega) _ (hv i hi), ?_⟩
    rw [← hsum i (by omega)]
    exact single_le_sum (f := fun s => m i s)
      (fun s hs => hnn i (by omega) s (mem_range.mp hs)) (mem_range.mpr (hv i hi))
  cases cw with
  | some c =>
    obtain ⟨h1, h2⟩ := hc c rfl
    refine ⟨_, _, continuousLoss_some_ok hr hv h1, by simp only [maxLoss]; rw [if_pos h1], ?_, ?_⟩
    · apply sum_nonneg
      intro i hi
      have hi' := mem_range.mp hi
      exact mul_nonneg (h2 _ (h1 i hi')) (by linarith [(hm i hi').2])
    · apply sum_le_sum
      intro i hi
      have hi' := mem_range.mp hi
      have := h2 _ (h1 i hi')
      nlinarith [(hm i hi').1]
  | none =>
    refine ⟨_, _, continuousLoss_none_ok hr hv, rfl, ?_, ?_⟩
    · apply sum_nonneg
      intro i hi
      linarith [(hm i (mem_range.mp hi)).2]
    · have : (y.size : ℚ) = ∑ i ∈ range y.size, (1 : ℚ) := by simp
      rw [this]
      apply sum_le_sum
      intro i hi
      linarith [(hm i (mem_range.mp hi)).1]

/-- concrete instance: one vertex, fractional marginals, weight 4 on the true label. -/
example : continuousLoss (some ⟨2, fun s => if s = 0 then 4 else 9⟩) ⟨1, fun _ => 0⟩
    ⟨1, 2, fun _ s => if s = 0 then 3 / 4 else 1 / 4⟩ = .ok 1 := by decide +kernel

end Verif.Props
