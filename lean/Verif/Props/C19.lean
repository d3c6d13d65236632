import Verif.Model.Unstructured

/-!
# C19: BinaryClf inference
-/

namespace Verif.Props

open Finset Verif.Common Verif.Unstructured

theorem binJointFeature_dot (x w : Vec) (y : ℤ) (hy : y = -1 ∨ y = 1) (hw : x.size = w.size) :
    ∃ ψ, binJointFeature x y = .ok ψ ∧ ψ.size = x.size ∧
      w.dot ψ = .ok ((y : ℚ) * dot x.size x.get w.get / 2) := by
  refine ⟨⟨x.size, fun k => (y : ℚ) * x.get k / 2⟩, ?_, rfl, ?_⟩
  · unfold binJointFeature; rw [if_neg (not_not.mpr hy)]
  · unfold Vec.dot
    simp only
    rw [if_pos hw.symm]
    congr 1
    unfold Verif.dot
    rw [← hw, mul_div_assoc, div_eq_mul_inv, mul_comm (∑ _ ∈ _, _), mul_sum, mul_sum]
    apply sum_congr rfl; intro k _; ring

/-- **C19 (prediction).** For every sample and weight vector of the same length `inference` returns
`-1` or `+1`, and the other label has no larger inner product of weights and joint feature. -/
theorem C19_inference (x w : Vec) (hw : x.size = w.size) :
    ∃ y ψ e, binInference x w = .ok y ∧ (y = -1 ∨ y = 1) ∧ binJointFeature x y = .ok ψ ∧
      ψ.size = x.size ∧ w.dot ψ = .ok e ∧
      ∀ y', (y' = -1 ∨ y' = 1) → ∃ ψ' e', binJointFeature x y' = .ok ψ' ∧ w.dot ψ' = .ok e' ∧
        e' ≤ e := by
  have hinf : binInference x w = .ok (binDecide (dot x.size x.get w.get)) := by
    unfold binInference Vec.dot; rw [if_pos hw]
  have hd : binDecide (dot x.size x.get w.get) = -1 ∨ binDecide (dot x.size x.get w.get) = 1 := by
    unfold binDecide; split <;> simp
  obtain ⟨ψ, h1, h2, h3⟩ := binJointFeature_dot x w _ hd hw
  refine ⟨_, ψ, _, hinf, hd, h1, h2, h3, ?_⟩
  intro y' hy'
  obtain ⟨ψ', h1', _, h3'⟩ := binJointFeature_dot x w y' hy' hw
  refine ⟨ψ', _, h1', h3', ?_⟩
  generalize dot x.size x.get w.get = d
  unfold binDecide
  split
  · rcases hy' with rfl | rfl <;> push_cast <;> linarith
  · rcases hy' with rfl | rfl <;> push_cast <;> linarith

/-- **C19 (loss-augmented inference, the part that holds).** If the true label is `±1` and the score
`⟨w, x⟩` differs from it, `loss_augmented_inference` returns `-1` or `+1` and maximises score plus
loss. Missing from the full claim: the case `⟨w, x⟩ = y`, where it is false
(`C19_violated_at_margin`). -/
theorem C19_loss_augmented_partial (x w : Vec) (y : ℤ) (hw : x.size = w.size)
    (hy : y = -1 ∨ y = 1) (hne : w.dot x ≠ .ok (y : ℚ)) :
    ∃ yh ψ e, binLossAugmented x y w = .ok yh ∧ (yh = -1 ∨ yh = 1) ∧
      binJointFeature x yh = .ok ψ ∧ w.dot ψ = .ok e ∧
      ∀ y', (y' = -1 ∨ y' = 1) → ∃ ψ' e', binJointFeature x y' = .ok ψ' ∧ w.dot ψ' = .ok e' ∧
        e' + binLoss y y' ≤ e + binLoss y yh := by
  have hinf : binLossAugmented x y w = .ok (npSign (dot x.size x.get w.get - y)) := by
    unfold binLossAugmented Vec.dot; rw [if_pos hw]
  have hne' : dot x.size x.get w.get ≠ y := by
    intro h
    apply hne
    unfold Vec.dot
    rw [if_pos hw.symm, dot_comm, ← hw, h]
  have hd : npSign (dot x.size x.get w.get - y) = -1 ∨ npSign (dot x.size x.get w.get - y) = 1 := by
    unfold npSign
    rcases lt_trichotomy (dot x.size x.get w.get - (y : ℚ)) 0 with h | h | h
    · left; rw [if_neg (by linarith), if_pos h]
    · exact absurd (by linarith) hne'
    · right; rw [if_pos h]
  obtain ⟨ψ, h1, _, h3⟩ := binJointFeature_dot x w _ hd hw
  refine ⟨_, ψ, _, hinf, hd, h1, h3, ?_⟩
  intro y' hy'
  obtain ⟨ψ', h1', _, h3'⟩ := binJointFeature_dot x w y' hy' hw
  refine ⟨ψ', _, h1', h3', ?_⟩
  generalize dot x.size x.get w.get = d at *
  unfold npSign
  rcases lt_trichotomy (d - (y : ℚ)) 0 with h | h | h
  · rw [if_neg (by linarith), if_pos h]
    rcases hy with rfl | rfl <;> rcases hy' with rfl | rfl <;> norm_num [binLoss] at * <;> linarith
  · exact absurd (by linarith) hne'
  · rw [if_pos h]
    rcases hy with rfl | rfl <;> rcases hy' with rfl | rfl <;> norm_num [binLoss] at * <;> linarith

/-- **C19 is false at the margin.** Whenever `⟨w, x⟩` equals the true label exactly,
`loss_augmented_inference` returns `0`, which is not a label: `joint_feature` raises `ValueError` for
it. -/
theorem C19_violated_at_margin (x w : Vec) (y : ℤ) (h : w.dot x = .ok (y : ℚ)) :
    binLossAugmented x y w = .ok 0 ∧ binJointFeature x 0 = .error .valueError := by
  unfold Vec.dot at h
  split at h
  · rename_i hs
    constructor
    · unfold binLossAugmented Vec.dot
      rw [if_pos hs.symm, dot_comm, ← hs]
      injection h with h
      rw [h]
      simp [npSign]
    · simp [binJointFeature]
  · cases h

/-- the margin case happens: one feature, `x = w = 1`, true label `1`. -/
example : Vec.dot ⟨1, fun _ => 1⟩ ⟨1, fun _ => 1⟩ = .ok (((1 : ℤ) : ℚ)) ∧
    binLossAugmented ⟨1, fun _ => 1⟩ 1 ⟨1, fun _ => 1⟩ = .ok 0 := by decide +kernel

/-- concrete instance of the positive theorems: `⟨w, x⟩ = 1/2`, true label `-1` and `1`. -/
example : binInference ⟨1, fun _ => 1⟩ ⟨1, fun _ => 1 / 2⟩ = .ok 1 ∧
    binLossAugmented ⟨1, fun _ => 1⟩ (-1) ⟨1, fun _ => 1 / 2⟩ = .ok 1 ∧
    binLossAugmented ⟨1, fun _ => 1⟩ 1 ⟨1, fun _ => 1 / 2⟩ = .ok (-1) := by decide +kernel

end Verif.Props
