import Verif.Model.Unstructured

/-!
# C18: MultiClassClf inference is exact
-/

namespace Verif.Props

open Finset Verif.Common Verif.Unstructured

/-- score of class `c`: the weight block of that class times the features. -/
def classScore (F : ℕ) (w x : ℕ → ℚ) (c : ℕ) : ℚ := ∑ f ∈ range F, w (c * F + f) * x f

theorem mcScores_ok {m : MultiClass} {x w : Vec} (hS : 0 < m.nStates) (hx : x.size = m.nFeatures)
    (hw : w.size = m.size) :
    mcScores m x w = .ok ⟨m.nStates, classScore m.nFeatures w.get x.get⟩ := by
  unfold mcScores
  have h : w.size / m.nStates = m.nFeatures := by
    rw [hw]; exact Nat.mul_div_cancel_left _ hS
  rw [if_neg (by omega), if_neg (by rw [hw]; simp [MultiClass.size]), if_neg (by rw [h, hx]; simp)]
  rw [hx]
  rfl

theorem mcJointFeature_size {m : MultiClass} {x : Vec} {y : ℕ} {t : Option ℕ} {ψ : Vec}
    (h : mcJointFeature m x y t = .ok ψ) : ψ.size = m.size := by
  unfold mcJointFeature at h
  split at h
  · cases h
  split at h
  · cases h
  split at h
  · split at h
    · cases h
    · split at h
      · cases h
      · cases h; rfl
  · cases h; rfl

theorem dot_class (S F : ℕ) (w x : ℕ → ℚ) (y : ℕ) (hy : y < S) (r : ℚ) :
    dot (S * F) w (Mat.ravel ⟨S, F, fun s f => (if s = y then x f else 0) * r⟩).get
      = r * classScore F w x y := by
  have := dot_ravel ⟨S, F, fun s f => (if s = y then x f else 0) * r⟩ w
  simp only [Mat.ravel] at this ⊢
  rw [this, sum_eq_single y]
  · rw [classScore, mul_sum]
    apply sum_congr rfl; intro f _; rw [if_pos rfl]; ring
  · intro b _ hb
    apply sum_eq_zero; intro f _; rw [if_neg hb]; ring
  · intro h; exact absurd (mem_range.mpr hy) h

/-- the joint feature, if it needs no true label. -/
theorem mcJointFeature_dot {m : MultiClass} {x w : Vec} {y : ℕ} (t : Option ℕ) (hy : y < m.nStates)
    (hx : x.size = m.nFeatures) (hw : w.size = m.size) (hr : m.rescaleC = false) :
    ∃ ψ, mcJointFeature m x y t = .ok ψ ∧
      w.dot ψ = .ok (classScore m.nFeatures w.get x.get y) := by
  refine ⟨Mat.ravel ⟨m.nStates, m.nFeatures, fun s f => if s = y then x.get f else 0⟩, ?_, ?_⟩
  · unfold mcJointFeature
    rw [if_neg (by omega), if_neg (by omega), hr]
    rfl
  · unfold Vec.dot
    rw [if_pos (by rw [hw]; rfl)]
    have := dot_class m.nStates m.nFeatures w.get x.get y hy 1
    rw [one_mul] at this
    rw [← this, hw]
    simp only [mul_one]
    rfl

/-- the joint feature of a model with `rescale_C`. -/
theorem mcJointFeature_dot_rescale {m : MultiClass} {x w : Vec} {y t : ℕ} (hy : y < m.nStates)
    (ht : t < m.classWeight.size)
    (hx : x.size = m.nFeatures) (hw : w.size = m.size) (hr : m.rescaleC = true) :
    ∃ ψ, mcJointFeature m x y (some t) = .ok ψ ∧
      w.dot ψ = .ok (m.classWeight.get t * classScore m.nFeatures w.get x.get y) := by
  refine ⟨Mat.ravel ⟨m.nStates, m.nFeatures,
    fun s f => (if s = y then x.get f else 0) * m.classWeight.get t⟩, ?_, ?_⟩
  · unfold mcJointFeature
    rw [if_neg (by omega), if_neg (by omega), hr]
    simp only [if_true]
    rw [if_neg (by omega)]
  · unfold Vec.dot
    rw [if_pos (by rw [hw]; rfl), hw]
    congr 1
    exact dot_class m.nStates m.nFeatures w.get x.get y hy _

/-- **C18 (prediction).** For every `MultiClassClf` with at least one class, every sample and every
weight vector of the advertised size, `inference` returns an existing class, and no class has a
larger inner product of the weights with its joint feature. The energy reported on request is that
of the returned class. (Stated for models without `rescale_C`; with it `joint_feature` demands the
true label, see `C18_inference_rescale`.) -/
theorem C18_inference (m : MultiClass) (x w : Vec) (hS : 0 < m.nStates)
    (hx : x.size = m.nFeatures) (hw : w.size = m.size) (hr : m.rescaleC = false) :
    ∃ y ψ e, mcInference m x w = .ok y ∧ y < m.nStates ∧
      mcJointFeature m x y none = .ok ψ ∧ ψ.size = m.size ∧ w.dot ψ = .ok e ∧
      mcInferenceEnergy m x w = .ok (y, e) ∧
      ∀ y' < m.nStates, ∃ ψ' e', mcJointFeature m x y' none = .ok ψ' ∧ w.dot ψ' = .ok e' ∧
        e' ≤ e := by
  have hlt := argmaxN_lt (classScore m.nFeatures w.get x.get) hS
  obtain ⟨ψ, hψ, hd⟩ := mcJointFeature_dot none hlt hx hw hr
  refine ⟨_, ψ, _, ?_, hlt, hψ, mcJointFeature_size hψ, hd, ?_, ?_⟩
  · unfold mcInference; rw [mcScores_ok hS hx hw]
  · unfold mcInferenceEnergy; rw [mcScores_ok hS hx hw]; rfl
  · intro y' hy'
    obtain ⟨ψ', hψ', hd'⟩ := mcJointFeature_dot none hy' hx hw hr
    exact ⟨ψ', _, hψ', hd', le_argmaxN _ hy'⟩

/-- **C18 (prediction, `rescale_C`).** With `rescale_C` the joint feature of every class is scaled by the
weight of the true class; `inference` maximises the resulting score for every true class whose weight
is positive (it does not know the true class). -/
theorem C18_inference_rescale (m : MultiClass) (x w : Vec) (t : ℕ) (hS : 0 < m.nStates)
    (hx : x.size = m.nFeatures) (hw : w.size = m.size) (hr : m.rescaleC = true)
    (ht : t < m.classWeight.size) (hpos : 0 ≤ m.classWeight.get t) :
    ∃ y ψ e, mcInference m x w = .ok y ∧ y < m.nStates ∧
      mcJointFeature m x y (some t) = .ok ψ ∧ ψ.size = m.size ∧ w.dot ψ = .ok e ∧
      ∀ y' < m.nStates, ∃ ψ' e', mcJointFeature m x y' (some t) = .ok ψ' ∧ w.dot ψ' = .ok e' ∧
        e' ≤ e := by
  have hlt := argmaxN_lt (classScore m.nFeatures w.get x.get) hS
  obtain ⟨ψ, hψ, hd⟩ := mcJointFeature_dot_rescale hlt ht hx hw hr
  refine ⟨_, ψ, _, ?_, hlt, hψ, mcJointFeature_size hψ, hd, ?_⟩
  · unfold mcInference; rw [mcScores_ok hS hx hw]
  · intro y' hy'
    obtain ⟨ψ', hψ', hd'⟩ := mcJointFeature_dot_rescale hy' ht hx hw hr
    exact ⟨ψ', _, hψ', hd', mul_le_mul_of_nonneg_left (le_argmaxN _ hy') hpos⟩

/-- **C18 (loss-augmented inference).** For every true class `y` with nonnegative weight — with or
without class weights and `rescale_C` — `loss_augmented_inference` returns an existing class that
maximises the inner product of weights and joint feature plus the loss. -/
theorem C18_loss_augmented (m : MultiClass) (x w : Vec) (y : ℕ)
    (hx : x.size = m.nFeatures) (hw : w.size = m.size) (hy : y < m.nStates)
    (hc : m.classWeight.size = m.nStates) (hpos : 0 ≤ m.classWeight.get y) :
    ∃ yh ψ s l, mcLossAugmented m x y w = .ok yh ∧ yh < m.nStates ∧
      mcJointFeature m x yh (some y) = .ok ψ ∧ w.dot ψ = .ok s ∧ mcLoss m y yh = .ok l ∧
      ∀ y' < m.nStates, ∃ ψ' s' l', mcJointFeature m x y' (some y) = .ok ψ' ∧
        w.dot ψ' = .ok s' ∧ mcLoss m y y' = .ok l' ∧ s' + l' ≤ s + l := by
  have hS : 0 < m.nStates := by omega
  have hloss : ∀ c, mcLoss m y c = .ok (m.classWeight.get y * (if y ≠ c then 1 else 0)) := by
    intro c; unfold mcLoss; rw [if_neg (by omega)]
  rcases hr : m.rescaleC with _ | _
  · set g : ℕ → ℚ := fun c => if c ≠ y then classScore m.nFeatures w.get x.get c +
      m.classWeight.get y else classScore m.nFeatures w.get x.get c with hg
    have hgv : ∀ c, g c = classScore m.nFeatures w.get x.get c +
        m.classWeight.get y * (if y ≠ c then 1 else 0) := by
      intro c
      by_cases h : c = y
      · simp [hg, h]
      · simp [hg, h, Ne.symm h]
    have hlt := argmaxN_lt g hS
    obtain ⟨ψ, hψ, hd⟩ := mcJointFeature_dot (some y) hlt hx hw hr
    refine ⟨_, ψ, _, _, ?_, hlt, hψ, hd, hloss _, ?_⟩
    · unfold mcLossAugmented
      rw [mcScores_ok hS hx hw, hr]
      simp only [Bool.false_eq_true, if_false]
      rw [if_neg (by omega)]
    · intro y' hy'
      obtain ⟨ψ', hψ', hd'⟩ := mcJointFeature_dot (some y) hy' hx hw hr
      refine ⟨ψ', _, _, hψ', hd', hloss _, ?_⟩
      rw [← hgv, ← hgv]
      exact le_argmaxN g hy'
  · set g : ℕ → ℚ := fun c => if c ≠ y then classScore m.nFeatures w.get x.get c + 1
      else classScore m.nFeatures w.get x.get c with hg
    have hgv : ∀ c, m.classWeight.get y * classScore m.nFeatures w.get x.get c +
        m.classWeight.get y * (if y ≠ c then 1 else 0) = m.classWeight.get y * g c := by
      intro c
      by_cases h : c = y
      · simp [hg, h]
      · simp [hg, h, Ne.symm h]; ring
    have hlt := argmaxN_lt g hS
    have ht : y < m.classWeight.size := by omega
    obtain ⟨ψ, hψ, hd⟩ := mcJointFeature_dot_rescale hlt ht hx hw hr
    refine ⟨_, ψ, _, _, ?_, hlt, hψ, hd, hloss _, ?_⟩
    · unfold mcLossAugmented
      rw [mcScores_ok hS hx hw, hr]
      rfl
    · intro y' hy'
      obtain ⟨ψ', hψ', hd'⟩ := mcJointFeature_dot_rescale hy' ht hx hw hr
      refine ⟨ψ', _, _, hψ', hd', hloss _, ?_⟩
      rw [hgv, hgv]
      exact mul_le_mul_of_nonneg_left (le_argmaxN g hy') hpos

/-- With a negative class weight and `rescale_C` the returned class need not be a maximiser: nonnegativity
of the weight is needed. -/
theorem C18_negative_weight_counterexample :
    ∃ (m : MultiClass) (x w : Vec) (y : ℕ), x.size = m.nFeatures ∧ w.size = m.size ∧
      y < m.nStates ∧ m.classWeight.size = m.nStates ∧ m.rescaleC = true ∧
      mcLossAugmented m x y w = .ok 1 ∧ mcLoss m y 1 = .ok (-1) ∧ mcLoss m y 0 = .ok 0 ∧
      (do w.dot (← mcJointFeature m x 1 (some y))) = .ok 0 ∧
      (do w.dot (← mcJointFeature m x 0 (some y))) = .ok 0 :=
  ⟨⟨2, 1, ⟨2, fun _ => -1⟩, false, true⟩, ⟨1, fun _ => 0⟩, ⟨2, fun _ => 0⟩, 0, by decide +kernel⟩

/-- concrete instance: three classes, two features, class weights 1, 2, 5, true class 2. -/
example : (do
    let m : MultiClass := ⟨3, 2, ⟨3, fun c => [1, 2, 5].getD c 0⟩, false, false⟩
    let x : Vec := ⟨2, fun f => if f = 0 then 1 else -1⟩
    let w : Vec := ⟨6, fun k => [3, 1, 0, 2, 4, 0].getD k 0⟩
    pure (← mcInference m x w, ← mcLossAugmented m x 2 w)) = (.ok (2, 0) : Except PyErr (ℕ × ℕ)) :=
  by decide +kernel

end Verif.Props
