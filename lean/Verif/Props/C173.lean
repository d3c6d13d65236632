import Verif.Props.C105
import Verif.Props.C106
import Verif.Props.C108
import Verif.Props.C156

/-!
# C173: a multi-class classifier with two classes is a binary classifier, and the weights of the classes add up to zero
-/

namespace Verif.Props

open Finset Verif.Common Verif.Spec Verif.Learner Verif.Unstructured

/-- Class 0 as the label -1, class 1 as the label 1. -/
def signOfClass (y : ℕ) : ℤ := if y = 0 then -1 else 1

/-- The samples of a classifier of two classes as samples of a binary classifier. -/
def signSamples (samples : List ((ℕ → ℚ) × ℕ)) : List ((ℕ → ℚ) × ℤ) := samples.map fun s => (s.1, signOfClass s.2)

/-- The difference of the weights of class 1 and class 0. -/
def weightDifference (F : ℕ) (w : W) : W := fun f => w (F + f) - w f

theorem signSamples_valid (samples : List ((ℕ → ℚ) × ℕ)) : ∀ s ∈ signSamples samples, s.2 = -1 ∨ s.2 = 1 := by
  intro s hs
  obtain ⟨t, -, rfl⟩ := List.mem_map.mp hs
  simp only [signOfClass]
  split
  · exact .inl rfl
  · exact .inr rfl

theorem difference_score (F : ℕ) (w : W) (x : ℕ → ℚ) :
    ∑ k ∈ range F, weightDifference F w k * x k = linearScore F w x 1 - linearScore F w x 0 := by
  unfold linearScore weightDifference
  rw [← sum_sub_distrib]
  refine sum_congr rfl fun k _ => ?_
  rw [one_mul, zero_mul, Nat.zero_add]
  ring

theorem twoClass_hinge (F : ℕ) (w : W) (x : ℕ → ℚ) {y : ℕ} (hy : y < 2) :
    multiHinge 2 F 1 w x y = max 0 (1 - (signOfClass y : ℚ) * ∑ k ∈ range F, weightDifference F w k * x k) := by
  rw [difference_score]
  have h2 : (range 2) = {0, 1} := by decide
  unfold multiHinge
  rw [h2, Finset.fold_insert (by decide), Finset.fold_singleton]
  interval_cases y
  · have e : (1 : ℚ) + linearScore F w x 1 - linearScore F w x 0 =
        1 - ((signOfClass 0 : ℤ) : ℚ) * (linearScore F w x 1 - linearScore F w x 0) := by
      simp only [signOfClass, if_true]
      push_cast
      ring
    rw [if_pos rfl, if_neg (by decide), e]
    rw [max_comm _ (0 : ℚ), ← max_assoc, max_self]
  · have e : (1 : ℚ) + linearScore F w x 0 - linearScore F w x 1 =
        1 - ((signOfClass 1 : ℤ) : ℚ) * (linearScore F w x 1 - linearScore F w x 0) := by
      simp only [signOfClass]
      norm_num
      ring
    rw [if_neg (by decide), if_pos rfl, e]
    rw [max_self, max_comm]

/-- **C173, the problem.** For two classes the problem of Crammer and Singer is half the problem of the linear support vector machine
with `2 C` at the difference of the weights, plus a quarter of the squared length of the sum of the weights. -/
theorem C173_objective (F : ℕ) (C : ℚ) (samples : List ((ℕ → ℚ) × ℕ)) (hd : ∀ s ∈ samples, s.2 < 2) (w : W) :
    multiSVM 2 F C (fun _ => 1) (fun _ => 1) samples w =
      linearSVM F (2 * C) (signSamples samples) (weightDifference F w) / 2 + (∑ f ∈ range F, (w f + w (F + f)) ^ 2) / 4 := by
  unfold multiSVM linearSVM signSamples
  rw [List.map_map]
  have h1 : (samples.map fun s => (1 : ℚ) * multiHinge 2 F 1 w s.1 s.2) = samples.map
      ((fun s : (ℕ → ℚ) × ℤ => max 0 (1 - s.2 * ∑ k ∈ range F, weightDifference F w k * s.1 k)) ∘ fun s => (s.1, signOfClass s.2)) := by
    refine List.map_congr_left fun s hs => ?_
    rw [one_mul, twoClass_hinge F w s.1 (hd s hs)]
    rfl
  rw [h1]
  have h2 : ∑ k ∈ range (2 * F), w k ^ 2 = ∑ f ∈ range F, (w f ^ 2 + w (F + f) ^ 2) := by
    rw [two_mul, sum_range_add, sum_add_distrib]
  have h3 : ∑ f ∈ range F, (w f ^ 2 + w (F + f) ^ 2) =
      (∑ f ∈ range F, weightDifference F w f ^ 2) / 2 + (∑ f ∈ range F, (w f + w (F + f)) ^ 2) / 2 := by
    rw [sum_div, sum_div, ← sum_add_distrib]
    refine sum_congr rfl fun f _ => ?_
    unfold weightDifference
    ring
  rw [h2, h3]
  ring

/-- Weights of two classes with a given difference and sum zero. -/
def splitWeights (F : ℕ) (u : W) : W := fun k => if k < F then -u k / 2 else u (k - F) / 2

theorem split_spec (F : ℕ) (u : W) {f : ℕ} (hf : f < F) :
    weightDifference F (splitWeights F u) f = u f ∧ splitWeights F u f + splitWeights F u (F + f) = 0 := by
  unfold weightDifference splitWeights
  rw [if_pos hf, if_neg (by omega), Nat.add_sub_cancel_left]
  constructor <;> ring

theorem linearSVM_congr (F : ℕ) (C : ℚ) (samples : List ((ℕ → ℚ) × ℤ)) {u v : W} (h : ∀ f < F, u f = v f) :
    linearSVM F C samples u = linearSVM F C samples v := by
  unfold linearSVM
  rw [sum_congr rfl fun f hf => by rw [h f (mem_range.mp hf)]]
  congr 3
  refine List.map_congr_left fun s _ => ?_
  rw [sum_congr rfl fun f hf => by rw [h f (mem_range.mp hf)]]

/-- **C173, near minima.** Weights that solve the problem with two classes up to `ε`: their difference solves the binary problem with
`2 C` up to `2 ε`, and the squared length of their sum is at most `4 ε`. -/
theorem C173_near (F : ℕ) (C ε : ℚ) (samples : List ((ℕ → ℚ) × ℕ)) (hd : ∀ s ∈ samples, s.2 < 2) (w : W)
    (h : ∀ v, multiSVM 2 F C (fun _ => 1) (fun _ => 1) samples w ≤ multiSVM 2 F C (fun _ => 1) (fun _ => 1) samples v + ε) :
    (∀ u, linearSVM F (2 * C) (signSamples samples) (weightDifference F w) ≤
      linearSVM F (2 * C) (signSamples samples) u + 2 * ε) ∧ ∑ f ∈ range F, (w f + w (F + f)) ^ 2 ≤ 4 * ε := by
  have key : ∀ u, linearSVM F (2 * C) (signSamples samples) (weightDifference F w) / 2 +
      (∑ f ∈ range F, (w f + w (F + f)) ^ 2) / 4 ≤ linearSVM F (2 * C) (signSamples samples) u / 2 + ε := by
    intro u
    have h1 := h (splitWeights F u)
    rw [C173_objective F C samples hd w, C173_objective F C samples hd (splitWeights F u),
      linearSVM_congr F (2 * C) _ fun f hf => (split_spec F u hf).1,
      sum_eq_zero (f := fun f => (splitWeights F u f + splitWeights F u (F + f)) ^ 2) fun f hf => by
        rw [(split_spec F u (mem_range.mp hf)).2]; norm_num] at h1
    linarith
  have hpos : 0 ≤ ∑ f ∈ range F, (w f + w (F + f)) ^ 2 := sum_nonneg fun f _ => sq_nonneg _
  refine ⟨fun u => ?_, ?_⟩
  · have := key u
    linarith
  · have := key (weightDifference F w)
    linarith

/-- **C173, from binary to two classes.** Conversely half the weights of the binary problem with `2 C`, solved up to `δ`, with both signs
solve the problem with two classes up to `δ / 2`. -/
theorem C173_split (F : ℕ) (C δ : ℚ) (samples : List ((ℕ → ℚ) × ℕ)) (hd : ∀ s ∈ samples, s.2 < 2) (u : W)
    (h : ∀ v, linearSVM F (2 * C) (signSamples samples) u ≤ linearSVM F (2 * C) (signSamples samples) v + δ) (v : W) :
    multiSVM 2 F C (fun _ => 1) (fun _ => 1) samples (splitWeights F u) ≤
      multiSVM 2 F C (fun _ => 1) (fun _ => 1) samples v + δ / 2 := by
  rw [C173_objective F C samples hd v, C173_objective F C samples hd (splitWeights F u),
    linearSVM_congr F (2 * C) _ fun f hf => (split_spec F u hf).1,
    sum_eq_zero (f := fun f => (splitWeights F u f + splitWeights F u (F + f)) ^ 2) fun f hf => by
      rw [(split_spec F u (mem_range.mp hf)).2]; norm_num]
  have h1 := h (weightDifference F v)
  have hpos : 0 ≤ ∑ f ∈ range F, (v f + v (F + f)) ^ 2 := sum_nonneg fun f _ => sq_nonneg _
  linarith

/-- A classifier of two classes whose class weights are one, with or without `rescale_C`. -/
structure TwoClasses (m : MultiClass) : Prop where
  states : m.nStates = 2
  size : m.classWeight.size = 2
  one : ∀ c < 2, m.classWeight.get c = 1

theorem twoClass_objective {m : MultiClass} (hm : TwoClasses m) (C : ℚ) {samples : List ((ℕ → ℚ) × ℕ)} (hd : ∀ s ∈ samples, s.2 < 2)
    (w : W) (a : ℚ) : (classProblem m).IsObjective C samples w a ↔
      a = multiSVM 2 m.nFeatures C (fun _ => 1) (fun _ => 1) samples w := by
  rw [C105_objective m (by rw [hm.size, hm.states]) (fun c hc => by rw [hm.one c (by rw [← hm.states]; exact hc)]; norm_num) C samples
    (by rw [hm.states]; exact hd), hm.states]
  have e : multiSVM 2 m.nFeatures C (classCost m) (classMargin m) samples w =
      multiSVM 2 m.nFeatures C (fun _ => 1) (fun _ => 1) samples w := by
    unfold multiSVM
    congr 3
    refine List.map_congr_left fun s hs => ?_
    have h1 := hm.one _ (hd s hs)
    have h2 : classCost m s.2 = 1 := by unfold classCost; rw [h1, ite_self]
    have h3 : classMargin m s.2 = 1 := by unfold classMargin; rw [h1, ite_self]
    rw [h2, h3]
  rw [e]

/-- **C173.** A `MultiClassClf` with two classes trained by any of the learners of C106 with `C` to accuracy `ε`, and any solution of the
binary problem with `2 C` of accuracy `δ`, such as a trained `BinaryClf`: the difference of the weights of the two classes is close to
the weights of the latter. -/
theorem C173_same_weights (m : MultiClass) (hm : TwoClasses m) (samples : List ((ℕ → ℚ) × ℕ)) (hd : ∀ s ∈ samples, s.2 < 2)
    (C ε δ : ℚ) (hC : 0 < C) (w u : W) (hw : Trained (multiClassModel m) (classes m.nStates) samples C ε w)
    (hu : (binProblem m.nFeatures).NearOptimal (2 * C) (signSamples samples) δ u) :
    ∑ f ∈ range m.nFeatures, (w (m.nFeatures + f) - w f - u f) ^ 2 ≤ 4 * (2 * ε + δ) := by
  have hc : m.classWeight.size = m.nStates := by rw [hm.size, hm.states]
  have hd' : ∀ s ∈ samples, s.2 < m.nStates := by rw [hm.states]; exact hd
  have hpos : ∀ c < m.nStates, 0 ≤ m.classWeight.get c := fun c h => by
    rw [hm.one c (by rw [← hm.states]; exact h)]; norm_num
  obtain ⟨p, h1, h2⟩ := trained_near _ _ (multiClass_exact m hc hpos true).1 _ (multiClass_labelled m hc _ hd') hC hw
  have h1' := (twoClass_objective hm C hd w p).mp h1
  have h3 := (C173_near m.nFeatures C ε samples hd w fun v => by
    rw [← h1']
    exact h2 v _ ((twoClass_objective hm C hd v _).mpr rfl)).1
  have hob := C108_objective m.nFeatures (2 * C) (signSamples samples) (signSamples_valid samples)
  have h4 : (binProblem m.nFeatures).NearOptimal (2 * C) (signSamples samples) (2 * ε) (weightDifference m.nFeatures w) := by
    refine ⟨_, (hob _ _).mpr rfl, fun v a ha => ?_⟩
    rw [(hob v a).mp ha]
    exact h3 v
  exact Lemmas.near_close (P := binProblem m.nFeatures) (C := 2 * C) (by linarith)
    (fun s hs v => ⟨_, (bin_hinge m.nFeatures v s.1 s.2 (signSamples_valid samples s hs) _).mpr rfl⟩) h4 hu

/-- **C173, predictions.** With two classes `MultiClassClf.inference` predicts class 1 exactly when the difference of the weights gives a
positive score; `BinaryClf.inference` with that difference, or any positive multiple, predicts the same class, but the label 1 for a
score of zero where `MultiClassClf` predicts class 0. -/
theorem C173_predictions (m : MultiClass) (hS : m.nStates = 2) (x : ℕ → ℚ) (w : W) (q : ℚ) (hq : 0 < q) :
    ∃ c, mcInference m ⟨m.nFeatures, x⟩ ⟨m.size, w⟩ = .ok c ∧ c < 2 ∧
      (c = 1 ↔ 0 < ∑ f ∈ range m.nFeatures, weightDifference m.nFeatures w f * x f) ∧
      binInference ⟨m.nFeatures, x⟩ ⟨m.nFeatures, fun f => q * weightDifference m.nFeatures w f⟩ =
        .ok (if ∑ f ∈ range m.nFeatures, weightDifference m.nFeatures w f * x f = 0 then 1 else signOfClass c) := by
  have e1 : mcInference m ⟨m.nFeatures, x⟩ ⟨m.size, w⟩ = .ok (argmaxN (linearScore m.nFeatures w x) 2) := by
    unfold mcInference mcScores MultiClass.size
    simp only [hS]
    rw [if_neg (by omega), if_neg (by simp), if_neg (by rw [Nat.mul_div_cancel_left _ (by omega)]; simp)]
    rfl
  have e2 : binInference ⟨m.nFeatures, x⟩ ⟨m.nFeatures, fun f => q * weightDifference m.nFeatures w f⟩ =
      .ok (binDecide (q * ∑ f ∈ range m.nFeatures, weightDifference m.nFeatures w f * x f)) := by
    unfold binInference Vec.dot
    simp only [if_true]
    congr 2
    unfold dot
    rw [mul_sum]
    exact sum_congr rfl fun f _ => by ring
  have e3 : argmaxN (linearScore m.nFeatures w x) 2 =
      if 0 < ∑ f ∈ range m.nFeatures, weightDifference m.nFeatures w f * x f then 1 else 0 := by
    rw [difference_score]
    split
    · rename_i h
      refine argmaxN_eq_of _ (by omega) ?_ ?_
      · intro j hj
        interval_cases j
        · linarith
        · exact le_rfl
      · intro j hj
        interval_cases j
        linarith
    · rename_i h
      refine argmaxN_eq_of _ (by omega) ?_ ?_
      · intro j hj
        interval_cases j
        · exact le_rfl
        · linarith
      · intro j hj
        omega
  refine ⟨_, e1, argmaxN_lt _ (by omega), ?_, ?_⟩
  · rw [e3]
    split <;> simp_all
  · rw [e2, e3]
    set t := ∑ f ∈ range m.nFeatures, weightDifference m.nFeatures w f * x f
    unfold binDecide
    rcases lt_trichotomy t 0 with h | h | h
    · rw [if_neg (not_le.mpr (mul_neg_of_pos_of_neg hq h)), if_neg h.ne, if_neg (not_lt.mpr h.le)]
      rfl
    · rw [h, mul_zero, if_pos le_rfl, if_pos rfl]
      rfl
    · rw [if_pos (mul_pos hq h).le, if_neg h.ne', if_pos h]
      rfl

/-- The weights with the mean over the classes subtracted. -/
def centredWeights (S F : ℕ) (w : W) : W := fun k => w k - (∑ c ∈ range S, w (c * F + k % F)) / S

theorem centred_hinge (S F : ℕ) (margin : ℚ) (w : W) (x : ℕ → ℚ) (y : ℕ) :
    multiHinge S F margin (centredWeights S F w) x y = multiHinge S F margin w x y := by
  have hl : ∀ c, linearScore F (centredWeights S F w) x c =
      linearScore F w x c - ∑ f ∈ range F, (∑ d ∈ range S, w (d * F + f)) / S * x f := by
    intro c
    unfold linearScore
    rw [← sum_sub_distrib]
    refine sum_congr rfl fun f hf => ?_
    unfold centredWeights
    rw [flat_mod (mem_range.mp hf)]
    ring
  unfold multiHinge
  refine fold_congr fun c _ => ?_
  rw [hl, hl]
  split
  · rfl
  · ring

/-- **C173, the mean.** For any number of classes, costs and margins, subtracting the mean over the classes lowers the problem of Crammer
and Singer by the squared length of the sum of the weights over twice the number of classes. -/
theorem C173_centred (S F : ℕ) (hS : 0 < S) (C : ℚ) (cost margin : ℕ → ℚ) (samples : List ((ℕ → ℚ) × ℕ)) (w : W) :
    multiSVM S F C cost margin samples (centredWeights S F w) + (∑ f ∈ range F, (∑ c ∈ range S, w (c * F + f)) ^ 2) / (2 * S) =
      multiSVM S F C cost margin samples w := by
  have hS' : (S : ℚ) ≠ 0 := by exact_mod_cast hS.ne'
  unfold multiSVM
  simp only [centred_hinge]
  have h1 : ∑ k ∈ range (S * F), centredWeights S F w k ^ 2 =
      ∑ k ∈ range (S * F), w k ^ 2 - (∑ f ∈ range F, (∑ c ∈ range S, w (c * F + f)) ^ 2) / S := by
    rw [sum_range_mul', sum_range_mul', sum_comm, sum_comm (s := range S), sum_div, ← sum_sub_distrib]
    refine sum_congr rfl fun f hf => ?_
    have h2 : ∀ c, centredWeights S F w (c * F + f) = w (c * F + f) - (∑ d ∈ range S, w (d * F + f)) / S := by
      intro c
      unfold centredWeights
      rw [flat_mod (mem_range.mp hf)]
    simp only [h2]
    set t := ∑ d ∈ range S, w (d * F + f) with ht
    have h3 : ∑ c ∈ range S, (w (c * F + f) - t / S) ^ 2 =
        ∑ c ∈ range S, w (c * F + f) ^ 2 - 2 * (t / S) * ∑ c ∈ range S, w (c * F + f) + S * (t / S) ^ 2 := by
      rw [mul_sum, ← sum_sub_distrib]
      rw [show (S : ℚ) * (t / S) ^ 2 = ∑ _c ∈ range S, (t / S) ^ 2 by simp, ← sum_add_distrib]
      exact sum_congr rfl fun c _ => by ring
    rw [h3, ← ht]
    field_simp
    ring
  rw [h1]
  field_simp
  ring

/-- **C173, sums.** A `MultiClassClf` with any number of classes, trained to accuracy `ε`: the weights of the classes add up to a vector
of squared length at most `2 n_states ε`. -/
theorem C173_sum_zero (m : MultiClass) (hS : 0 < m.nStates) (hc : m.classWeight.size = m.nStates)
    (hpos : ∀ c < m.nStates, 0 ≤ m.classWeight.get c) (samples : List ((ℕ → ℚ) × ℕ)) (hd : ∀ s ∈ samples, s.2 < m.nStates)
    (C ε : ℚ) (hC : 0 < C) (w : W) (hw : Trained (multiClassModel m) (classes m.nStates) samples C ε w) :
    ∑ f ∈ range m.nFeatures, (∑ c ∈ range m.nStates, w (c * m.nFeatures + f)) ^ 2 ≤ 2 * m.nStates * ε := by
  obtain ⟨p, h1, h2⟩ := trained_near _ _ (multiClass_exact m hc hpos true).1 _ (multiClass_labelled m hc _ hd) hC hw
  have hob := C105_objective m hc hpos C samples hd
  have h1' := (hob w p).mp h1
  have h3 := h2 (centredWeights m.nStates m.nFeatures w) _ ((hob _ _).mpr rfl)
  have h4 := C173_centred m.nStates m.nFeatures hS C (classCost m) (classMargin m) samples w
  have hS' : (0 : ℚ) < 2 * m.nStates := by
    have : (0 : ℚ) < m.nStates := by exact_mod_cast hS
    linarith
  have h5 : (∑ f ∈ range m.nFeatures, (∑ c ∈ range m.nStates, w (c * m.nFeatures + f)) ^ 2) / (2 * m.nStates) ≤ ε := by
    linarith
  rw [div_le_iff₀ hS'] at h5
  linarith

/-- Two samples of two classes with one feature. -/
def twoPoints : List ((ℕ → ℚ) × ℕ) := [(fun _ => 1, 1), (fun _ => -2, 0)]

theorem twoPoints_valid : ∀ s ∈ twoPoints, s.2 < 2 := by
  intro s hs
  simp only [twoPoints, List.mem_cons, List.not_mem_nil, or_false] at hs
  rcases hs with rfl | rfl <;> decide

/-- The weight 1 solves the binary problem of the two samples with `C = 2` exactly. -/
theorem twoPoints_binary (u : W) : linearSVM 1 (2 * 1) (signSamples twoPoints) (fun _ => 1) ≤
    linearSVM 1 (2 * 1) (signSamples twoPoints) u + 0 := by
  have h : ∀ v : W, linearSVM 1 (2 * 1) (signSamples twoPoints) v = v 0 ^ 2 / 2 + 2 * (max 0 (1 - v 0) + max 0 (1 - 2 * v 0)) := by
    intro v
    simp only [linearSVM, signSamples, twoPoints, signOfClass, List.map_cons, List.map_nil, List.sum_cons, List.sum_nil,
      sum_range_one]
    norm_num
    ring_nf
  rw [h, h]
  have h1 := le_max_right (0 : ℚ) (1 - u 0)
  have h2 := le_max_left (0 : ℚ) (1 - u 0)
  have h3 := le_max_left (0 : ℚ) (1 - 2 * u 0)
  norm_num
  nlinarith [sq_nonneg (u 0 - 1)]

/-- All hypotheses can be met, for any accuracy. -/
example (ε : ℚ) (hε : 0 < ε) : ∃ w : W,
    Trained (multiClassModel ⟨2, 1, ⟨2, fun _ => 1⟩, true, false⟩) (classes 2) twoPoints 1 ε w ∧
    (w 1 - w 0 - 1) ^ 2 ≤ 4 * (2 * ε + 0) ∧ (w 0 + w 1) ^ 2 ≤ 4 * ε := by
  obtain ⟨w, hw⟩ := trained_exists (multiClassModel ⟨2, 1, ⟨2, fun _ => 1⟩, true, false⟩) (classes 2)
    (multiClass_exact ⟨2, 1, ⟨2, fun _ => 1⟩, true, false⟩ rfl (fun _ _ => by norm_num) true).1 twoPoints
    (by simp [twoPoints]) rfl (multiClass_labelled ⟨2, 1, ⟨2, fun _ => 1⟩, true, false⟩ rfl _ twoPoints_valid) 100
    (mc_range ⟨2, 1, ⟨2, fun _ => 1⟩, true, false⟩ rfl _ twoPoints_valid 100 (by
      intro s hs
      simp only [twoPoints, List.mem_cons, List.not_mem_nil, or_false] at hs
      rcases hs with rfl | rfl <;> decide +kernel)) 1 ε (by norm_num) hε
  have hob := C108_objective 1 (2 * 1) (signSamples twoPoints) (signSamples_valid twoPoints)
  have h1 := C173_same_weights ⟨2, 1, ⟨2, fun _ => 1⟩, true, false⟩ ⟨rfl, rfl, fun _ _ => rfl⟩ twoPoints twoPoints_valid 1 ε 0
    (by norm_num) w (fun _ => 1) hw ⟨_, (hob _ _).mpr rfl, fun v a ha => by rw [(hob v a).mp ha]; exact twoPoints_binary v⟩
  have h2 := C173_sum_zero ⟨2, 1, ⟨2, fun _ => 1⟩, true, false⟩ (by decide) rfl (fun _ _ => by norm_num) twoPoints twoPoints_valid 1 ε
    (by norm_num) w hw
  refine ⟨w, hw, by simpa using h1, ?_⟩
  simp [sum_range_succ] at h2
  linarith

end Verif.Props
