import Verif.Props.C106
import Verif.Props.C105
import Verif.Props.C186

/-!
# C188: integer class weights with `rescale_C` are numbers of copies
-/

namespace Verif.Props

open Finset Verif.Common Verif.Spec Verif.Learner Verif.Unstructured Verif.Lemmas

/-- every sample as many times as the weight of its class says. -/
def repeated {A : Type} (k : ℕ → ℕ) (samples : List (A × ℕ)) : List (A × ℕ) := samples.flatMap fun s => List.replicate (k s.2) s

theorem repeated_sum {A : Type} (k : ℕ → ℕ) (samples : List (A × ℕ)) (f : A × ℕ → ℚ) :
    ((repeated k samples).map f).sum = (samples.map fun s => (k s.2 : ℚ) * f s).sum := by
  unfold repeated
  induction samples with
  | nil => rfl
  | cons s l ih =>
    rw [List.flatMap_cons, List.map_append, List.sum_append, ih, List.map_replicate, List.sum_replicate, List.map_cons, List.sum_cons,
      nsmul_eq_mul]

theorem mem_repeated {A : Type} {k : ℕ → ℕ} {samples : List (A × ℕ)} {s : A × ℕ} (h : s ∈ repeated k samples) : s ∈ samples := by
  unfold repeated at h
  obtain ⟨t, ht, hs⟩ := List.mem_flatMap.mp h
  rwa [List.eq_of_mem_replicate hs]

/-- **C188, risk.** The risk of a `MultiClassClf` with `rescale_C=True` and class weights `k` on samples is the risk of one without class
weights on the data in which every sample of class `c` occurs `k c` times. -/
theorem C188_risk (S F : ℕ) (k : ℕ → ℕ) (u u' r : Bool) (C : ℚ) (samples : List ((ℕ → ℚ) × ℕ)) (hd : ∀ s ∈ samples, s.2 < S)
    (w : ℕ → ℚ) (a : ℚ) :
    (problemOf (multiClassModel ⟨S, F, ⟨S, fun c => k c⟩, u, true⟩) (classes S)).IsObjective C samples w a ↔
      (problemOf (multiClassModel ⟨S, F, ⟨S, fun _ => 1⟩, u', r⟩) (classes S)).IsObjective C (repeated k samples) w a := by
  have h1 := C105_objective ⟨S, F, ⟨S, fun c => k c⟩, u, true⟩ rfl (fun c _ => Nat.cast_nonneg _) C samples hd w a
  have h2 := C105_objective ⟨S, F, ⟨S, fun _ => 1⟩, u', r⟩ rfl (fun c _ => zero_le_one) C (repeated k samples)
    (fun s hs => hd s (mem_repeated hs)) w a
  refine h1.trans (Iff.trans ?_ h2.symm)
  unfold multiSVM
  rw [repeated_sum]
  have e : ∀ y, classCost ⟨S, F, ⟨S, fun _ => 1⟩, u', r⟩ y = 1 ∧ classMargin ⟨S, F, ⟨S, fun _ => 1⟩, u', r⟩ y = 1 := fun y => by
    cases r <;> exact ⟨rfl, rfl⟩
  simp only [e, one_mul]
  rfl

/-- **C188, weights.** So weights that cutting planes or Frank-Wolfe find for the two data sets agree up to the tolerances. -/
theorem C188_weights (S F : ℕ) (k : ℕ → ℕ) (u u' r : Bool) (C : ℚ) (hC : 0 < C) (samples : List ((ℕ → ℚ) × ℕ))
    (hd : ∀ s ∈ samples, s.2 < S) (ε δ : ℚ) (w v : W)
    (hw : Trained (multiClassModel ⟨S, F, ⟨S, fun c => k c⟩, u, true⟩) (classes S) samples C ε w)
    (hv : Trained (multiClassModel ⟨S, F, ⟨S, fun _ => 1⟩, u', r⟩) (classes S) (repeated k samples) C δ v) :
    ∑ j ∈ range (S * F), (w j - v j) ^ 2 ≤ 4 * (ε + δ) := by
  have l1 := (multiClass_exact ⟨S, F, ⟨S, fun c => k c⟩, u, true⟩ rfl (fun c _ => Nat.cast_nonneg _) true).1
  have l2 := (multiClass_exact ⟨S, F, ⟨S, fun _ => 1⟩, u', r⟩ rfl (fun c _ => zero_le_one) true).1
  have hd' : ∀ s ∈ repeated k samples, s.2 < S := fun s hs => hd s (mem_repeated hs)
  have g1 := multiClass_labelled ⟨S, F, ⟨S, fun c => k c⟩, u, true⟩ rfl samples hd
  have g2 := multiClass_labelled ⟨S, F, ⟨S, fun _ => 1⟩, u', r⟩ rfl (repeated k samples) hd'
  have n1 := trained_near _ _ l1 samples g1 hC hw
  have n2 := trained_near _ _ l2 _ g2 hC hv
  obtain ⟨a, a1, a2⟩ := n1
  refine near_close hC.le (fun s hs w => ⟨_, (C29_slack _ _ true l2 s.1 s.2 w (g2 s hs).1 (g2 s hs).2).1⟩)
    ⟨a, (C188_risk S F k u u' r C samples hd w a).mp a1, fun w' b hb => a2 w' b ((C188_risk S F k u u' r C samples hd w' b).mpr hb)⟩ n2

/-- **C188, score.** With any weights of the classifier, the score under class weights `k` is the score without class weights on the data
with the copies; `rescale_C` does not matter for it. -/
theorem C188_score (S F : ℕ) (k : ℕ → ℕ) (u u' r r' : Bool) (samples : List ((ℕ → ℚ) × ℕ)) (hd : ∀ s ∈ samples, s.2 < S) (w : W) :
    let m := multiClassModel ⟨S, F, ⟨S, fun c => k c⟩, u, r⟩
    let m' := multiClassModel ⟨S, F, ⟨S, fun _ => 1⟩, u', r'⟩
    Learner.score m (samples.map Prod.snd) (Learner.predict m w (samples.map Prod.fst)) =
      Learner.score m' ((repeated k samples).map Prod.snd) (Learner.predict m' w ((repeated k samples).map Prod.fst)) := by
  intro m m'
  change scoreOn m w samples = scoreOn m' w (repeated k samples)
  rw [scoreOn_eq, scoreOn_eq]
  unfold suffered worst
  rw [repeated_sum, repeated_sum]
  congr 3
  · refine List.map_congr_left fun s hs => ?_
    have h := hd s hs
    have e : m.inference s.1 w = m'.inference s.1 w := rfl
    rw [e]
    simp only [m, m', multiClassModel, mcLoss, if_neg (Nat.not_le.mpr h), okD, one_mul]
  · refine List.map_congr_left fun s _ => ?_
    change (k s.2 : ℚ) = k s.2 * 1
    rw [mul_one]

/-- **C188, without `rescale_C`.** The condition is needed: class weights are margins then, and the weighted risk differs from the risk with copies. -/
theorem C188_without_rescale : ∃ (k : ℕ → ℕ) (samples : List ((ℕ → ℚ) × ℕ)) (w : ℕ → ℚ) (a b : ℚ), (∀ s ∈ samples, s.2 < 2) ∧
    (problemOf (multiClassModel ⟨2, 1, ⟨2, fun c => k c⟩, false, false⟩) (classes 2)).IsObjective 1 samples w a ∧
    (problemOf (multiClassModel ⟨2, 1, ⟨2, fun _ => 1⟩, true, false⟩) (classes 2)).IsObjective 1 (repeated k samples) w b ∧ a ≠ b := by
  refine ⟨fun _ => 2, [(fun _ => 1, 0)], fun j => if j = 0 then 1 else 0, _, _, by simp,
    (C105_objective ⟨2, 1, ⟨2, fun _ => ((2 : ℕ) : ℚ)⟩, false, false⟩ rfl (fun c _ => Nat.cast_nonneg _) 1 _ (by simp) _ _).mpr rfl,
    (C105_objective ⟨2, 1, ⟨2, fun _ => 1⟩, true, false⟩ rfl (fun c _ => zero_le_one) 1 _ (by simp [repeated]) _ _).mpr rfl, ?_⟩
  decide +kernel

/-! ### examples -/

/-- The second class counts three times. -/
example : repeated (fun c => if c = 0 then 1 else 3) [("a", 0), ("b", 1)] = [("a", 0), ("b", 1), ("b", 1), ("b", 1)] := by decide

example := C188_risk 2 1 (fun c => if c = 0 then 1 else 3) false true false 1 [(fun _ => 1, 0), (fun _ => 2, 1)] (by simp)
  (fun j => if j = 0 then 1 else 0)

example := C188_score 2 1 (fun c => if c = 0 then 1 else 3) false true true false [(fun _ => 1, 0), (fun _ => 2, 1)] (by simp)
  (fun j => if j = 0 then 1 else 0)

/-- One-slack training with an exact solver of any classifier whose samples are bounded as the two below. -/
theorem small_trained (m : MultiClass) (hS : 2 ≤ m.nStates) (hc : m.classWeight.size = m.nStates)
    (hpos : ∀ c < m.nStates, 0 < m.classWeight.get c) (samples : List ((ℕ → ℚ) × ℕ)) (hne : samples ≠ [])
    (hd : ∀ s ∈ samples, s.2 < m.nStates) (hb : ∀ s ∈ samples, 2 * classCost m s.2 ^ 2 * ∑ f ∈ range m.nFeatures, s.1 f ^ 2 ≤ 18)
    (hsum : (samples.map fun s => m.classWeight.get s.2).sum ≤ 5) :
    ∃ w ε, Trained (multiClassModel m) (classes m.nStates) samples 1 ε w := by
  have hpos0 : ∀ c < m.nStates, 0 ≤ m.classWeight.get c := fun c h => (hpos c h).le
  have hB := (C105_objective m hc hpos0 1 samples hd (fun _ => 0) _).mpr rfl
  have hz := mc_zero m 1 samples (by norm_num) hd hpos0
  have hlen : (1 : ℚ) ≤ samples.length := by
    exact_mod_cast List.length_pos_iff.mpr hne
  obtain ⟨o1, a, h1, h2, -⟩ := C105_oneslack m hS hc hpos samples hne hd QP.ideal QP.ideal_exact.1 QP.ideal_exact.2
    (fun _ _ => .error .typeError) ⟨⟨1200, 1, true, none, false, 0, 1 / 2, 0, 1 / 10 ^ 5, 0, .auto⟩, none, []⟩ (.inl rfl) (by norm_num)
    (by norm_num) (by norm_num) rfl rfl (by norm_num) rfl 18 (by norm_num) hb (1 / 144) (by norm_num) (by norm_num; linarith) (by norm_num)
    (by norm_num; linarith)
  exact ⟨a.w, _, Trained.oneslack (C := 1) QP.ideal QP.ideal_exact.1 (fun _ _ => .error .typeError)
    ⟨⟨1200, 1, true, none, false, 0, 1 / 2, 0, 1 / 10 ^ 5, 0, .auto⟩, none, []⟩ o1 rfl (by norm_num) rfl rfl (.inl rfl)
    (QP.complete_first QP.ideal_exact.1 QP.ideal_exact.2 _ _) 18 (by norm_num) (mc_range m hc samples hd 18 hb) (1 / 144) (by norm_num)
    (by norm_num; linarith) (by norm_num) _ _ hB (lt_of_le_of_lt hz (by norm_num; linarith)) h1 a h2⟩

/-- Weights 1, 2, 3 of three classes, and both trainings. -/
example : ∃ w v ε δ, Trained (multiClassModel ⟨3, 2, ⟨3, fun c => ((c + 1 : ℕ) : ℚ)⟩, false, true⟩) (classes 3) threeSamples 1 ε w ∧
    Trained (multiClassModel ⟨3, 2, ⟨3, fun _ => 1⟩, true, false⟩) (classes 3) (repeated (fun c => c + 1) threeSamples) 1 δ v := by
  obtain ⟨w, ε, h⟩ := small_trained ⟨3, 2, ⟨3, fun c => ((c + 1 : ℕ) : ℚ)⟩, false, true⟩ (by decide) rfl (by decide +kernel) threeSamples
    (by decide) (by decide) (by decide +kernel) (by decide +kernel)
  obtain ⟨v, δ, h'⟩ := small_trained ⟨3, 2, ⟨3, fun _ => 1⟩, true, false⟩ (by decide) rfl (by decide +kernel)
    (repeated (fun c => c + 1) threeSamples) (by decide) (by decide) (by decide +kernel) (by decide +kernel)
  exact ⟨w, v, ε, δ, h, h'⟩

end Verif.Props
