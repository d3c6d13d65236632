import Verif.Props.C106
import Verif.Props.C110
import Verif.Spec.Separable

/-!
# C124: what training achieves on the training set

Weights whose risk is nearly minimal lose little on the training set: no more than the risk of any other weights allows. If some
weights separate the samples and `C` is large against their norm, the trained learner reproduces every training label.
-/

namespace Verif.Props

open Finset Verif.Common Verif.Spec Verif.Learner Verif.Lemmas

variable {X Y : Type}

/-- Every hinge loss that `IsObjective` lists is at least the loss of any output that scores as high as the true one. -/
theorem forall₂_loss_le {P : Problem X Y} {w : ℕ → ℚ} {pred : X → Y} {samples : List (X × Y)} {hs : List ℚ}
    (h : List.Forall₂ (fun s h => P.IsHinge w s.1 s.2 h) samples hs)
    (hp : ∀ s ∈ samples, pred s.1 ∈ P.outputs s.1 ∧ P.value w s.1 s.2 s.2 ≤ P.value w s.1 s.2 (pred s.1)) :
    (samples.map fun s => P.loss s.2 (pred s.1)).sum ≤ hs.sum := by
  induction h with
  | nil => simp
  | @cons s h ss hs h1 h2 ih =>
    have e1 := hp s (by simp)
    have e2 := h1.2 ⟨pred s.1, e1.1, rfl⟩
    have e3 := ih fun s' hs' => hp s' (by simp [hs'])
    unfold Problem.violation at e2
    simp only [List.map_cons, List.sum_cons]
    linarith [e1.2]

theorem forall₂_hinge_nonneg {P : Problem X Y} {w : ℕ → ℚ} {samples : List (X × Y)} {hs : List ℚ}
    (h : List.Forall₂ (fun s h => P.IsHinge w s.1 s.2 h) samples hs) (hl : P.Labelled samples) :
    0 ≤ hs.sum ∧ ∀ s ∈ samples, ∀ ŷ ∈ P.outputs s.1, P.violation w s.1 s.2 ŷ ≤ hs.sum := by
  induction h with
  | nil => simp
  | @cons s h ss hs h1 h2 ih =>
    obtain ⟨i1, i2⟩ := ih fun s' hs' => hl s' (by simp [hs'])
    have e1 := hl s (by simp)
    have e2 : (0 : ℚ) ≤ h := by
      have := h1.2 ⟨s.2, e1.1, rfl⟩
      unfold Problem.violation at this
      linarith [e1.2]
    simp only [List.sum_cons]
    refine ⟨by linarith, fun s' hs' ŷ hy => ?_⟩
    rcases List.mem_cons.mp hs' with rfl | hs'
    · linarith [h1.2 ⟨ŷ, hy, rfl⟩]
    · linarith [i2 s' hs' ŷ hy]

/-- Weights that separate the samples have no hinge loss: their risk is half their squared norm. -/
theorem separates_objective {P : Problem X Y} {samples : List (X × Y)} (hl : P.Labelled samples) {u : ℕ → ℚ}
    (hu : P.Separates samples u) (C : ℚ) : P.IsObjective C samples u ((∑ k ∈ range P.dim, u k * u k) / 2) := by
  have key : ∃ hs : List ℚ, List.Forall₂ (fun s h => P.IsHinge u s.1 s.2 h) samples hs ∧ hs.sum = 0 := by
    clear C
    induction samples with
    | nil => exact ⟨[], .nil, rfl⟩
    | cons s ss ih =>
      obtain ⟨hs, h1, h2⟩ := ih (fun s' hs' => hl s' (by simp [hs'])) fun s' hs' => hu s' (by simp [hs'])
      have e1 := hl s (by simp)
      refine ⟨0 :: hs, .cons ⟨⟨s.2, e1.1, ?_⟩, ?_⟩ h1, by simp [h2]⟩
      · unfold Problem.violation
        rw [e1.2]
        ring
      · rintro v ⟨ŷ, hy, rfl⟩
        have := hu s (by simp) ŷ hy
        unfold Problem.violation
        linarith
  obtain ⟨hs, h1, h2⟩ := key
  exact ⟨hs, h1, by rw [h2]; ring⟩

theorem sq_sum_half_nonneg (n : ℕ) (w : ℕ → ℚ) : 0 ≤ (∑ k ∈ range n, w k * w k) / 2 :=
  div_nonneg (Finset.sum_nonneg fun k _ => mul_self_nonneg (w k)) (by norm_num)

/-- Training loss. `C` times the total training loss of trained weights, plus half their squared norm, is at most the risk of any
weights plus the accuracy of the training. -/
theorem C124_training_loss (m : SModel X Y) (outputs : X → Set Y)
    (hLA : (problemOf m outputs).ExactLossAug (fun x y w => m.lossAug x y w true))
    (hI : (problemOf m outputs).ExactInference m.inference)
    (samples : List (X × Y)) (hl : (problemOf m outputs).Labelled samples) {C ε : ℚ} (hC : 0 < C) {w : W}
    (h : Trained m outputs samples C ε w) (u : W) (B : ℚ) (hu : (problemOf m outputs).IsObjective C samples u B) :
    (∑ k ∈ range m.dim, w k * w k) / 2 + C * (samples.map fun s => (problemOf m outputs).loss s.2 (m.inference s.1 w)).sum
      ≤ B + ε := by
  obtain ⟨p, ⟨hs, h1, h2⟩, h3⟩ := trained_near m outputs hLA samples hl hC h
  have e := forall₂_loss_le (pred := fun x => m.inference x w) h1 fun s hs' =>
    ⟨(hI s.1 s.2 w (hl s hs').1).1, (hI s.1 s.2 w (hl s hs').1).2 s.2 (hl s hs').1⟩
  have e2 := h3 u B hu
  have e3 := mul_le_mul_of_nonneg_left e hC.le
  rw [h2] at e2
  change (∑ k ∈ range m.dim, w k * w k) / 2 + _ ≤ _ at e2
  linarith

/-- Margins. If `u` separates the samples, trained weights put the true output of every sample ahead of every output whose loss is
larger than `(|u|²/2 + ε) / C`. -/
theorem C124_margin (m : SModel X Y) (outputs : X → Set Y)
    (hLA : (problemOf m outputs).ExactLossAug (fun x y w => m.lossAug x y w true))
    (samples : List (X × Y)) (hl : (problemOf m outputs).Labelled samples) {C ε : ℚ} (hC : 0 < C) {w : W}
    (h : Trained m outputs samples C ε w) (u : W) (hu : (problemOf m outputs).Separates samples u) :
    ∀ s ∈ samples, ∀ ŷ ∈ outputs s.1,
      (problemOf m outputs).value w s.1 s.2 ŷ + (problemOf m outputs).loss s.2 ŷ
        ≤ (problemOf m outputs).value w s.1 s.2 s.2 + ((∑ k ∈ range m.dim, u k * u k) / 2 + ε) / C := by
  intro s hs ŷ hy
  obtain ⟨p, ⟨hs', h1, h2⟩, h3⟩ := trained_near m outputs hLA samples hl hC h
  have e1 := (forall₂_hinge_nonneg h1 hl).2 s hs ŷ hy
  have e2 := h3 u _ (separates_objective hl hu C)
  rw [h2] at e2
  have e3 := sq_sum_half_nonneg (problemOf m outputs).dim w
  have e4 : C * hs'.sum ≤ (∑ k ∈ range m.dim, u k * u k) / 2 + ε := by
    change _ ≤ (∑ k ∈ range m.dim, u k * u k) / 2 + ε at e2
    linarith
  have e5 : hs'.sum ≤ ((∑ k ∈ range m.dim, u k * u k) / 2 + ε) / C := by
    rw [le_div_iff₀ hC]
    linarith
  unfold Problem.violation at e1
  linarith

/-- Separable samples. If some weights separate the samples and `C` times the smallest positive loss exceeds half their squared
norm plus the accuracy of the training, `predict` makes no mistake on the training set and `score` is 1. -/
theorem C124_separable (m : SModel X Y) (outputs : X → Set Y)
    (hLA : (problemOf m outputs).ExactLossAug (fun x y w => m.lossAug x y w true))
    (hI : (problemOf m outputs).ExactInference m.inference) (hd : ∀ x w, m.isTuple (m.inference x w) = false)
    (samples : List (X × Y)) (hl : (problemOf m outputs).Labelled samples) {C ε : ℚ} (hC : 0 < C) {w : W}
    (h : Trained m outputs samples C ε w) (u : W) (hu : (problemOf m outputs).Separates samples u)
    (δ : ℚ) (hδ : ∀ s ∈ samples, ∀ ŷ ∈ outputs s.1, m.loss s.2 ŷ = 0 ∨ δ ≤ m.loss s.2 ŷ)
    (hbig : (∑ k ∈ range m.dim, u k * u k) / 2 + ε < C * δ) :
    (∀ s ∈ samples, m.loss s.2 (m.inference s.1 w) = 0) ∧
    Learner.score m (samples.map Prod.snd) (Learner.predict m w (samples.map Prod.fst)) = 1 := by
  have key : ∀ s ∈ samples, m.loss s.2 (m.inference s.1 w) = 0 := by
    intro s hs
    have e1 := hI s.1 s.2 w (hl s hs).1
    have e2 := C124_margin m outputs hLA samples hl hC h u hu s hs _ e1.1
    have e3 := e1.2 s.2 (hl s hs).1
    rcases hδ s hs _ e1.1 with e | e
    · exact e
    · exfalso
      have e4 : (problemOf m outputs).loss s.2 (m.inference s.1 w) = m.loss s.2 (m.inference s.1 w) := by
        change m.lossOf _ _ = _
        unfold SModel.lossOf
        rw [hd]
        rfl
      have e5 : ((∑ k ∈ range m.dim, u k * u k) / 2 + ε) / C < δ := by
        rw [div_lt_iff₀ hC]
        linarith
      linarith
  refine ⟨key, ?_⟩
  have hz : ((samples.map Prod.snd).zip (Learner.predict m w (samples.map Prod.fst))).map (fun p => m.loss p.1 p.2)
      = samples.map fun s => m.loss s.2 (m.inference s.1 w) := by
    unfold Learner.predict
    clear key hu hδ h hl
    induction samples with
    | nil => rfl
    | cons s ss ih => simpa using ih
  unfold Learner.score
  rw [hz, List.map_congr_left key]
  simp

/-! ### multi-class classification -/

theorem three_separates : (problemOf (multiClassModel (threeClf false)) (classes 3)).Separates threeSamples
    (fun k => [0, 0, 2, 0, -3, 3].getD k 0) := by
  intro s hs c hc
  have hc' : c < 3 := hc
  simp only [threeSamples, List.mem_cons, List.not_mem_nil, or_false] at hs
  rcases hs with rfl | rfl <;> interval_cases c <;> decide +kernel

/-- One-slack training with `C = 10` of the classifier of three classes reproduces the labels of its training set. -/
example : ∃ o' a, OneSlack.fit (multiClassModel (threeClf false)) QP.ideal (fun _ _ => .error .typeError) none (fun _ => none)
    ⟨⟨800000, 10, true, none, false, 0, 1 / 20, 0, 1 / 10 ^ 5, 0, .auto⟩, none, []⟩ threeSamples .no = .ok o' ∧
    o'.attrs = some a ∧
    Learner.score (multiClassModel (threeClf false)) [1, 2]
      (Learner.predict (multiClassModel (threeClf false)) a.w (threeSamples.map Prod.fst)) = 1 := by
  obtain ⟨o', a, h1, h2, -⟩ := C110_oneslack _ _ _ _ _ three_trainable QP.ideal QP.ideal_exact.1 QP.ideal_exact.2
    (fun _ _ => .error .typeError)
    ⟨⟨800000, 10, true, none, false, 0, 1 / 20, 0, 1 / 10 ^ 5, 0, .auto⟩, none, []⟩ (.inl rfl) (by norm_num) (by norm_num)
    (by norm_num) rfl (by norm_num) rfl rfl (by norm_num) (1 / 14400) (by norm_num)
    (by norm_num [threeSamples]) (by norm_num) (by norm_num)
  refine ⟨o', a, h1, h2, ?_⟩
  have hB := separates_objective three_trainable.labelled three_separates 10
  have hsq : (∑ k ∈ range (problemOf (multiClassModel (threeClf false)) (classes 3)).dim,
      ([0, 0, 2, 0, -3, 3] : List ℚ).getD k 0 * ([0, 0, 2, 0, -3, 3] : List ℚ).getD k 0) / 2 = 11 := by decide +kernel
  rw [hsq] at hB
  have ht := Trained.oneslack (C := 10) (outputs := classes 3) QP.ideal QP.ideal_exact.1 (fun _ _ => .error .typeError)
    ⟨⟨800000, 10, true, none, false, 0, 1 / 20, 0, 1 / 10 ^ 5, 0, .auto⟩, none, []⟩ o' rfl (by norm_num) rfl rfl (.inl rfl)
    (QP.complete_first QP.ideal_exact.1 QP.ideal_exact.2 _ _) 18 (by norm_num) three_trainable.range (1 / 14400) (by norm_num)
    (by norm_num [threeSamples]) (by norm_num) _ 11 hB (by norm_num) h1 a h2
  refine (C124_separable (multiClassModel (threeClf false)) (classes 3) three_trainable.exact_lossAug
    (multiClass_exact (threeClf false) rfl (by decide +kernel) true).2 (fun _ _ => rfl) threeSamples three_trainable.labelled
    (by norm_num) ht _ three_separates 2 ?_ ?_).2
  · intro s hs c hc
    have hc' : c < 3 := hc
    simp only [threeSamples, List.mem_cons, List.not_mem_nil, or_false] at hs
    rcases hs with rfl | rfl <;> interval_cases c <;> decide +kernel
  · change (∑ k ∈ range (problemOf (multiClassModel (threeClf false)) (classes 3)).dim,
      ([0, 0, 2, 0, -3, 3] : List ℚ).getD k 0 * ([0, 0, 2, 0, -3, 3] : List ℚ).getD k 0) / 2 + _ < _
    rw [hsq]
    norm_num [threeSamples]

end Verif.Props
