import Verif.Model.Instances
import Verif.Model.Loss
import Verif.Spec.Learning
import Verif.Props.C18
import Verif.Props.C26

/-!
# C28, C29, C30: score, slack, primal objective
-/

namespace Verif.Props

open Finset Verif.Common Verif.Spec Verif.Learner Verif.Unstructured

variable {X Y : Type}

/-- The prediction problem a model poses to a learner. -/
def problemOf (m : SModel X Y) (outputs : X → Set Y) : Problem X Y :=
  ⟨m.dim, m.feat, m.lossOf, outputs⟩

theorem value_eq (m : SModel X Y) (o : X → Set Y) (w : ℕ → ℚ) (x : X) (y ŷ : Y) :
    (problemOf m o).value w x y ŷ = dot m.dim w (m.feat x ŷ y) := rfl

theorem dot_delta (m : SModel X Y) (o : X → Set Y) (w : ℕ → ℚ) (x : X) (y ŷ : Y) :
    m.lossOf y ŷ - dot m.dim w (fun k => -m.feat x ŷ y k + m.feat x y y k)
      = (problemOf m o).violation w x y ŷ := by
  unfold Problem.violation
  rw [value_eq, value_eq, dot_add_right]
  have : dot m.dim w (fun k => -m.feat x ŷ y k) = - dot m.dim w (m.feat x ŷ y) := by
    have := dot_smul_right m.dim (-1) (m.feat x ŷ y) w
    simp only [neg_mul, one_mul] at this
    exact this
  rw [this]
  change m.lossOf y ŷ - _ = m.lossOf y ŷ + _ - _
  ring

/-- being right violates the margin by exactly the loss of being right. -/
theorem violation_self (P : Problem X Y) (w : ℕ → ℚ) (x : X) (y : Y) :
    P.violation w x y y = P.loss y y := by
  unfold Problem.violation; ring

/-- **C29.** With exact loss-augmented inference, the slack that `find_constraint` returns is the largest
violation over all competing outputs (the structured hinge loss), it is nonnegative, it is attained
by the returned output, and it is at least the loss of the prediction of any exact inference. The
returned loss and joint-feature difference are those of the returned output. -/
theorem C29_slack (m : SModel X Y) (outputs : X → Set Y) (relaxed : Bool)
    (hLA : (problemOf m outputs).ExactLossAug (fun x y w => m.lossAug x y w relaxed))
    (x : X) (y : Y) (w : ℕ → ℚ) (hy : y ∈ outputs x) (h0 : m.lossOf y y = 0) :
    let c := findConstraint m x y w none relaxed true
    let P := problemOf m outputs
    P.IsHinge w x y c.slack ∧ 0 ≤ c.slack ∧ c.yhat ∈ outputs x ∧
      c.slack = P.violation w x y c.yhat ∧ c.loss = P.loss y c.yhat ∧
      (∀ k, c.delta k = P.feat x y y k - P.feat x c.yhat y k) ∧
      ∀ inf, P.ExactInference inf → P.loss y (inf x w) ≤ c.slack := by
  intro c P
  obtain ⟨hmem, hmax⟩ := hLA x y w hy h0
  have hself : P.violation w x y y = 0 := by rw [violation_self]; exact h0
  have hnn : 0 ≤ P.violation w x y (m.lossAug x y w relaxed) := by
    rw [← hself]; exact hmax y hy
  have hslack : c.slack = P.violation w x y (m.lossAug x y w relaxed) := by
    change max (m.lossOf y (m.lossAug x y w relaxed) - dot m.dim w _) 0 = _
    rw [if_pos rfl, dot_delta m outputs w x y]
    exact max_eq_left hnn
  refine ⟨⟨⟨_, hmem, hslack⟩, ?_⟩, ?_, hmem, hslack, rfl, ?_, ?_⟩
  · rintro v ⟨ŷ, hŷ, rfl⟩
    rw [hslack]; exact hmax ŷ hŷ
  · rw [hslack]; exact hnn
  · intro k
    change -m.feat x (m.lossAug x y w relaxed) y k + m.feat x y y k = m.feat x y y k - _
    rw [neg_add_eq_sub]
    rfl
  · intro inf hinf
    obtain ⟨h1, h2⟩ := hinf x y w hy
    rw [hslack]
    refine le_trans ?_ (hmax _ h1)
    unfold Problem.violation
    have := h2 y hy
    linarith

/-- **C29, given candidate.** With a candidate supplied, the slack is its violation, cut off at zero; the
model is not asked for inference. -/
theorem C29_given_candidate (m : SModel X Y) (outputs : X → Set Y) (relaxed : Bool) (x : X)
    (y ŷ : Y) (w : ℕ → ℚ) :
    (findConstraint m x y w (some ŷ) relaxed true).slack =
      max ((problemOf m outputs).violation w x y ŷ) 0 ∧
    (findConstraint m x y w (some ŷ) relaxed true).yhat = ŷ := by
  refine ⟨?_, rfl⟩
  change max (m.lossOf y ŷ - dot m.dim w _) 0 = _
  rw [if_pos rfl, dot_delta m outputs w x y]

theorem list_sum_nonneg {α : Type} (l : List α) (f : α → ℚ) (h : ∀ a ∈ l, 0 ≤ f a) :
    0 ≤ (l.map f).sum := by
  induction l with
  | nil => simp
  | cons a l ih =>
    rw [List.map_cons, List.sum_cons]
    have := h a (by simp)
    have := ih fun b hb => h b (by simp [hb])
    linarith

theorem list_sum_le {α : Type} (l : List α) (f g : α → ℚ) (h : ∀ a ∈ l, f a ≤ g a) :
    (l.map f).sum ≤ (l.map g).sum := by
  induction l with
  | nil => simp
  | cons a l ih =>
    rw [List.map_cons, List.sum_cons, List.map_cons, List.sum_cons]
    have := h a (by simp)
    have := ih fun b hb => h b (by simp [hb])
    linarith

theorem list_sum_eq_zero_iff {α : Type} (l : List α) (f : α → ℚ) (h : ∀ a ∈ l, 0 ≤ f a) :
    (l.map f).sum = 0 ↔ ∀ a ∈ l, f a = 0 := by
  induction l with
  | nil => simp
  | cons a l ih =>
    rw [List.map_cons, List.sum_cons]
    have h1 := h a (by simp)
    have h2 := list_sum_nonneg l f fun b hb => h b (by simp [hb])
    have h3 := ih fun b hb => h b (by simp [hb])
    constructor
    · intro hs b hb
      have ha : f a = 0 := by linarith
      have hl : (l.map f).sum = 0 := by linarith
      rcases List.mem_cons.mp hb with rfl | hb
      · exact ha
      · exact h3.mp hl b hb
    · intro hs
      rw [hs a (by simp), h3.mpr fun b hb => hs b (by simp [hb]), add_zero]

theorem list_sum_linear {α : Type} (l : List α) (f g : α → ℚ) (a b : ℚ) :
    (l.map fun s => a * f s + b * g s).sum = a * (l.map f).sum + b * (l.map g).sum := by
  induction l with
  | nil => simp
  | cons s l ih => simp only [List.map_cons, List.sum_cons, ih]; ring

/-- slack of one sample as used by `objective_primal`. -/
def sampleSlack (m : SModel X Y) (w : ℕ → ℚ) (s : X × Y) : ℚ :=
  (findConstraint m s.1 s.2 w none true true).slack

theorem sampleSlack_nonneg (m : SModel X Y) (w : ℕ → ℚ) (s : X × Y) : 0 ≤ sampleSlack m w s :=
  le_max_right _ _

theorem objectivePrimal_ok (m : SModel X Y) (w : ℕ → ℚ) (samples : List (X × Y)) (C : ℚ)
    (v : Bool) (hne : samples ≠ []) :
    objectivePrimal m w samples C v =
      .ok ((samples.map (sampleSlack m w)).sum * C + (∑ k ∈ range m.dim, w k ^ 2) / 2) := by
  unfold objectivePrimal
  rw [if_neg (by cases samples <;> simp_all)]
  simp only
  have h1 : (samples.map fun s => (findConstraint m s.1 s.2 w none true true).slack) =
      samples.map (sampleSlack m w) := rfl
  have h2 : (samples.map (sampleSlack m w)).map (fun s => max s 0) =
      samples.map (sampleSlack m w) := by
    rw [List.map_map]
    apply List.map_congr_left
    intro s _
    exact max_eq_left (sampleSlack_nonneg m w s)
  have h3 := list_sum_nonneg samples (sampleSlack m w) fun s _ => sampleSlack_nonneg m w s
  cases v
  · simp only [Bool.false_eq_true, if_false]
    rw [h1, max_eq_left h3]
  · simp only [if_true]
    rw [h1, h2, max_eq_left h3]

/-- **C30, variants.** The two variants of `objective_primal` always agree; without samples both raise
`IndexError`. -/
theorem C30_variants_agree (m : SModel X Y) (w : ℕ → ℚ) (samples : List (X × Y)) (C : ℚ) :
    objectivePrimal m w samples C true = objectivePrimal m w samples C false ∧
    (samples = [] → objectivePrimal m w samples C true = .error .indexError) := by
  constructor
  · by_cases h : samples = []
    · subst h; rfl
    · rw [objectivePrimal_ok m w samples C _ h, objectivePrimal_ok m w samples C _ h]
  · rintro rfl; rfl

/-- **C30.** With exact loss-augmented inference, `objective_primal` is the regularised structured risk:
half the squared norm of the weights plus `C` times the sum of the hinge losses. -/
theorem C30_objective (m : SModel X Y) (outputs : X → Set Y)
    (hLA : (problemOf m outputs).ExactLossAug (fun x y w => m.lossAug x y w true))
    (samples : List (X × Y)) (hl : (problemOf m outputs).Labelled samples) (hne : samples ≠ [])
    (w : ℕ → ℚ) (C : ℚ) (v : Bool) :
    ∃ obj, objectivePrimal m w samples C v = .ok obj ∧
      (problemOf m outputs).IsObjective C samples w obj := by
  refine ⟨_, objectivePrimal_ok m w samples C v hne, samples.map (sampleSlack m w), ?_, ?_⟩
  · clear hne
    induction samples with
    | nil => exact List.Forall₂.nil
    | cons s l ih =>
      rw [List.map_cons]
      refine List.Forall₂.cons ?_ (ih fun t ht => hl t (by simp [ht]))
      obtain ⟨h1, h2⟩ := hl s (by simp)
      exact (C29_slack m outputs true hLA s.1 s.2 w h1 h2).1
  · have : ∑ k ∈ range m.dim, w k ^ 2 = ∑ k ∈ range m.dim, w k * w k := by
      apply sum_congr rfl; intro k _; ring
    rw [this]
    change _ = (∑ k ∈ range m.dim, w k * w k) / 2 + _
    ring

/-- **C30, bounds.** The regularised risk is at least `C` times the total loss of the predictions made by
exact inference, and at least 0. -/
theorem C30_bounds (m : SModel X Y) (outputs : X → Set Y)
    (hLA : (problemOf m outputs).ExactLossAug (fun x y w => m.lossAug x y w true))
    (hinf : (problemOf m outputs).ExactInference m.inference)
    (samples : List (X × Y)) (hl : (problemOf m outputs).Labelled samples)
    (w : ℕ → ℚ) (C : ℚ) (hC : 0 ≤ C) (v : Bool) (obj : ℚ)
    (ho : objectivePrimal m w samples C v = .ok obj) :
    C * ((samples.map fun s => m.lossOf s.2 (m.inference s.1 w)).sum) ≤ obj ∧ 0 ≤ obj := by
  have hne : samples ≠ [] := by rintro rfl; simp [objectivePrimal] at ho
  rw [objectivePrimal_ok m w samples C v hne] at ho
  injection ho with ho
  have h1 : (samples.map fun s => m.lossOf s.2 (m.inference s.1 w)).sum ≤
      (samples.map (sampleSlack m w)).sum := by
    apply list_sum_le
    intro s hs
    obtain ⟨ha, hb⟩ := hl s hs
    exact (C29_slack m outputs true hLA s.1 s.2 w ha hb).2.2.2.2.2.2 _ hinf
  have h2 := list_sum_nonneg samples (sampleSlack m w) fun s _ => sampleSlack_nonneg m w s
  have h3 : 0 ≤ ∑ k ∈ range m.dim, w k ^ 2 := sum_nonneg fun k _ => sq_nonneg _
  constructor
  · have := mul_le_mul_of_nonneg_left h1 hC
    rw [← ho]
    linarith [mul_comm C (samples.map (sampleSlack m w)).sum]
  · rw [← ho]
    have := mul_nonneg h2 hC
    linarith

theorem violation_mix (P : Problem X Y) (w w' : ℕ → ℚ) (t : ℚ) (x : X) (y ŷ : Y) :
    P.violation (fun k => (1 - t) * w k + t * w' k) x y ŷ =
      (1 - t) * P.violation w x y ŷ + t * P.violation w' x y ŷ := by
  have hv : ∀ ŷ, P.value (fun k => (1 - t) * w k + t * w' k) x y ŷ =
      (1 - t) * P.value w x y ŷ + t * P.value w' x y ŷ := by
    intro ŷ
    unfold Problem.value
    rw [mul_sum, mul_sum, ← sum_add_distrib]
    apply sum_congr rfl; intro k _; ring
  unfold Problem.violation
  rw [hv, hv]; ring

/-- **C30, convexity.** Under exact loss-augmented inference, the objective at a convex combination of two
weight vectors is at most the same combination of the objectives. -/
theorem C30_convex (m : SModel X Y) (outputs : X → Set Y)
    (hLA : (problemOf m outputs).ExactLossAug (fun x y w => m.lossAug x y w true))
    (samples : List (X × Y)) (hl : (problemOf m outputs).Labelled samples)
    (w w' : ℕ → ℚ) (t C : ℚ) (hC : 0 ≤ C) (ht0 : 0 ≤ t) (ht1 : t ≤ 1) (v : Bool)
    (o o' o'' : ℚ) (h : objectivePrimal m w samples C v = .ok o)
    (h' : objectivePrimal m w' samples C v = .ok o')
    (h'' : objectivePrimal m (fun k => (1 - t) * w k + t * w' k) samples C v = .ok o'') :
    o'' ≤ (1 - t) * o + t * o' := by
  have hne : samples ≠ [] := by rintro rfl; simp [objectivePrimal] at h
  rw [objectivePrimal_ok m _ samples C v hne] at h h' h''
  injection h with h; injection h' with h'; injection h'' with h''
  have hs : (samples.map (sampleSlack m fun k => (1 - t) * w k + t * w' k)).sum ≤
      (1 - t) * (samples.map (sampleSlack m w)).sum + t * (samples.map (sampleSlack m w')).sum := by
    rw [← list_sum_linear]
    apply list_sum_le
    intro s hsm
    obtain ⟨ha, hb⟩ := hl s hsm
    have e1 := C29_slack m outputs true hLA s.1 s.2 w ha hb
    have e2 := C29_slack m outputs true hLA s.1 s.2 w' ha hb
    have e3 := C29_slack m outputs true hLA s.1 s.2 (fun k => (1 - t) * w k + t * w' k) ha hb
    have e3v := e3.2.2.2.1
    rw [violation_mix] at e3v
    have e1u := e1.1.2 ⟨_, e3.2.2.1, rfl⟩
    have e2u := e2.1.2 ⟨_, e3.2.2.1, rfl⟩
    change (findConstraint m s.1 s.2 _ none true true).slack ≤ _
    rw [e3v]
    have k1 := mul_le_mul_of_nonneg_left e1u (sub_nonneg.mpr ht1)
    have k2 := mul_le_mul_of_nonneg_left e2u ht0
    exact add_le_add k1 k2
  have hq : ∑ k ∈ range m.dim, ((1 - t) * w k + t * w' k) ^ 2 ≤
      (1 - t) * ∑ k ∈ range m.dim, w k ^ 2 + t * ∑ k ∈ range m.dim, w' k ^ 2 := by
    rw [mul_sum, mul_sum, ← sum_add_distrib]
    apply sum_le_sum
    intro k _
    have : 0 ≤ t * (1 - t) * (w k - w' k) ^ 2 :=
      mul_nonneg (mul_nonneg ht0 (sub_nonneg.mpr ht1)) (sq_nonneg _)
    nlinarith
  have := mul_le_mul_of_nonneg_right hs hC
  rw [← h, ← h', ← h'']
  nlinarith

/-- **C28.** If losses lie between 0 and `max_loss` and the maximal losses are not all zero, the score of
as many predictions as labels lies in [0, 1], and it is 1 exactly if no prediction costs anything. -/
theorem C28_score (m : SModel X Y) (Ys pred : List Y) (hlen : pred.length = Ys.length)
    (hloss : ∀ p ∈ Ys.zip pred, 0 ≤ m.loss p.1 p.2 ∧ m.loss p.1 p.2 ≤ m.maxLoss p.1)
    (hpos : 0 < (Ys.map m.maxLoss).sum) :
    0 ≤ Learner.score m Ys pred ∧ Learner.score m Ys pred ≤ 1 ∧
      (Learner.score m Ys pred = 1 ↔ ∀ p ∈ Ys.zip pred, m.loss p.1 p.2 = 0) := by
  have hz : Ys.map m.maxLoss = (Ys.zip pred).map fun p => m.maxLoss p.1 := by
    conv_lhs => rw [← List.map_fst_zip (l₁ := Ys) (l₂ := pred) (by omega)]
    rw [List.map_map]
    rfl
  have h0 := list_sum_nonneg (Ys.zip pred) (fun p => m.loss p.1 p.2) fun p hp => (hloss p hp).1
  have h1 := list_sum_le (Ys.zip pred) (fun p => m.loss p.1 p.2) (fun p => m.maxLoss p.1)
    fun p hp => (hloss p hp).2
  rw [← hz] at h1
  have h2 := list_sum_eq_zero_iff (Ys.zip pred) (fun p => m.loss p.1 p.2)
    fun p hp => (hloss p hp).1
  have hd0 : 0 ≤ ((Ys.zip pred).map fun p => m.loss p.1 p.2).sum / (Ys.map m.maxLoss).sum :=
    div_nonneg h0 hpos.le
  have hd1 : ((Ys.zip pred).map fun p => m.loss p.1 p.2).sum / (Ys.map m.maxLoss).sum ≤ 1 :=
    (div_le_one hpos).mpr h1
  unfold Learner.score
  refine ⟨by linarith, by linarith, ?_⟩
  rw [← h2]
  constructor
  · intro h
    have : ((Ys.zip pred).map fun p => m.loss p.1 p.2).sum / (Ys.map m.maxLoss).sum = 0 := by
      linarith
    rcases div_eq_zero_iff.mp this with h | h
    · exact h
    · exact absurd h hpos.ne'
  · intro h
    simp [h]

/-- **C28 for the Hamming losses of `pystruct/models/base.py`.** If `loss` and `max_loss` of the model are
those of `StructuredModel` with positive class weights, or without class weights, on one-dimensional
labellings, and every prediction has the length of its label, then the score lies in [0, 1] and is 1
exactly if every label of every prediction is correct. -/
theorem C28_hamming (m : SModel X Labels) (cw : Option Vec) (Ys pred : List Labels)
    (hm : ∀ p ∈ Ys.zip pred, Loss.loss cw p.1 p.2 = .ok (m.loss p.1 p.2))
    (hM : ∀ y ∈ Ys, Loss.maxLoss cw y = .ok (m.maxLoss y))
    (hcw : ∀ c, cw = some c → ∀ k < c.size, 0 < c.get k)
    (hlen : pred.length = Ys.length)
    (hsome : ∃ y ∈ Ys, 0 < y.size) :
    0 ≤ Learner.score m Ys pred ∧ Learner.score m Ys pred ≤ 1 ∧
      (Learner.score m Ys pred = 1 ↔
        ∀ p ∈ Ys.zip pred, ∀ i < p.1.size, p.2.get i = p.1.get i) := by
  have key : ∀ p ∈ Ys.zip pred, 0 ≤ m.loss p.1 p.2 ∧ m.loss p.1 p.2 ≤ m.maxLoss p.1 ∧
      (m.loss p.1 p.2 = 0 ↔ ∀ i < p.1.size, p.2.get i = p.1.get i) := by
    intro p hp
    have e1 := hm p hp
    have e2 := hM p.1 (List.of_mem_zip hp).1
    have hs : p.2.size = p.1.size := by
      by_contra h
      unfold Loss.loss at e1
      rw [if_pos (fun h' => h h'.symm)] at e1
      cases e1
    cases cw with
    | none =>
      obtain ⟨v, h1, h2, h3, h4, h5, -⟩ := C26_loss_bounds_unweighted p.1 p.2 hs
      rw [h1] at e1; injection e1 with e1
      rw [h2] at e2; injection e2 with e2
      rw [← e1, ← e2]
      exact ⟨h3, h4, h5.trans ⟨fun h i hi => (h i hi).symm, fun h i hi => (h i hi).symm⟩⟩
    | some c =>
      have hc : ∀ i < p.1.size, p.1.get i < c.size := by
        by_contra h
        unfold Loss.maxLoss at e2
        simp only at e2
        rw [if_neg h] at e2
        cases e2
      obtain ⟨v, mx, h1, h2, h3, h4, h5⟩ := C26_loss_bounds c p.1 p.2 hs hc (hcw c rfl)
      rw [h1] at e1; injection e1 with e1
      rw [h2] at e2; injection e2 with e2
      rw [← e1, ← e2]
      exact ⟨h3, h4, h5.trans ⟨fun h i hi => (h i hi).symm, fun h i hi => (h i hi).symm⟩⟩
  have hmax : ∀ y ∈ Ys, 0 ≤ m.maxLoss y ∧ (0 < y.size → 0 < m.maxLoss y) := by
    intro y hy
    have e2 := hM y hy
    cases cw with
    | none =>
      unfold Loss.maxLoss at e2
      injection e2 with e2
      rw [← e2]
      exact ⟨Nat.cast_nonneg _, fun h => Nat.cast_pos.mpr h⟩
    | some c =>
      unfold Loss.maxLoss at e2
      simp only at e2
      by_cases hc : ∀ i < y.size, y.get i < c.size
      · rw [if_pos hc] at e2
        injection e2 with e2
        rw [← e2]
        have hp : ∀ i ∈ range y.size, 0 < c.get (y.get i) := fun i hi =>
          hcw c rfl _ (hc i (mem_range.mp hi))
        exact ⟨sum_nonneg fun i hi => (hp i hi).le,
          fun h => sum_pos hp ⟨0, mem_range.mpr h⟩⟩
      · rw [if_neg hc] at e2; cases e2
  have hpos : 0 < (Ys.map m.maxLoss).sum := by
    obtain ⟨y, hy, hys⟩ := hsome
    have h0 := list_sum_nonneg Ys m.maxLoss fun y hy => (hmax y hy).1
    rcases h0.lt_or_eq with h | h
    · exact h
    · have := (list_sum_eq_zero_iff Ys m.maxLoss fun y hy => (hmax y hy).1).mp h.symm y hy
      exact absurd this ((hmax y hy).2 hys).ne'
  obtain ⟨h1, h2, h3⟩ := C28_score m Ys pred hlen (fun p hp => ⟨(key p hp).1, (key p hp).2.1⟩) hpos
  refine ⟨h1, h2, h3.trans ?_⟩
  constructor
  · intro h p hp; exact (key p hp).2.2.mp (h p hp)
  · intro h p hp; exact (key p hp).2.2.mpr (h p hp)

/-! ### a concrete model that meets the hypotheses -/

/-- The classes that exist. -/
def classes (S : ℕ) : (ℕ → ℚ) → Set ℕ := fun _ => {c | c < S}

theorem mcJointFeature_any {m : MultiClass} (hr : m.rescaleC = false) (x : Vec) (y t : ℕ) :
    mcJointFeature m x y (some t) = mcJointFeature m x y none := by
  unfold mcJointFeature
  rw [hr]
  rfl

theorem mcFeat {m : MultiClass} (x : ℕ → ℚ) (y t : ℕ) {ψ : Vec}
    (h : mcJointFeature m ⟨m.nFeatures, x⟩ y (some t) = .ok ψ) :
    (multiClassModel m).feat x y t = ψ.get := by
  unfold SModel.feat
  rcases hr : m.rescaleC with _ | _
  · have : (multiClassModel m).rescaleC = false := hr
    rw [this]
    simp only [Bool.false_eq_true, if_false]
    change (okD _ (mcJointFeature m _ y none)).get = _
    rw [← mcJointFeature_any hr _ _ t, h]
    rfl
  · have : (multiClassModel m).rescaleC = true := hr
    rw [this]
    simp only [if_true]
    change (okD _ (mcJointFeature m _ y (some t))).get = _
    rw [h]
    rfl

theorem mcValue {m : MultiClass} (o : (ℕ → ℚ) → Set ℕ) (w x : ℕ → ℚ) (y t : ℕ) {ψ : Vec} {s : ℚ}
    (h : mcJointFeature m ⟨m.nFeatures, x⟩ y (some t) = .ok ψ)
    (hs : Vec.dot ⟨m.size, w⟩ ψ = .ok s) :
    (problemOf (multiClassModel m) o).value w x t y = s := by
  rw [value_eq, mcFeat x y t h]
  unfold Vec.dot at hs
  simp only at hs
  split at hs
  · injection hs
  · cases hs

/-- `MultiClassClf` solves both decoding problems exactly. -/
theorem multiClass_exact (m : MultiClass) (hc : m.classWeight.size = m.nStates)
    (hpos : ∀ c < m.nStates, 0 ≤ m.classWeight.get c) (relaxed : Bool) :
    (problemOf (multiClassModel m) (classes m.nStates)).ExactLossAug
      (fun x y w => (multiClassModel m).lossAug x y w relaxed) ∧
    (problemOf (multiClassModel m) (classes m.nStates)).ExactInference
      (multiClassModel m).inference := by
  constructor
  · intro x y w hy _
    have hy' : y < m.nStates := hy
    obtain ⟨yh, ψ, s, l, h1, h2, h3, h4, h5, h6⟩ := C18_loss_augmented m ⟨m.nFeatures, x⟩
      ⟨m.size, w⟩ y rfl rfl hy' hc (hpos y hy')
    have hyh : (multiClassModel m).lossAug x y w relaxed = yh := by
      change okD 0 (mcLossAugmented m _ y _) = yh
      rw [h1]; rfl
    simp only [hyh]
    refine ⟨h2, ?_⟩
    intro y' hy2
    obtain ⟨ψ', s', l', g1, g2, g3, g4⟩ := h6 y' hy2
    unfold Problem.violation
    rw [mcValue _ w x yh y h3 h4, mcValue _ w x y' y g1 g2]
    have e1 : (problemOf (multiClassModel m) (classes m.nStates)).loss y yh = l := by
      change okD 0 (mcLoss m y yh) = l
      rw [h5]; rfl
    have e2 : (problemOf (multiClassModel m) (classes m.nStates)).loss y y' = l' := by
      change okD 0 (mcLoss m y y') = l'
      rw [g3]; rfl
    rw [e1, e2]
    linarith
  · intro x y w hy
    have hy' : y < m.nStates := hy
    have hS : 0 < m.nStates := by omega
    have hlt := argmaxN_lt (classScore m.nFeatures w x) hS
    have hinf : (multiClassModel m).inference x w = argmaxN (classScore m.nFeatures w x) m.nStates := by
      change okD 0 (mcInference m _ _) = _
      unfold mcInference
      rw [mcScores_ok hS rfl rfl]
      rfl
    rw [hinf]
    refine ⟨hlt, ?_⟩
    intro y' hy2
    rcases hr : m.rescaleC with _ | _
    · obtain ⟨ψ, a1, a2⟩ := mcJointFeature_dot (x := ⟨m.nFeatures, x⟩) (w := ⟨m.size, w⟩) (some y)
        hlt rfl rfl hr
      obtain ⟨ψ', b1, b2⟩ := mcJointFeature_dot (x := ⟨m.nFeatures, x⟩) (w := ⟨m.size, w⟩) (some y)
        hy2 rfl rfl hr
      rw [mcValue _ w x _ y a1 a2, mcValue _ w x _ y b1 b2]
      exact le_argmaxN _ hy2
    · have ht : y < m.classWeight.size := by omega
      obtain ⟨ψ, a1, a2⟩ := mcJointFeature_dot_rescale (x := ⟨m.nFeatures, x⟩) (w := ⟨m.size, w⟩)
        hlt ht rfl rfl hr
      obtain ⟨ψ', b1, b2⟩ := mcJointFeature_dot_rescale (x := ⟨m.nFeatures, x⟩) (w := ⟨m.size, w⟩)
        hy2 ht rfl rfl hr
      rw [mcValue _ w x _ y a1 a2, mcValue _ w x _ y b1 b2]
      exact mul_le_mul_of_nonneg_left (le_argmaxN _ hy2) (hpos y hy')

theorem multiClass_labelled (m : MultiClass) (hc : m.classWeight.size = m.nStates)
    (samples : List ((ℕ → ℚ) × ℕ)) (h : ∀ s ∈ samples, s.2 < m.nStates) :
    (problemOf (multiClassModel m) (classes m.nStates)).Labelled samples := by
  intro s hs
  refine ⟨h s hs, ?_⟩
  change okD 0 (mcLoss m s.2 s.2) = 0
  have := h s hs
  unfold mcLoss
  rw [if_neg (by omega)]
  simp [okD]

/-- **C28 for `MultiClassClf`.** With positive class weights the score of the predictions is the class-weighted accuracy: the
weights of the samples predicted correctly over the weights of all samples. So it lies in [0, 1], it is 1 exactly if all
predictions are correct and 0 exactly if none is. -/
theorem C28_multiclass (m : MultiClass) (hpos : ∀ c < m.classWeight.size, 0 < m.classWeight.get c) (Ys pred : List ℕ)
    (hlen : pred.length = Ys.length) (hne : Ys ≠ []) (hY : ∀ y ∈ Ys, y < m.classWeight.size) :
    Learner.score (multiClassModel m) Ys pred =
        ((Ys.zip pred).map fun p => if p.2 = p.1 then m.classWeight.get p.1 else 0).sum / (Ys.map m.classWeight.get).sum ∧
      0 ≤ Learner.score (multiClassModel m) Ys pred ∧ Learner.score (multiClassModel m) Ys pred ≤ 1 ∧
      (Learner.score (multiClassModel m) Ys pred = 1 ↔ pred = Ys) ∧
      (Learner.score (multiClassModel m) Ys pred = 0 ↔ ∀ p ∈ Ys.zip pred, p.2 ≠ p.1) := by
  have hl : ∀ p ∈ Ys.zip pred, (multiClassModel m).loss p.1 p.2 =
      m.classWeight.get p.1 - (if p.2 = p.1 then m.classWeight.get p.1 else 0) := by
    intro p hp
    have := hY _ (List.of_mem_zip hp).1
    change okD 0 (mcLoss m p.1 p.2) = _
    unfold mcLoss
    rw [if_neg (by omega)]
    by_cases h : p.2 = p.1
    · simp [okD, h]
    · have h' : p.1 ≠ p.2 := fun e => h e.symm
      simp [okD, h, h']
  have hz : Ys.map m.classWeight.get = (Ys.zip pred).map fun p => m.classWeight.get p.1 := by
    conv_lhs => rw [← List.map_fst_zip (l₁ := Ys) (l₂ := pred) (by omega)]
    rw [List.map_map]
    rfl
  have hgood : ∀ p ∈ Ys.zip pred, 0 ≤ (if p.2 = p.1 then m.classWeight.get p.1 else 0) := by
    intro p hp
    have := hpos _ (hY _ (List.of_mem_zip hp).1)
    split_ifs
    · exact this.le
    · exact le_rfl
  have hW : 0 < (Ys.map m.classWeight.get).sum := by
    obtain ⟨y, hy⟩ := List.exists_mem_of_ne_nil _ hne
    have h0 := list_sum_nonneg Ys m.classWeight.get fun y hy => (hpos _ (hY y hy)).le
    rcases h0.lt_or_eq with h | h
    · exact h
    · have := (list_sum_eq_zero_iff Ys m.classWeight.get fun y hy => (hpos _ (hY y hy)).le).mp h.symm y hy
      exact absurd this (hpos _ (hY y hy)).ne'
  have hsub : ((Ys.zip pred).map fun p => (multiClassModel m).loss p.1 p.2).sum = (Ys.map m.classWeight.get).sum -
      ((Ys.zip pred).map fun p => if p.2 = p.1 then m.classWeight.get p.1 else 0).sum := by
    rw [List.map_congr_left hl, hz]
    induction Ys.zip pred with
    | nil => simp
    | cons p l ih => simp only [List.map_cons, List.sum_cons]; rw [ih]; ring
  have hscore : Learner.score (multiClassModel m) Ys pred =
      ((Ys.zip pred).map fun p => if p.2 = p.1 then m.classWeight.get p.1 else 0).sum / (Ys.map m.classWeight.get).sum := by
    unfold Learner.score
    rw [hsub]
    change 1 - _ / (Ys.map m.classWeight.get).sum = _
    field_simp
    ring
  obtain ⟨h1, h2, h3⟩ := C28_score (multiClassModel m) Ys pred hlen (by
    intro p hp
    have a := hpos _ (hY _ (List.of_mem_zip hp).1)
    rw [hl p hp]
    change 0 ≤ _ ∧ _ ≤ m.classWeight.get p.1
    split_ifs <;> constructor <;> linarith) hW
  refine ⟨hscore, h1, h2, h3.trans ?_, ?_⟩
  · constructor
    · intro h
      apply List.ext_getElem hlen
      intro i hi hi'
      have hm : (Ys[i], pred[i]) ∈ Ys.zip pred := by
        rw [List.mem_iff_getElem]
        exact ⟨i, by rw [List.length_zip]; omega, by simp⟩
      have h' := h _ hm
      rw [hl _ hm] at h'
      by_contra hc
      simp only at h'
      rw [if_neg hc, sub_zero] at h'
      exact absurd h' (hpos _ (hY _ (List.getElem_mem hi'))).ne'
    · rintro rfl p hp
      obtain ⟨i, hi, rfl⟩ := List.mem_iff_getElem.mp hp
      rw [hl _ hp]
      simp
  · rw [hscore, div_eq_zero_iff, or_iff_left hW.ne', list_sum_eq_zero_iff _ _ hgood]
    constructor
    · intro h p hp e
      have := h p hp
      rw [if_pos e] at this
      exact absurd this (hpos _ (hY _ (List.of_mem_zip hp).1)).ne'
    · intro h p hp
      exact if_neg (h p hp)

/-- A concrete case with unequal class weights: one of two samples is right, and it has three quarters of the weight. -/
example : Learner.score (multiClassModel ⟨2, 1, ⟨2, fun c => if c = 0 then 1 else 3⟩, true, false⟩) [0, 1] [1, 1] = 3 / 4 ∧
    (∀ c < 2, (0 : ℚ) < if c = 0 then 1 else 3) := by
  constructor
  · decide +kernel
  · intro c _; split_ifs <;> norm_num

/-- A concrete `MultiClassClf`: three classes, two features, unit weights. -/
def exampleClf : MultiClass := ⟨3, 2, ⟨3, fun _ => 1⟩, true, false⟩

/-- Two labelled samples for it. -/
def exampleSamples : List ((ℕ → ℚ) × ℕ) :=
  [(fun k => if k = 0 then 1 else 0, 0), (fun k => if k = 1 then 2 else 0, 2)]

/-- the hypotheses of C29 and C30 hold for `exampleClf` and `exampleSamples`. -/
example : (problemOf (multiClassModel exampleClf) (classes 3)).ExactLossAug
      (fun x y w => (multiClassModel exampleClf).lossAug x y w true) ∧
    (problemOf (multiClassModel exampleClf) (classes 3)).ExactInference
      (multiClassModel exampleClf).inference ∧
    (problemOf (multiClassModel exampleClf) (classes 3)).Labelled exampleSamples :=
  ⟨(multiClass_exact exampleClf rfl (fun _ _ => zero_le_one) true).1,
    (multiClass_exact exampleClf rfl (fun _ _ => zero_le_one) true).2,
    multiClass_labelled exampleClf rfl _ (by decide)⟩

/-- C28: predictions for two samples, one wrong: score 1/2. -/
example : Learner.score (multiClassModel exampleClf) [0, 2] [0, 1] = 1 / 2 ∧
    (objectivePrimal (multiClassModel exampleClf) (fun _ => 0) exampleSamples 10 true).toOption
      = some 20 := by decide +kernel

end Verif.Props
