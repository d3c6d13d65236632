import Verif.Props.C106
import Verif.Props.C110
import Verif.Lemmas.Stability

/-!
# C156: stability of training; C157: the effect of `C`
-/

namespace Verif.Props

open Finset Verif.Common Verif.Spec Verif.Learner Verif.Unstructured Verif.OneSlack Verif.Lemmas

variable {X Y : Type}

theorem hinges_exist {m : SModel X Y} {outputs : X → Set Y}
    (hLA : (problemOf m outputs).ExactLossAug (fun x y w => m.lossAug x y w true)) {samples : List (X × Y)}
    (hl : (problemOf m outputs).Labelled samples) :
    ∀ s ∈ samples, ∀ w, ∃ v, (problemOf m outputs).IsHinge w s.1 s.2 v := fun s hs w =>
  ⟨_, (C29_slack m outputs true hLA s.1 s.2 w (hl s hs).1 (hl s hs).2).1⟩

theorem hingeSum_exists {P : Spec.Problem X Y} {samples : List (X × Y)}
    (hex : ∀ s ∈ samples, ∀ w, ∃ v, P.IsHinge w s.1 s.2 v) (w : ℕ → ℚ) : ∃ r, P.IsHingeSum samples w r := by
  obtain ⟨_, h⟩ := Lemmas.objective_exists hex 1 w
  obtain ⟨r, hr, -⟩ := hingeSum_objective.mp h
  exact ⟨r, hr⟩

theorem hingeSum_nonneg {P : Spec.Problem X Y} {samples : List (X × Y)} (hl : P.Labelled samples) {w : ℕ → ℚ} {r : ℚ}
    (h : P.IsHingeSum samples w r) : 0 ≤ r := by
  obtain ⟨hs, hf, rfl⟩ := h
  induction hf with
  | nil => simp
  | cons hh _ ih =>
    rw [List.sum_cons]
    refine add_nonneg ?_ (ih fun t ht => hl t (List.mem_cons_of_mem _ ht))
    obtain ⟨h1, h2⟩ := hl _ List.mem_cons_self
    have := hh.2 ⟨_, h1, rfl⟩
    rw [violation_self, h2] at this
    exact this

/-- **C156.** Train on two sets of samples that share the samples `T`, with the same `C`, each time with any of the three
learners: the squared distance of the weights is at most `4 C² N² R + 8 (ε + δ)`, where `N` is the number of samples that
are only in one of the sets, `R` bounds the squared distances of joint features of these samples, and `ε`, `δ` are the
promised tolerances. The number of common samples does not occur. -/
theorem C156_stable (m : SModel X Y) (outputs : X → Set Y)
    (hLA : (problemOf m outputs).ExactLossAug (fun x y w => m.lossAug x y w true)) (S S' A B T : List (X × Y))
    (hS : S.Perm (A ++ T)) (hS' : S'.Perm (B ++ T)) (hl : (problemOf m outputs).Labelled S)
    (hl' : (problemOf m outputs).Labelled S') (R : ℚ) (hR : (problemOf m outputs).FeatureRange (A ++ B) R) (hR0 : 0 ≤ R)
    (C ε δ : ℚ) (hC : 0 < C) (w v : W) (hw : Trained m outputs S C ε w) (hv : Trained m outputs S' C δ v) :
    ∑ k ∈ range m.dim, (w k - v k) ^ 2 ≤
      4 * (C ^ 2 * ((A.length + B.length : ℕ) : ℚ) ^ 2 * R) + 8 * (ε + δ) := by
  have hex := hinges_exist hLA hl
  have hex' := hinges_exist hLA hl'
  obtain ⟨rw', h1⟩ := hingeSum_exists hex w
  obtain ⟨rv, h2⟩ := hingeSum_exists hex v
  obtain ⟨qw, h3⟩ := hingeSum_exists hex' w
  obtain ⟨qv, h4⟩ := hingeSum_exists hex' v
  have key := near_shift hC.le hC.le hex hex' (trained_near m outputs hLA S hl hC hw)
    (trained_near m outputs hLA S' hl' hC hv) h1 h2 h3 h4
  obtain ⟨aw, tw, ha, ht, rfl⟩ := isHingeSum_append (isHingeSum_perm hS h1)
  obtain ⟨av, tv, ha', ht', rfl⟩ := isHingeSum_append (isHingeSum_perm hS h2)
  obtain ⟨bw, tw', hb, ht2, rfl⟩ := isHingeSum_append (isHingeSum_perm hS' h3)
  obtain ⟨bv, tv', hb', ht2', rfl⟩ := isHingeSum_append (isHingeSum_perm hS' h4)
  rw [isHingeSum_unique ht2 ht, isHingeSum_unique ht2' ht'] at key
  obtain ⟨l1, n1, e1, q1⟩ := isHingeSum_lipschitz (fun s hs => hR s (List.mem_append_left _ hs))
    (fun s hs => hl s (hS.mem_iff.mpr (List.mem_append_left _ hs))) ha' ha
  obtain ⟨l2, n2, e2, q2⟩ := isHingeSum_lipschitz (fun s hs => hR s (List.mem_append_right _ hs))
    (fun s hs => hl' s (hS'.mem_iff.mpr (List.mem_append_left _ hs))) hb hb'
  have hD : 0 ≤ ∑ k ∈ range m.dim, (w k - v k) ^ 2 := sum_nonneg fun k _ => sq_nonneg _
  have hflip : ∑ k ∈ range m.dim, (v k - w k) ^ 2 = ∑ k ∈ range m.dim, (w k - v k) ^ 2 :=
    sum_congr rfl fun k _ => by ring
  have hX := sum_sq_bound (Q := R * ∑ k ∈ range m.dim, (w k - v k) ^ 2) (l1 ++ l2) (by
    intro d hd
    rcases List.mem_append.mp hd with hd | hd
    · have := q1 d hd
      rwa [show (problemOf m outputs).dim = m.dim from rfl, hflip] at this
    · exact q2 d hd)
  rw [List.sum_append, List.length_append, n1, n2, ← e1, ← e2] at hX
  have := solve_shift (c := C) (e := 4 * (ε + δ)) hR0 hD
    (by
      refine key.trans_eq ?_
      ring) hX
  linarith

/-- **C156, one sample replaced.** -/
theorem C156_replaced (m : SModel X Y) (outputs : X → Set Y)
    (hLA : (problemOf m outputs).ExactLossAug (fun x y w => m.lossAug x y w true)) (l r : List (X × Y)) (s s' : X × Y)
    (hl : (problemOf m outputs).Labelled (l ++ s :: r)) (hl' : (problemOf m outputs).Labelled (l ++ s' :: r)) (R : ℚ)
    (hR : (problemOf m outputs).FeatureRange [s, s'] R) (hR0 : 0 ≤ R)
    (C ε δ : ℚ) (hC : 0 < C) (w v : W) (hw : Trained m outputs (l ++ s :: r) C ε w)
    (hv : Trained m outputs (l ++ s' :: r) C δ v) :
    ∑ k ∈ range m.dim, (w k - v k) ^ 2 ≤ 16 * (C ^ 2 * R) + 8 * (ε + δ) := by
  have := C156_stable m outputs hLA (l ++ s :: r) (l ++ s' :: r) [s] [s'] (l ++ r) List.perm_middle List.perm_middle hl hl' R hR hR0 C ε δ hC w v
    hw hv
  norm_num at this
  linarith

/-- **C156, one sample left out.** -/
theorem C156_left_out (m : SModel X Y) (outputs : X → Set Y)
    (hLA : (problemOf m outputs).ExactLossAug (fun x y w => m.lossAug x y w true)) (l r : List (X × Y)) (s : X × Y)
    (hl : (problemOf m outputs).Labelled (l ++ s :: r)) (R : ℚ)
    (hR : (problemOf m outputs).FeatureRange [s] R) (hR0 : 0 ≤ R)
    (C ε δ : ℚ) (hC : 0 < C) (w v : W) (hw : Trained m outputs (l ++ s :: r) C ε w)
    (hv : Trained m outputs (l ++ r) C δ v) :
    ∑ k ∈ range m.dim, (w k - v k) ^ 2 ≤ 4 * (C ^ 2 * R) + 8 * (ε + δ) := by
  have := C156_stable m outputs hLA (l ++ s :: r) (l ++ r) [s] [] (l ++ r) List.perm_middle (List.Perm.refl _) hl
    (fun t ht => hl t (by
      rcases List.mem_append.mp ht with h | h
      · exact List.mem_append_left _ h
      · exact List.mem_append_right _ (List.mem_cons_of_mem _ h))) R hR hR0 C ε δ hC w v hw hv
  norm_num at this
  linarith

/-- **C156, on any sample.** If the squared distance of two weight vectors is at most `D`, then the hinge losses of any
sample under them differ by at most `sqrt(R D)`, `R` being the range of its joint features. -/
theorem C156_hinge {P : Spec.Problem X Y} (s : X × Y) (hy : s.2 ∈ P.outputs s.1) (R D : ℚ) (hR : P.FeatureRange [s] R)
    (hR0 : 0 ≤ R) (w v : ℕ → ℚ) (hD : ∑ k ∈ range P.dim, (w k - v k) ^ 2 ≤ D) (a b : ℚ) (ha : P.IsHinge w s.1 s.2 a)
    (hb : P.IsHinge v s.1 s.2 b) : (a - b) ^ 2 ≤ R * D :=
  (hinge_lipschitz (hR s List.mem_cons_self) hy ha hb).trans (mul_le_mul_of_nonneg_left hD hR0)

/-! ### the effect of `C` -/

/-- **C157.** Train twice on the same samples, with `C` and `C'`: the squared distance of the weights is at most
`4 (C' - C)² n² R + 8 (ε + δ)`. -/
theorem C157_lipschitz (m : SModel X Y) (outputs : X → Set Y)
    (hLA : (problemOf m outputs).ExactLossAug (fun x y w => m.lossAug x y w true)) (samples : List (X × Y))
    (hl : (problemOf m outputs).Labelled samples) (R : ℚ) (hR : (problemOf m outputs).FeatureRange samples R)
    (hR0 : 0 ≤ R) (C C' ε δ : ℚ) (hC : 0 < C) (hC' : 0 < C') (w v : W) (hw : Trained m outputs samples C ε w)
    (hv : Trained m outputs samples C' δ v) :
    ∑ k ∈ range m.dim, (w k - v k) ^ 2 ≤ 4 * ((C' - C) ^ 2 * (samples.length : ℚ) ^ 2 * R) + 8 * (ε + δ) := by
  have hex := hinges_exist hLA hl
  obtain ⟨rw', h1⟩ := hingeSum_exists hex w
  obtain ⟨rv, h2⟩ := hingeSum_exists hex v
  have key := near_shift hC.le hC'.le hex hex (trained_near m outputs hLA samples hl hC hw)
    (trained_near m outputs hLA samples hl hC' hv) h1 h2 h1 h2
  obtain ⟨l1, n1, e1, q1⟩ := isHingeSum_lipschitz hR hl h1 h2
  have hD : 0 ≤ ∑ k ∈ range m.dim, (w k - v k) ^ 2 := sum_nonneg fun k _ => sq_nonneg _
  have hX := sum_sq_bound l1 q1
  rw [n1, ← e1] at hX
  have := solve_shift (c := C' - C) (e := 4 * (ε + δ)) hR0 hD
    (by
      refine key.trans_eq ?_
      ring) hX
  linarith

/-- **C157, slack and norm.** For the larger `C'` the total hinge loss on the training samples is smaller and the norm of the
weights larger, up to the tolerances. -/
theorem C157_monotone (m : SModel X Y) (outputs : X → Set Y)
    (hLA : (problemOf m outputs).ExactLossAug (fun x y w => m.lossAug x y w true)) (samples : List (X × Y))
    (hl : (problemOf m outputs).Labelled samples) (C C' ε δ : ℚ) (hC : 0 < C) (hCC : C < C') (w v : W)
    (hw : Trained m outputs samples C ε w) (hv : Trained m outputs samples C' δ v) (r r' : ℚ)
    (hr : (problemOf m outputs).IsHingeSum samples w r) (hr' : (problemOf m outputs).IsHingeSum samples v r') :
    r' ≤ r + (ε + δ) / (C' - C) ∧
      ∑ k ∈ range m.dim, w k ^ 2 ≤ ∑ k ∈ range m.dim, v k ^ 2 + 2 * (C * (ε + δ) / (C' - C) + ε) := by
  obtain ⟨a, ha, hao⟩ := trained_near m outputs hLA samples hl hC hw
  obtain ⟨b, hb, hbo⟩ := trained_near m outputs hLA samples hl (hC.trans hCC) hv
  have e1 := hao _ _ (hingeSum_objective.mpr ⟨r', hr', rfl⟩)
  have e2 := hbo _ _ (hingeSum_objective.mpr ⟨r, hr, rfl⟩)
  obtain ⟨q, hq, rfl⟩ := hingeSum_objective.mp ha
  obtain ⟨q', hq', rfl⟩ := hingeSum_objective.mp hb
  rw [isHingeSum_unique hq hr] at e1
  rw [isHingeSum_unique hq' hr'] at e2
  have hd : 0 < C' - C := sub_pos.mpr hCC
  have h1 : r' - r ≤ (ε + δ) / (C' - C) := by
    rw [le_div_iff₀ hd]
    linarith
  refine ⟨by linarith, ?_⟩
  have h2 := mul_le_mul_of_nonneg_left h1 hC.le
  have e3 : ∀ u : W, ∑ k ∈ range m.dim, u k ^ 2 = ∑ k ∈ range (problemOf m outputs).dim, u k * u k := fun u =>
    sum_congr rfl fun k _ => sq _
  rw [e3, e3, mul_div_assoc]
  linarith

/-- **C157, small `C`.** The weights are small if `C` is: with losses of at most `c s` on sample `s`, the squared norm is at
most `2 (C Σ c + ε)`; and the total hinge loss is at most `Σ c + ε / C`. -/
theorem C157_small (m : SModel X Y) (outputs : X → Set Y)
    (hLA : (problemOf m outputs).ExactLossAug (fun x y w => m.lossAug x y w true)) (samples : List (X × Y))
    (hl : (problemOf m outputs).Labelled samples) (c : X × Y → ℚ)
    (hc : ∀ s ∈ samples, ∀ ŷ ∈ outputs s.1, (problemOf m outputs).loss s.2 ŷ ≤ c s) (C ε : ℚ) (hC : 0 < C) (w : W)
    (hw : Trained m outputs samples C ε w) (r : ℚ) (hr : (problemOf m outputs).IsHingeSum samples w r) :
    ∑ k ∈ range m.dim, w k ^ 2 ≤ 2 * (C * (samples.map c).sum + ε) ∧ r ≤ (samples.map c).sum + ε / C := by
  obtain ⟨a, ha, hao⟩ := trained_near m outputs hLA samples hl hC hw
  obtain ⟨r0, hr0⟩ := hingeSum_exists (hinges_exist hLA hl) fun _ => 0
  have e1 := hao _ _ (hingeSum_objective.mpr ⟨r0, hr0, rfl⟩)
  obtain ⟨q, hq, rfl⟩ := hingeSum_objective.mp ha
  rw [isHingeSum_unique hq hr] at e1
  have h0 : r0 ≤ (samples.map c).sum := by
    obtain ⟨hs, hf, rfl⟩ := hr0
    clear ha hao hw hr hq e1 hl
    induction hf with
    | nil => simp
    | cons hh _ ih =>
      rw [List.sum_cons, List.map_cons, List.sum_cons]
      refine add_le_add ?_ (ih fun s hs => hc s (List.mem_cons_of_mem _ hs))
      obtain ⟨ŷ, hy, he⟩ := hh.1
      rw [he, zero_violation]
      exact hc _ List.mem_cons_self ŷ hy
  have hr' : 0 ≤ r := by
    exact hingeSum_nonneg hl hr
  have e2 : ∑ k ∈ range m.dim, w k ^ 2 = ∑ k ∈ range (problemOf m outputs).dim, w k * w k :=
    sum_congr rfl fun k _ => sq _
  have e3 : 0 ≤ ∑ k ∈ range (problemOf m outputs).dim, w k * w k := sum_nonneg fun k _ => mul_self_nonneg _
  have e4 := mul_le_mul_of_nonneg_left h0 hC.le
  have e5 := mul_nonneg hC.le hr'
  simp only [mul_zero, sum_const_zero, zero_div, zero_add] at e1
  constructor
  · rw [e2]
    linarith
  · have : C * (r - (samples.map c).sum) ≤ ε := by linarith
    have := (le_div_iff₀' hC).mpr this
    linarith

/-! ### trainings exist -/

/-- For every training problem and every tolerance there is a training that promises it. -/
theorem trained_exists (m : SModel X Y) (outputs : X → Set Y)
    (hLA : (problemOf m outputs).ExactLossAug (fun x y w => m.lossAug x y w true)) (samples : List (X × Y))
    (hne : samples ≠ []) (hp : m.rescaleC = false) (hl : (problemOf m outputs).Labelled samples) (R : ℚ)
    (hR : (problemOf m outputs).FeatureRange samples R) (C ε : ℚ) (hC : 0 < C) (hε : 0 < ε) :
    ∃ w, Trained m outputs samples C ε w := by
  obtain ⟨H, hH⟩ := Lemmas.objective_exists (hinges_exist hLA hl) C fun _ => 0
  obtain ⟨N, hN⟩ := exists_nat_gt ((4 * (samples.length : ℚ) ^ 2 * (C ^ 2 * R + 1 / 10 ^ 15 + H +
    samples.length * C ^ 2 * R) * H) / ε ^ 2)
  have hN' : (4 * (samples.length : ℚ) ^ 2 * (C ^ 2 * R + 1 / 10 ^ 15 + H +
      samples.length * C ^ 2 * R) * H) < ((N + 1 : ℕ) : ℚ) * ε ^ 2 := by
    rw [div_lt_iff₀ (by positivity)] at hN
    refine hN.trans ?_
    push_cast
    nlinarith [show 0 < ε ^ 2 by positivity]
  set o : FrankWolfe.Obj := ⟨⟨N + 1, C, ε, false, true, 1, false⟩, none, none, ⟨[], []⟩⟩ with ho
  obtain ⟨o', hfit⟩ := (C65_fit_succeeds_partial m (fun _ => List.range samples.length) o samples).mpr
    ⟨hne, by simp [ho], hp, .inr (by simp [ho])⟩
  have hord : VisitsAll samples.length fun _ => List.range samples.length := fun _ => List.Perm.refl _
  obtain ⟨T, -, -, hfin⟩ := C86_fit m outputs (fun _ => List.range samples.length) o o' samples rfl rfl rfl rfl rfl hC.le
    hε.le hord hLA hl R hR _ H hH hfit
  obtain ⟨w, p, h1, -, -⟩ := hfin (by
    simp only [ho]
    push_cast at hN' ⊢
    linarith)
  refine ⟨w, Trained.frankwolfe (fun _ => List.range samples.length) o o' rfl rfl rfl rfl rfl rfl hε.le hord R hR _ H hH ?_
    hfit w h1⟩
  simp only [ho]
  push_cast at hN' ⊢
  linarith

/-- Two samples, one of them left out, and a training of either. -/
example : ∃ w v, Trained (multiClassModel (threeClf false)) (classes 3) threeSamples (1 / 2) (1 / 100) w ∧
    Trained (multiClassModel (threeClf false)) (classes 3) (threeSamples.take 1) (1 / 2) (1 / 50) v := by
  have h := three_trainable
  obtain ⟨w, hw⟩ := trained_exists _ _ h.exact_lossAug _ h.ne h.plain h.labelled _ h.range (1 / 2) (1 / 100) (by norm_num)
    (by norm_num)
  obtain ⟨v, hv⟩ := trained_exists _ _ h.exact_lossAug (threeSamples.take 1) (by decide) h.plain
    (fun s hs => h.labelled s (List.mem_of_mem_take hs)) _ (fun s hs => h.range s (List.mem_of_mem_take hs)) (1 / 2) (1 / 50)
    (by norm_num) (by norm_num)
  exact ⟨w, v, hw, hv⟩

/-- Trainings with different `C`. -/
example : ∃ w v, Trained (multiClassModel (threeClf false)) (classes 3) threeSamples 1 (1 / 100) w ∧
    Trained (multiClassModel (threeClf false)) (classes 3) threeSamples 2 (1 / 100) v := by
  have h := three_trainable
  obtain ⟨w, hw⟩ := trained_exists _ _ h.exact_lossAug _ h.ne h.plain h.labelled _ h.range 1 (1 / 100) (by norm_num)
    (by norm_num)
  obtain ⟨v, hv⟩ := trained_exists _ _ h.exact_lossAug _ h.ne h.plain h.labelled _ h.range 2 (1 / 100) (by norm_num)
    (by norm_num)
  exact ⟨w, v, hw, hv⟩

end Verif.Props
