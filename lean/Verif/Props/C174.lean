import Verif.Spec.Margin
import Verif.Props.C156
import Verif.Props.C107
import Verif.Props.C173

/-!
# C174: samples beyond the margin do not matter for training
-/

namespace Verif.Props

open Finset Verif.Common Verif.Spec Verif.Learner Verif.Lemmas

variable {X Y : Type}

/-- A point of the segment from `w` to `v`. -/
def between (t : ℚ) (w v : ℕ → ℚ) : ℕ → ℚ := fun k => w k + t * (v k - w k)

theorem violation_between (P : Spec.Problem X Y) (t : ℚ) (w v : ℕ → ℚ) (x : X) (y ŷ : Y) :
    P.violation (between t w v) x y ŷ = (1 - t) * P.violation w x y ŷ + t * P.violation v x y ŷ := by
  have h : ∀ z, P.value (between t w v) x y z = (1 - t) * P.value w x y z + t * P.value v x y z := by
    intro z
    unfold Spec.Problem.value
    rw [mul_sum, mul_sum, ← sum_add_distrib]
    exact sum_congr rfl fun k _ => by unfold between; ring
  unfold Spec.Problem.violation
  rw [h, h]
  ring

/-- The risk is strongly convex. -/
theorem objective_between {P : Spec.Problem X Y} {C : ℚ} (hC : 0 ≤ C) {samples : List (X × Y)} {t : ℚ} (h0 : 0 ≤ t) (h1 : t ≤ 1)
    {w v : ℕ → ℚ} {a b c : ℚ} (ha : P.IsObjective C samples w a) (hb : P.IsObjective C samples v b)
    (hc : P.IsObjective C samples (between t w v) c) :
    c + t * (1 - t) / 2 * ∑ k ∈ range P.dim, (w k - v k) ^ 2 ≤ (1 - t) * a + t * b := by
  obtain ⟨ξ, e1, rfl⟩ := objective_iff.mp ha
  obtain ⟨η, e2, rfl⟩ := objective_iff.mp hb
  obtain ⟨ζ, e3, rfl⟩ := objective_iff.mp hc
  have h4 : ∀ i, ζ i ≤ (1 - t) * ξ i + t * η i := by
    intro i
    obtain ⟨ŷ, hy, he⟩ := (e3 i).1
    rw [he, violation_between]
    have f1 := (e1 i).2 ⟨ŷ, hy, rfl⟩
    have f2 := (e2 i).2 ⟨ŷ, hy, rfl⟩
    exact add_le_add (mul_le_mul_of_nonneg_left f1 (by linarith)) (mul_le_mul_of_nonneg_left f2 h0)
  have h5 : ∑ i, ζ i ≤ (1 - t) * ∑ i, ξ i + t * ∑ i, η i := by
    rw [mul_sum, mul_sum, ← sum_add_distrib]
    exact sum_le_sum fun i _ => h4 i
  have h6 := mul_le_mul_of_nonneg_left h5 hC
  have h7 : (∑ k ∈ range P.dim, between t w v k * between t w v k) / 2 +
      t * (1 - t) / 2 * (∑ k ∈ range P.dim, (w k - v k) ^ 2) =
      (1 - t) * ((∑ k ∈ range P.dim, w k * w k) / 2) + t * ((∑ k ∈ range P.dim, v k * v k) / 2) := by
    simp only [sum_div, mul_sum]
    rw [← sum_add_distrib, ← sum_add_distrib]
    exact sum_congr rfl fun k _ => by unfold between; ring
  linarith

/-- Beyond the margin the hinge loss is zero, also for weights nearby. -/
theorem beyond_hinge {P : Spec.Problem X Y} {s : X × Y} (hy : s.2 ∈ P.outputs s.1) (hl : P.loss s.2 s.2 = 0) {R γ : ℚ}
    (hγ : 0 ≤ γ) (hR : P.FeatureRange [s] R) {w u : ℕ → ℚ} (hb : P.Beyond w γ s)
    (hd : R * ∑ k ∈ range P.dim, (w k - u k) ^ 2 ≤ γ ^ 2) : P.IsHinge u s.1 s.2 0 := by
  refine ⟨⟨s.2, hy, ?_⟩, ?_⟩
  · unfold Spec.Problem.violation
    rw [hl]
    ring
  · rintro _ ⟨ŷ, hŷ, rfl⟩
    by_cases he : ŷ = s.2
    · subst he
      unfold Spec.Problem.violation
      rw [hl]
      linarith
    · have h1 := hb ŷ hŷ he
      have h2 := hR s List.mem_cons_self ŷ hŷ s.2 hy
      set D := ∑ k ∈ range P.dim, (u k - w k) * (P.feat s.1 ŷ s.2 k - P.feat s.1 s.2 s.2 k) with hD
      have h3 : P.violation u s.1 s.2 ŷ = P.violation w s.1 s.2 ŷ + D := by
        unfold Spec.Problem.violation Spec.Problem.value
        have : D = ∑ k ∈ range P.dim, u k * P.feat s.1 ŷ s.2 k - ∑ k ∈ range P.dim, u k * P.feat s.1 s.2 s.2 k -
            (∑ k ∈ range P.dim, w k * P.feat s.1 ŷ s.2 k - ∑ k ∈ range P.dim, w k * P.feat s.1 s.2 s.2 k) := by
          rw [hD, ← sum_sub_distrib, ← sum_sub_distrib, ← sum_sub_distrib]
          exact sum_congr rfl fun k _ => by ring
        rw [this]
        ring
      have h4 : D ^ 2 ≤ γ ^ 2 := by
        have e1 := sum_mul_sq_le_sq_mul_sq (range P.dim) (fun k => u k - w k)
          (fun k => P.feat s.1 ŷ s.2 k - P.feat s.1 s.2 s.2 k)
        have e2 : ∑ k ∈ range P.dim, (u k - w k) ^ 2 = ∑ k ∈ range P.dim, (w k - u k) ^ 2 :=
          sum_congr rfl fun k _ => by ring
        have e3 : 0 ≤ ∑ k ∈ range P.dim, (w k - u k) ^ 2 := sum_nonneg fun k _ => sq_nonneg _
        have e4 := mul_le_mul_of_nonneg_left h2 e3
        rw [e2] at e1
        linarith
      have h5 := (abs_le_of_sq_le_sq' h4 hγ).2
      rw [h3]
      unfold Spec.Problem.violation
      linarith

theorem beyond_sum {P : Spec.Problem X Y} {extra : List (X × Y)} (hl : P.Labelled extra) {R γ : ℚ} (hγ : 0 ≤ γ)
    (hR : P.FeatureRange extra R) {w u : ℕ → ℚ} (hb : ∀ s ∈ extra, P.Beyond w γ s)
    (hd : R * ∑ k ∈ range P.dim, (w k - u k) ^ 2 ≤ γ ^ 2) : P.IsHingeSum extra u 0 := by
  induction extra with
  | nil => exact ⟨[], .nil, by simp⟩
  | cons s r ih =>
    obtain ⟨hs, h1, h2⟩ := ih (fun t ht => hl t (List.mem_cons_of_mem _ ht)) (fun t ht => hR t (List.mem_cons_of_mem _ ht))
      (fun t ht => hb t (List.mem_cons_of_mem _ ht))
    obtain ⟨h3, h4⟩ := hl s List.mem_cons_self
    refine ⟨0 :: hs, .cons (beyond_hinge h3 h4 hγ (fun t ht => ?_) (hb s List.mem_cons_self) hd) h1, by rw [List.sum_cons, ← h2, zero_add]⟩
    rw [List.mem_singleton] at ht
    subst ht
    exact hR t List.mem_cons_self

theorem hingeSum_join {P : Spec.Problem X Y} {S T : List (X × Y)} {w : ℕ → ℚ} {a b : ℚ} (ha : P.IsHingeSum S w a)
    (hb : P.IsHingeSum T w b) : P.IsHingeSum (S ++ T) w (a + b) := by
  obtain ⟨hs, h1, rfl⟩ := ha
  obtain ⟨ht, h2, rfl⟩ := hb
  exact ⟨hs ++ ht, List.rel_append h1 h2, by rw [List.sum_append]⟩

/-- Without hinge loss on the extra samples the risks are the same. -/
theorem objective_extra {P : Spec.Problem X Y} {S T : List (X × Y)} {w : ℕ → ℚ} (hT : P.IsHingeSum T w 0) {C a : ℚ} :
    P.IsObjective C (S ++ T) w a ↔ P.IsObjective C S w a := by
  rw [hingeSum_objective, hingeSum_objective]
  constructor
  · rintro ⟨r, h1, rfl⟩
    obtain ⟨p, q, h2, h3, rfl⟩ := isHingeSum_append h1
    rw [isHingeSum_unique h3 hT, add_zero]
    exact ⟨p, h2, rfl⟩
  · rintro ⟨r, h1, rfl⟩
    refine ⟨r, ?_, rfl⟩
    have := hingeSum_join h1 hT
    rwa [add_zero] at this

/-- **C174, adding samples.** Weights that are nearly best for some samples and beyond the margin for further ones are nearly best for all
of them, with the same tolerance. -/
theorem C174_added (P : Spec.Problem X Y) (samples extra : List (X × Y)) (hl : P.Labelled extra) (C ε : ℚ) (hC : 0 ≤ C) (w : ℕ → ℚ)
    (hb : ∀ s ∈ extra, P.Beyond w 0 s) (h : P.NearOptimal C samples ε w) : P.NearOptimal C (samples ++ extra) ε w := by
  obtain ⟨p, h1, h2⟩ := h
  have hT : P.IsHingeSum extra w 0 := by
    induction extra with
    | nil => exact ⟨[], .nil, by simp⟩
    | cons s r ih =>
      obtain ⟨hs, e1, e2⟩ := ih (fun t ht => hl t (List.mem_cons_of_mem _ ht)) (fun t ht => hb t (List.mem_cons_of_mem _ ht))
      obtain ⟨h3, h4⟩ := hl s List.mem_cons_self
      refine ⟨0 :: hs, .cons ⟨⟨s.2, h3, ?_⟩, ?_⟩ e1, by rw [List.sum_cons, ← e2, zero_add]⟩
      · unfold Spec.Problem.violation
        rw [h4]
        ring
      · rintro _ ⟨ŷ, hŷ, rfl⟩
        unfold Spec.Problem.violation
        by_cases he : ŷ = s.2
        · rw [he, h4]
          linarith
        · have := hb s List.mem_cons_self ŷ hŷ he
          linarith
  refine ⟨p, (objective_extra hT).mpr h1, fun v a ha => ?_⟩
  obtain ⟨r, h3, rfl⟩ := hingeSum_objective.mp ha
  obtain ⟨r1, r2, h4, h5, rfl⟩ := isHingeSum_append h3
  have h6 := h2 v _ (hingeSum_objective.mpr ⟨r1, h4, rfl⟩)
  have h7 := mul_nonneg hC (hingeSum_nonneg hl h5)
  rw [mul_add]
  linarith

/-- **C174, leaving out samples.** Weights `w` that are nearly best for samples and extra samples, with the extra samples beyond the margin
by `γ`, have nearly the smallest risk without them, and are close to all weights that are nearly best without them: as close as
the tolerances say, divided by the part `t` of the way from `w` to `v` on which the extra samples stay beyond the margin. -/
theorem C174_left_out (P : Spec.Problem X Y) (samples extra : List (X × Y)) (hl : P.Labelled extra)
    (hex : ∀ s ∈ samples, ∀ w, ∃ v, P.IsHinge w s.1 s.2 v) (C ε γ R : ℚ) (hC : 0 ≤ C) (hγ : 0 ≤ γ)
    (hR : P.FeatureRange extra R) (w v : ℕ → ℚ) (hb : ∀ s ∈ extra, P.Beyond w γ s) (h : P.NearOptimal C (samples ++ extra) ε w)
    (t : ℚ) (h0 : 0 < t) (h1 : t ≤ 1) (ht : R * (t ^ 2 * ∑ k ∈ range P.dim, (w k - v k) ^ 2) ≤ γ ^ 2) (a b : ℚ)
    (ha : P.IsObjective C samples w a) (hv : P.IsObjective C samples v b) :
    a + (1 - t) / 2 * ∑ k ∈ range P.dim, (w k - v k) ^ 2 ≤ b + ε / t := by
  obtain ⟨p, h2, h3⟩ := h
  have z1 : P.IsHingeSum extra w 0 := beyond_sum hl hγ hR hb (by
    simp only [sub_self]
    rw [sum_eq_zero fun k _ => by norm_num, mul_zero]
    exact sq_nonneg _)
  have z2 : P.IsHingeSum extra (between t w v) 0 := beyond_sum hl hγ hR hb (by
    have : ∑ k ∈ range P.dim, (w k - between t w v k) ^ 2 = t ^ 2 * ∑ k ∈ range P.dim, (w k - v k) ^ 2 := by
      rw [mul_sum]
      exact sum_congr rfl fun k _ => by unfold between; ring
    rw [this]
    exact ht)
  obtain ⟨c, hc⟩ := Lemmas.objective_exists hex C (between t w v)
  have h4 := objective_between hC h0.le h1 ha hv hc
  have h5 := h3 _ _ ((objective_extra z2).mpr hc)
  have h6 : p = a := by
    have := (objective_extra z1).mp h2
    obtain ⟨r, e1, rfl⟩ := hingeSum_objective.mp this
    obtain ⟨r', e2, rfl⟩ := hingeSum_objective.mp ha
    rw [isHingeSum_unique e1 e2]
  rw [h6] at h5
  have h7 : t * (a + (1 - t) / 2 * ∑ k ∈ range P.dim, (w k - v k) ^ 2) ≤ t * (b + ε / t) := by
    rw [mul_add t b, mul_div_cancel₀ _ h0.ne']
    linarith
  exact le_of_mul_le_mul_left h7 h0

/-- **C174.** Exactly: the minimiser of the risk is still the minimiser when samples beyond its margin are left out. -/
theorem C174_minimiser (P : Spec.Problem X Y) (samples extra : List (X × Y)) (hl : P.Labelled extra)
    (hex : ∀ s ∈ samples, ∀ w, ∃ v, P.IsHinge w s.1 s.2 v) (C γ R : ℚ) (hC : 0 ≤ C) (hγ : 0 < γ) (hR0 : 0 ≤ R)
    (hR : P.FeatureRange extra R) (w : ℕ → ℚ) (a : ℚ) (hb : ∀ s ∈ extra, P.Beyond w γ s) (h : P.IsRiskMin C (samples ++ extra) w a) :
    P.IsRiskMin C samples w a := by
  have z1 : P.IsHingeSum extra w 0 := beyond_sum hl hγ.le hR hb (by
    simp only [sub_self]
    rw [sum_eq_zero fun k _ => by norm_num, mul_zero]
    exact sq_nonneg _)
  have ha := (objective_extra z1).mp h.1
  refine ⟨ha, fun v b hv => ?_⟩
  set D := ∑ k ∈ range P.dim, (w k - v k) ^ 2 with hD
  have hD0 : 0 ≤ D := sum_nonneg fun k _ => sq_nonneg _
  have hRD : 0 ≤ R * D := mul_nonneg hR0 hD0
  have hpos : 0 < γ + R * D + 1 := by linarith
  have h2 := C174_left_out P samples extra hl hex C 0 γ R hC hγ.le hR w v hb
    ⟨a, h.1, fun u c hu => by have := h.2 u c hu; linarith⟩ (γ / (γ + R * D + 1)) (div_pos hγ hpos)
    (by rw [div_le_one hpos]; linarith) (by
      rw [← hD, div_pow, div_mul_eq_mul_div, mul_div_assoc', div_le_iff₀ (by positivity)]
      have h3 : R * D ≤ (γ + R * D + 1) ^ 2 := by nlinarith
      have := mul_le_mul_of_nonneg_left h3 (sq_nonneg γ)
      linarith) a b ha hv
  rw [zero_div, add_zero, ← hD] at h2
  have h4 : γ / (γ + R * D + 1) ≤ 1 := by rw [div_le_one hpos]; linarith
  have h5 : 0 ≤ (1 - γ / (γ + R * D + 1)) / 2 * D := mul_nonneg (by linarith) hD0
  linarith

/-- **C174, leave-one-out.** Leave one sample out that the minimiser of the risk of all samples classifies beyond the margin: the minimiser
of the others has the same weights and gives the true output of the sample a higher score than every other output. -/
theorem C174_leave_one_out (P : Spec.Problem X Y) (l r : List (X × Y)) (s : X × Y) (hl : P.Labelled (l ++ s :: r))
    (hloss : ∀ ŷ ∈ P.outputs s.1, 0 ≤ P.loss s.2 ŷ)
    (hex : ∀ s' ∈ l ++ r, ∀ w, ∃ v, P.IsHinge w s'.1 s'.2 v) (C γ R : ℚ) (hC : 0 ≤ C) (hγ : 0 < γ) (hR0 : 0 ≤ R)
    (hR : P.FeatureRange [s] R) (w v : ℕ → ℚ) (a b : ℚ) (hb : P.Beyond w γ s) (h : P.IsRiskMin C (l ++ s :: r) w a)
    (hv : P.IsRiskMin C (l ++ r) v b) :
    (∀ k < P.dim, v k = w k) ∧ ∀ ŷ ∈ P.outputs s.1, ŷ ≠ s.2 → P.value v s.1 s.2 ŷ < P.value v s.1 s.2 s.2 := by
  have hperm : (l ++ s :: r).Perm ((l ++ r) ++ [s]) := List.perm_middle.trans (List.perm_append_singleton s (l ++ r)).symm
  have hobj : ∀ u c, P.IsObjective C ((l ++ r) ++ [s]) u c ↔ P.IsObjective C (l ++ s :: r) u c := by
    intro u c
    rw [hingeSum_objective, hingeSum_objective]
    exact ⟨fun ⟨q, h1, h2⟩ => ⟨q, isHingeSum_perm hperm.symm h1, h2⟩, fun ⟨q, h1, h2⟩ => ⟨q, isHingeSum_perm hperm h1, h2⟩⟩
  have hmin : P.IsRiskMin C ((l ++ r) ++ [s]) w a := ⟨(hobj w a).mpr h.1, fun u c hu => h.2 u c ((hobj u c).mp hu)⟩
  have hs : P.Labelled [s] := fun t ht => by
    rw [List.mem_singleton] at ht
    subst ht
    exact hl t (List.mem_append_right _ List.mem_cons_self)
  have h1 := C174_minimiser P (l ++ r) [s] hs hex C γ R hC hγ hR0 hR w a (fun t ht => by
    rw [List.mem_singleton] at ht
    subst ht
    exact hb) hmin
  have h2 := near_close hC hex (w := w) (v := v) (ε := 0) (δ := 0)
    ⟨a, h1.1, fun u c hu => by have := h1.2 u c hu; linarith⟩ ⟨b, hv.1, fun u c hu => by have := hv.2 u c hu; linarith⟩
  have h3 : ∀ k < P.dim, v k = w k := by
    intro k hk
    have e0 : ∑ k ∈ range P.dim, (w k - v k) ^ 2 = 0 :=
      le_antisymm (by linarith) (sum_nonneg fun k _ => sq_nonneg _)
    have e1 := (sum_eq_zero_iff_of_nonneg fun k _ => sq_nonneg _).mp e0 k (mem_range.mpr hk)
    have := pow_eq_zero_iff (n := 2) (by norm_num) |>.mp e1
    linarith
  refine ⟨h3, fun ŷ hŷ hne => ?_⟩
  have hval : ∀ z, P.value v s.1 s.2 z = P.value w s.1 s.2 z := by
    intro z
    unfold Spec.Problem.value
    exact sum_congr rfl fun k hk => by rw [h3 k (mem_range.mp hk)]
  rw [hval, hval]
  have := hb ŷ hŷ hne
  have := hloss ŷ hŷ
  linarith

/-- **C174, learners.** Train any of the learners of C106 on samples and extra samples to accuracy `ε` and on the samples alone to
accuracy `δ`. If the former weights have the extra samples beyond the margin by `γ`, the weights are close: with the bound
`D = 4 C² N² R + 8 (ε + δ)` of C156 on their squared distance and `R t² D ≤ γ²`, `t ≤ 1 / 2`, it is at most `4 (ε / t + δ)`. -/
theorem C174_trained (m : SModel X Y) (outputs : X → Set Y)
    (hLA : (problemOf m outputs).ExactLossAug (fun x y w => m.lossAug x y w true)) (samples extra : List (X × Y))
    (hl : (problemOf m outputs).Labelled (samples ++ extra)) (R γ : ℚ) (hR : (problemOf m outputs).FeatureRange extra R) (hR0 : 0 ≤ R)
    (hγ : 0 ≤ γ) (C ε δ : ℚ) (hC : 0 < C) (w v : W) (hw : Trained m outputs (samples ++ extra) C ε w)
    (hv : Trained m outputs samples C δ v) (hb : ∀ s ∈ extra, (problemOf m outputs).Beyond w γ s) (t : ℚ) (h0 : 0 < t)
    (h1 : t ≤ 1 / 2) (ht : R * (t ^ 2 * (4 * (C ^ 2 * (extra.length : ℚ) ^ 2 * R) + 8 * (ε + δ))) ≤ γ ^ 2) :
    ∑ k ∈ range m.dim, (w k - v k) ^ 2 ≤ 4 * (ε / t + δ) := by
  have hl1 : (problemOf m outputs).Labelled samples := fun s hs => hl s (List.mem_append_left _ hs)
  have hl2 : (problemOf m outputs).Labelled extra := fun s hs => hl s (List.mem_append_right _ hs)
  have hex := hinges_exist hLA hl1
  have hD := C156_stable m outputs hLA (samples ++ extra) samples extra [] samples List.perm_append_comm
    (List.Perm.refl _) hl hl1 R (by rw [List.append_nil]; exact hR) hR0 C ε δ hC w v hw hv
  rw [List.length_nil, Nat.add_zero] at hD
  set D := ∑ k ∈ range m.dim, (w k - v k) ^ 2 with hDd
  have hD0 : 0 ≤ D := sum_nonneg fun k _ => sq_nonneg _
  have n1 := trained_near m outputs hLA _ hl hC hw
  obtain ⟨b, hb1, hb2⟩ := trained_near m outputs hLA _ hl1 hC hv
  obtain ⟨a, ha⟩ := Lemmas.objective_exists hex C w
  have h2 := C174_left_out (problemOf m outputs) samples extra hl2 hex C ε γ R hC.le hγ hR w v hb n1 t h0 (by linarith) (by
    refine le_trans (mul_le_mul_of_nonneg_left (mul_le_mul_of_nonneg_left hD (sq_nonneg t)) hR0) ht) a b ha hb1
  have h3 := hb2 w a ha
  have h4 : (1 - t) / 2 * D ≤ ε / t + δ := by
    change a + (1 - t) / 2 * D ≤ b + ε / t at h2
    linarith
  have h5 : 1 / 4 * D ≤ (1 - t) / 2 * D := mul_le_mul_of_nonneg_right (by linarith) hD0
  linarith

/-! ### examples -/

/-- A sample at the margin and one beyond it. -/
def nearPoint : (ℕ → ℚ) × ℤ := (fun _ => 1, 1)

/-- The sample beyond the margin. -/
def farPoint : (ℕ → ℚ) × ℤ := (fun _ => 3, 1)

theorem far_beyond : (binProblem 1).Beyond (fun _ => 1) 2 farPoint := by
  intro ŷ hŷ hne
  have hŷ' : ŷ = -1 ∨ ŷ = 1 := hŷ
  rcases hŷ' with rfl | rfl
  · rw [show (binProblem 1).value (fun _ => 1) farPoint.1 farPoint.2 (-1) = -(3 / 2) by
        rw [bin_value]; norm_num [farPoint],
      show (binProblem 1).value (fun _ => 1) farPoint.1 farPoint.2 farPoint.2 = 3 / 2 by
        rw [bin_value]; norm_num [farPoint],
      show (binProblem 1).loss farPoint.2 (-1) = 1 by decide]
    norm_num
  · exact absurd rfl hne

theorem near_far_min : (binProblem 1).IsRiskMin 1 ([nearPoint] ++ [farPoint]) (fun _ => 1) (1 / 2) := by
  have hv : ∀ s ∈ [nearPoint] ++ [farPoint], s.2 = -1 ∨ s.2 = 1 := by
    intro s hs
    simp only [nearPoint, farPoint, List.cons_append, List.nil_append, List.mem_cons, List.not_mem_nil, or_false] at hs
    rcases hs with rfl | rfl <;> exact .inr rfl
  have hob := C108_objective 1 1 ([nearPoint] ++ [farPoint]) hv
  have hval : ∀ u : W, linearSVM 1 1 ([nearPoint] ++ [farPoint]) u = u 0 ^ 2 / 2 + (max 0 (1 - u 0) + max 0 (1 - u 0 * 3)) := by
    intro u
    simp [linearSVM, nearPoint, farPoint]
  refine ⟨(hob _ _).mpr ?_, fun u b hb => ?_⟩
  · rw [hval]
    norm_num
  · rw [(hob u b).mp hb, hval]
    have h1 := le_max_right (0 : ℚ) (1 - u 0)
    have h3 := le_max_left (0 : ℚ) (1 - u 0 * 3)
    nlinarith [sq_nonneg (u 0 - 1)]

/-- The minimiser of both samples is that of the first alone. -/
example : (binProblem 1).IsRiskMin 1 [nearPoint] (fun _ => 1) (1 / 2) := by
  refine C174_minimiser (binProblem 1) [nearPoint] [farPoint] ?_ ?_ 1 2 9 (by norm_num) (by norm_num) (by norm_num) ?_ _ _ ?_ near_far_min
  · intro s hs
    rw [List.mem_singleton] at hs
    subst hs
    exact ⟨.inr rfl, by decide⟩
  · intro s hs w
    rw [List.mem_singleton] at hs
    subst hs
    exact ⟨_, (bin_hinge 1 w _ _ (.inr rfl) _).mpr rfl⟩
  · intro s hs y hy z hz
    rw [List.mem_singleton] at hs
    subst hs
    have hy' : y = -1 ∨ y = 1 := hy
    have hz' : z = -1 ∨ z = 1 := hz
    rcases hy' with rfl | rfl <;> rcases hz' with rfl | rfl <;> decide +kernel
  · intro s hs
    rw [List.mem_singleton] at hs
    subst hs
    exact far_beyond

/-- The two samples for a classifier of two classes. -/
def farSamples : List ((ℕ → ℚ) × ℕ) := [(fun _ => 1, 1), (fun _ => 3, 1)]

theorem farSamples_valid : ∀ s ∈ farSamples, s.2 < 2 := by
  intro s hs
  simp only [farSamples, List.mem_cons, List.not_mem_nil, or_false] at hs
  rcases hs with rfl | rfl <;> decide

/-- Trainings that meet all hypotheses of `C174_trained`. -/
example : ∃ w v : W, Trained (multiClassModel ⟨2, 1, ⟨2, fun _ => 1⟩, true, false⟩) (classes 2) farSamples 1 (1 / 800) w ∧
    Trained (multiClassModel ⟨2, 1, ⟨2, fun _ => 1⟩, true, false⟩) (classes 2) (farSamples.take 1) 1 (1 / 800) v ∧
    ∑ k ∈ range 2, (w k - v k) ^ 2 ≤ 4 * (1 / 800 / (1 / 40) + 1 / 800) := by
  set m : Unstructured.MultiClass := ⟨2, 1, ⟨2, fun _ => 1⟩, true, false⟩ with hm
  have hLA := (multiClass_exact m rfl (fun _ _ => by norm_num [hm]) true).1
  have hl := multiClass_labelled m rfl _ farSamples_valid
  have hv1 : ∀ s ∈ farSamples.take 1, s.2 < 2 := fun s hs => farSamples_valid s (List.mem_of_mem_take hs)
  have hl1 := multiClass_labelled m rfl _ hv1
  have hr : (problemOf (multiClassModel m) (classes 2)).FeatureRange farSamples 18 :=
    mc_range m rfl _ farSamples_valid 18 (by
      intro s hs
      simp only [farSamples, List.mem_cons, List.not_mem_nil, or_false] at hs
      rcases hs with rfl | rfl <;> decide +kernel)
  obtain ⟨w, hw⟩ := trained_exists (multiClassModel m) (classes 2) hLA farSamples (by decide) rfl hl 18 hr 1 (1 / 800)
    (by norm_num) (by norm_num)
  obtain ⟨v, hv⟩ := trained_exists (multiClassModel m) (classes 2) hLA (farSamples.take 1) (by decide) rfl hl1 18
    (fun s hs => hr s (List.mem_of_mem_take hs)) 1 (1 / 800) (by norm_num) (by norm_num)
  refine ⟨w, v, hw, hv, ?_⟩
  have hob := C108_objective 1 (2 * 1) (signSamples farSamples) (signSamples_valid farSamples)
  have hval : ∀ u : W, linearSVM 1 (2 * 1) (signSamples farSamples) u =
      u 0 ^ 2 / 2 + 2 * (max 0 (1 - u 0) + max 0 (1 - u 0 * 3)) := by
    intro u
    simp [linearSVM, signSamples, farSamples, signOfClass]
  have h1 := C173_same_weights m ⟨rfl, rfl, fun _ _ => rfl⟩ farSamples farSamples_valid 1 (1 / 800) 0 (by norm_num) w (fun _ => 1) hw
    ⟨_, (hob _ _).mpr rfl, fun u b hb => by
      rw [(hob u b).mp hb, hval, hval]
      have h1 := le_max_right (0 : ℚ) (1 - u 0)
      have h2 := le_max_left (0 : ℚ) (1 - u 0)
      have h3 := le_max_left (0 : ℚ) (1 - u 0 * 3)
      norm_num
      nlinarith [sq_nonneg (u 0 - 1)]⟩
  have h2 : (w 1 - w 0 - 1) ^ 2 ≤ (1 / 10) ^ 2 := by
    have : (w 1 - w 0 - 1) ^ 2 ≤ 4 * (2 * (1 / 800) + 0) := by simpa [hm] using h1
    linarith
  have h3 := (abs_le_of_sq_le_sq' h2 (by norm_num)).1
  have := C174_trained (multiClassModel m) (classes 2) hLA (farSamples.take 1) (farSamples.drop 1)
    (by rw [List.take_append_drop]; exact hl) 18 1 (fun s hs => hr s (List.mem_of_mem_drop hs)) (by norm_num) (by norm_num) 1 (1 / 800)
    (1 / 800) (by norm_num) w v (by rw [List.take_append_drop]; exact hw) hv (by
      intro s hs ŷ hŷ hne
      have hs' : s = (fun _ => 3, 1) := by simpa [farSamples] using hs
      subst hs'
      have hy' : ŷ < 2 := hŷ
      have hy0 : ŷ = 0 := by
        have : ŷ ≠ 1 := hne
        omega
      subst hy0
      have e0 := mc_value m rfl w (fun _ => 3) (y := 1) (c := 0) (by decide) (by decide)
      have e1 := mc_value m rfl w (fun _ => 3) (y := 1) (c := 1) (by decide) (by decide)
      have e2 : (problemOf (multiClassModel m) (classes 2)).loss 1 0 = 1 := by decide +kernel
      change (problemOf (multiClassModel m) (classes 2)).loss 1 0 + (classProblem m).value w (fun _ => 3) 1 0 + 1 ≤
        (classProblem m).value w (fun _ => 3) 1 1
      rw [e0, e1, e2]
      simp only [classCost, linearScore, hm, sum_range_one, if_false, Bool.false_eq_true]
      norm_num
      linarith) (1 / 40) (by norm_num) (by norm_num) (by norm_num [farSamples])
  exact this

end Verif.Props
