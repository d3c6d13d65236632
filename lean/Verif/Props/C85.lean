import Verif.Props.C47
import Verif.Lemmas.FWRate

/-!
# C85: batch Frank-Wolfe training is the Frank-Wolfe algorithm; rate and termination
-/

namespace Verif.Props

open Finset Verif.Spec Verif.Learner Verif.FrankWolfe

variable {X Y : Type}

/-- weights and loss term after `t` steps. -/
def batchAt (m : SModel X Y) (cfg : Config) (samples : List (X × Y)) : ℕ → W × ℚ
  | 0 => (fun _ => 0, 0)
  | t + 1 => (FrankWolfe.batchStep m cfg samples t (batchAt m cfg samples t).1 (batchAt m cfg samples t).2).2

/-- what step `t` reports. -/
def batchReport (m : SModel X Y) (cfg : Config) (samples : List (X × Y)) (t : ℕ) : ℚ × ℚ × ℚ :=
  (FrankWolfe.batchStep m cfg samples t (batchAt m cfg samples t).1 (batchAt m cfg samples t).2).1

theorem batchLoop_run (m : SModel X Y) (cfg : Config) (samples : List (X × Y)) (n it : ℕ) (c : Curves) :
    ∃ j ≤ n, (n ≠ 0 → 1 ≤ j) ∧
      batchLoop m cfg samples n it (batchAt m cfg samples it).1 (batchAt m cfg samples it).2 c =
        ((batchAt m cfg samples (it + j)).1,
          ⟨c.dual ++ (List.range j).map (fun i => (batchReport m cfg samples (it + i)).1),
            c.primal ++ (List.range j).map (fun i => (batchReport m cfg samples (it + i)).2.2)⟩) ∧
      (∀ i, i + 1 < j → cfg.tol ≤ (batchReport m cfg samples (it + i)).2.1) ∧
      (j = n ∨ ∃ i, j = i + 1 ∧ (batchReport m cfg samples (it + i)).2.1 < cfg.tol) := by
  induction n generalizing it c with
  | zero => exact ⟨0, le_rfl, fun h => absurd rfl h, by simp [batchLoop], by omega, Or.inl rfl⟩
  | succ n ih =>
    have hr : ∀ c, batchLoop m cfg samples (n + 1) it (batchAt m cfg samples it).1 (batchAt m cfg samples it).2 c =
        if (batchReport m cfg samples it).2.1 < cfg.tol then
          ((batchAt m cfg samples (it + 1)).1, ⟨c.dual ++ [(batchReport m cfg samples it).1],
            c.primal ++ [(batchReport m cfg samples it).2.2]⟩)
        else batchLoop m cfg samples n (it + 1) (batchAt m cfg samples (it + 1)).1 (batchAt m cfg samples (it + 1)).2
          ⟨c.dual ++ [(batchReport m cfg samples it).1], c.primal ++ [(batchReport m cfg samples it).2.2]⟩ :=
      fun _ => rfl
    rw [hr]
    by_cases hlt : (batchReport m cfg samples it).2.1 < cfg.tol
    · rw [if_pos hlt]
      exact ⟨1, by omega, fun _ => le_rfl, by simp, by omega, Or.inr ⟨0, rfl, hlt⟩⟩
    · rw [if_neg hlt]
      obtain ⟨j, j1, j2, j3, j4, j5⟩ := ih (it + 1)
        ⟨c.dual ++ [(batchReport m cfg samples it).1], c.primal ++ [(batchReport m cfg samples it).2.2]⟩
      refine ⟨j + 1, by omega, fun _ => by omega, ?_, ?_, ?_⟩
      · rw [j3]
        have e : ∀ i, it + 1 + i = it + (i + 1) := fun i => by omega
        simp only [e]
        rw [List.range_succ_eq_map, List.map_cons, List.map_map, List.map_cons, List.map_map]
        simp only [List.append_assoc, List.singleton_append, Nat.add_zero]
        rfl
      · intro i hi
        cases i with
        | zero => exact not_lt.mp hlt
        | succ i =>
          have := j4 i (by omega)
          have e : it + (i + 1) = it + 1 + i := by omega
          rw [e]; exact this
      · rcases j5 with rfl | ⟨i, rfl, hi⟩
        · exact Or.inl rfl
        · refine Or.inr ⟨i + 1, rfl, ?_⟩
          have e : it + (i + 1) = it + 1 + i := by omega
          rw [e]; exact hi

/-- the answers of exact loss-augmented inference form a corner. -/
theorem batch_corner (m : SModel X Y) (outputs : X → Set Y) (hr : m.rescaleC = false)
    (hLA : (problemOf m outputs).ExactLossAug (fun x y w => m.lossAug x y w true)) (C : ℚ)
    (samples : List (X × Y)) (hl : (problemOf m outputs).Labelled samples) (w : W) :
    (problemOf m outputs).Corner C samples w (fun k => batchDelta m samples w k * C) (batchLossSum m samples w) := by
  have hz : ∀ f : X × Y → Y → ℚ, (List.zipWith f samples (samples.map fun s => m.lossAug s.1 s.2 w true)).sum =
      (samples.map fun s => f s (m.lossAug s.1 s.2 w true)).sum := by
    intro f
    clear hl
    induction samples with
    | nil => simp
    | cons s l ih => simp only [List.map_cons, List.zipWith_cons_cons, List.sum_cons, ih]
  refine ⟨samples.map fun s => m.lossAug s.1 s.2 w true, ?_, ?_, ?_⟩
  · clear hz
    induction samples with
    | nil => exact List.Forall₂.nil
    | cons s l ih =>
      rw [List.map_cons]
      exact List.Forall₂.cons (hLA s.1 s.2 w (hl s (by simp)).1 (hl s (by simp)).2) (ih fun t ht => hl t (by simp [ht]))
  · intro k _
    rw [hz]
    have : batchDelta m samples w k = (samples.map fun s => (problemOf m outputs).feat s.1 s.2 s.2 k -
        (problemOf m outputs).feat s.1 (m.lossAug s.1 s.2 w true) s.2 k).sum := by
      unfold batchDelta
      clear hz hl
      induction samples with
      | nil => simp
      | cons s t ih =>
        simp only [List.map_cons, List.sum_cons]
        rw [← ih]
        change _ = m.feat s.1 s.2 s.2 k - m.feat s.1 (m.lossAug s.1 s.2 w true) s.2 k + _
        unfold SModel.feat
        rw [if_neg (by simp [hr]), if_neg (by simp [hr])]; ring
    change batchDelta m samples w k * C = _
    rw [this, mul_comm]
  · rw [hz]
    rfl

/-- the clipped step is a line search up to the constant in its denominator. -/
theorem line_search_best (N D e : ℚ) (hD : 0 ≤ D) (he : 0 < e) (γ : ℚ) (h0 : 0 ≤ γ) (h1 : γ ≤ 1) :
    γ * N - γ ^ 2 * D / 2 ≤
      clip (N / (D + e)) * N - clip (N / (D + e)) ^ 2 * D / 2 + e * γ ^ 2 / 2 := by
  have hDe : 0 < D + e := by linarith
  -- compare with the quadratic with curvature `D + e`
  suffices h : γ * N - γ ^ 2 * (D + e) / 2 ≤ clip (N / (D + e)) * N - clip (N / (D + e)) ^ 2 * (D + e) / 2 by
    have hc := sq_nonneg (clip (N / (D + e)))
    nlinarith
  set E := D + e
  unfold clip
  rcases le_or_gt N 0 with hN | hN
  · have : N / E ≤ 0 := div_nonpos_of_nonpos_of_nonneg hN hDe.le
    rw [max_eq_left (min_le_of_right_le this)]
    nlinarith [mul_nonneg h0 (neg_nonneg.mpr hN), mul_nonneg (sq_nonneg γ) hDe.le]
  · rcases le_total 1 (N / E) with h2 | h2
    · rw [min_eq_left h2, max_eq_right zero_le_one]
      rw [le_div_iff₀ hDe, one_mul] at h2
      -- (1-γ) (N - E (1+γ)/2) ≥ 0
      have : 0 ≤ (1 - γ) * (N - E * (1 + γ) / 2) := by
        apply mul_nonneg (by linarith)
        nlinarith
      nlinarith
    · have hnn : 0 ≤ N / E := div_nonneg hN.le hDe.le
      rw [min_eq_right h2, max_eq_right hnn]
      set g := N / E with hg
      have hgN : g * E = N := div_mul_cancel₀ _ hDe.ne'
      rw [← hgN]
      nlinarith [mul_nonneg (sq_nonneg (γ - g)) hDe.le]

/-- what a batch step reports, and that it is a step of the algorithm. -/
theorem batchStep_is_step (m : SModel X Y) (outputs : X → Set Y) (cfg : Config) (hC : 0 < cfg.C)
    (samples : List (X × Y)) (hne : samples ≠ []) (hr : m.rescaleC = false)
    (hLA : (problemOf m outputs).ExactLossAug (fun x y w => m.lossAug x y w true))
    (hl : (problemOf m outputs).Labelled samples) (t : ℕ) (w : W) (l : ℚ) :
    let P := problemOf m outputs
    let n : ℚ := samples.length
    let r := FrankWolfe.batchStep m cfg samples t w l
    r.1.1 = P.dualValue cfg.C w (n * l) ∧ P.IsObjective cfg.C samples w r.1.2.2 ∧
    r.1.2.2 - r.1.1 = n * cfg.C * r.1.2.1 ∧
    ∃ ws bs γ, P.Corner cfg.C samples w ws bs ∧ 0 ≤ γ ∧ γ ≤ 1 ∧
      P.StepSize cfg.C (eps * cfg.C * n) t w ws (n * l) bs γ ∧
      (∀ k, r.2.1 k = (1 - γ) * w k + γ * ws k) ∧ n * r.2.2 = (1 - γ) * (n * l) + γ * bs := by
  intro P n r
  have hn : 0 < n := by
    have := List.length_pos_of_ne_nil hne
    change (0 : ℚ) < (samples.length : ℚ)
    exact_mod_cast this
  have hcorner := batch_corner m outputs hr hLA cfg.C samples hl w
  set ws : W := fun k => batchDelta m samples w k * cfg.C with hws
  set bs := batchLossSum m samples w with hbs
  have hCn : 0 < cfg.C * n := mul_pos hC hn
  have e1 : r.1.1 = P.dualValue cfg.C w (n * l) := by
    have := fwDual_eq P samples.length cfg.C w l
    rw [← this]
    change -(1 / 2) * (∑ k ∈ range m.dim, w k ^ 2) + l * (n * cfg.C) =
      -(1 / 2) * (∑ k ∈ range m.dim, w k ^ 2) + l * n * cfg.C
    ring
  set G := 1 / (cfg.C * n) * dot m.dim (fun k => w k - ws k) w - l + bs / n with hG
  have eG : r.1.2.1 = G := rfl
  have e3 : r.1.2.2 - r.1.1 = n * cfg.C * r.1.2.1 := by
    change r.1.1 + G * n * cfg.C - r.1.1 = n * cfg.C * G
    ring
  have hgap : n * cfg.C * G = (dot m.dim w w / 2 + cfg.C * bs - dot m.dim w ws) -
      P.dualValue cfg.C w (n * l) := by
    have : dot m.dim (fun k => w k - ws k) w = dot m.dim w w - dot m.dim w ws := by
      rw [dot_sub_left, dot_comm m.dim ws w]
    rw [hG, this]
    unfold Problem.dualValue
    change _ = _ - (cfg.C * (n * l) - (dot m.dim w w) / 2)
    field_simp
    ring
  refine ⟨e1, ?_, e3, ws, bs,
    if cfg.lineSearch then clip (G / ((∑ k ∈ range m.dim, (w k - ws k) ^ 2) / (cfg.C * n) + eps)) else 2 / (t + 2),
    hcorner, ?_, ?_, ?_, fun k => rfl, ?_⟩
  · have := corner_objective hcorner
    have e4 : r.1.2.2 = dot P.dim w w / 2 + cfg.C * bs - dot P.dim w ws := by
      have h5 : r.1.2.2 = r.1.1 + n * cfg.C * G := by rw [← eG]; linarith
      rw [h5, e1, hgap]
      change _ = dot m.dim w w / 2 + cfg.C * bs - dot m.dim w ws
      ring
    rw [e4]
    exact this
  · split
    · exact clip_nonneg _
    · positivity
  · split
    · exact clip_le_one _
    · have : (0 : ℚ) ≤ t := Nat.cast_nonneg _
      rw [div_le_one (by positivity)]; linarith
  · by_cases hls : cfg.lineSearch = true
    · right
      intro γ' h0 h1
      rw [if_pos hls, dualValue_step, dualValue_step]
      set D := ∑ k ∈ range m.dim, (w k - ws k) ^ 2 with hD
      have hD0 : 0 ≤ D / (cfg.C * n) := div_nonneg (sum_nonneg fun k _ => sq_nonneg _) hCn.le
      have key := mul_le_mul_of_nonneg_left (line_search_best G (D / (cfg.C * n)) eps hD0 eps_pos γ' h0 h1) hCn.le
      set g := clip (G / (D / (cfg.C * n) + eps))
      change P.dualValue cfg.C w (n * l) + γ' * ((dot m.dim w w / 2 + cfg.C * bs - dot m.dim w ws) -
        P.dualValue cfg.C w (n * l)) - γ' ^ 2 / 2 * D ≤ P.dualValue cfg.C w (n * l) +
        g * ((dot m.dim w w / 2 + cfg.C * bs - dot m.dim w ws) - P.dualValue cfg.C w (n * l)) - g ^ 2 / 2 * D +
        eps * cfg.C * n * γ' ^ 2 / 2
      rw [← hgap]
      have k1 : cfg.C * n * (γ' * G - γ' ^ 2 * (D / (cfg.C * n)) / 2) = γ' * (n * cfg.C * G) - γ' ^ 2 / 2 * D := by
        field_simp
      have k2 : cfg.C * n * (g * G - g ^ 2 * (D / (cfg.C * n)) / 2 + eps * γ' ^ 2 / 2) =
          g * (n * cfg.C * G) - g ^ 2 / 2 * D + eps * cfg.C * n * γ' ^ 2 / 2 := by
        field_simp
      rw [k1, k2] at key
      linarith
    · left
      rw [if_neg hls]
  · have key : ∀ γ : ℚ, n * ((1 - γ) * l + γ * (bs / n)) = (1 - γ) * (n * l) + γ * bs := by
      intro γ
      field_simp
    exact key _

/-- the steps of batch training are a run of the algorithm. -/
theorem batch_run (m : SModel X Y) (outputs : X → Set Y) (cfg : Config) (hC : 0 < cfg.C)
    (samples : List (X × Y)) (hne : samples ≠ []) (hr : m.rescaleC = false)
    (hLA : (problemOf m outputs).ExactLossAug (fun x y w => m.lossAug x y w true))
    (hl : (problemOf m outputs).Labelled samples) (T : ℕ) :
    (problemOf m outputs).FWRun cfg.C (eps * cfg.C * samples.length) samples
      (fun t => (batchAt m cfg samples t).1) (fun t => samples.length * (batchAt m cfg samples t).2) T := by
  refine ⟨fun _ => rfl, mul_zero _, fun t _ => ?_⟩
  exact (batchStep_is_step m outputs cfg hC samples hne hr hLA hl t _ _).2.2.2

/-- **C85.** Batch Frank-Wolfe training of a fresh learner, with exact loss-augmented inference, is a run of the
Frank-Wolfe algorithm on the dual: the learned weights are those after `T` steps, the curves hold the dual and
primal objectives of the weights before each of the `T` steps, training goes on exactly as long as the gap is at
least `tol` (per sample and unit of `C`) and iterations are left. With `B = C² n² R + 1e-15 C n`, where `R` bounds
the squared distances between the joint features of the outputs of a sample: entry `t ≥ 1` of the dual curve is
within `2 B / (t + 2)` of every dual value, and training takes at most `2 k + 1` steps if
`3 B < (k + 1) n C tol`. -/
theorem C85_fit (m : SModel X Y) (outputs : X → Set Y) (order : ℕ → List ℕ) (o o' : FrankWolfe.Obj)
    (samples : List (X × Y)) (hfresh : o.w = none) (hb : o.cfg.batchMode = true) (hC : 0 < o.cfg.C)
    (hLA : (problemOf m outputs).ExactLossAug (fun x y w => m.lossAug x y w true))
    (hl : (problemOf m outputs).Labelled samples) (R : ℚ) (hR : (problemOf m outputs).FeatureRange samples R)
    (hfit : FrankWolfe.fit m order o samples = .ok o') :
    let P := problemOf m outputs
    let n : ℚ := samples.length
    let B : ℚ := o.cfg.C ^ 2 * n ^ 2 * R + eps * o.cfg.C * n
    ∃ (w : ℕ → ℕ → ℚ) (b : ℕ → ℚ) (obj : ℕ → ℚ) (T : ℕ) (d p : ℚ),
      P.FWRun o.cfg.C (eps * o.cfg.C * n) samples w b T ∧ 1 ≤ T ∧ T ≤ o.cfg.maxIter ∧
      o'.w = some (w T) ∧
      (∀ t < T, P.IsObjective o.cfg.C samples (w t) (obj t)) ∧
      o'.curves.dual = (List.range T).map (fun t => P.dualValue o.cfg.C (w t) (b t)) ++ [d] ∧
      o'.curves.primal = (List.range T).map obj ++ [p] ∧
      P.IsObjective o.cfg.C samples (w T) p ∧
      (∀ t, t + 1 < T → n * o.cfg.C * o.cfg.tol ≤ obj t - P.dualValue o.cfg.C (w t) (b t)) ∧
      (T = o.cfg.maxIter ∨ obj (T - 1) - P.dualValue o.cfg.C (w (T - 1)) (b (T - 1)) < n * o.cfg.C * o.cfg.tol) ∧
      (∀ t, 1 ≤ t → t < T → ∀ v c, P.DualPoint o.cfg.C samples v c →
        P.dualValue o.cfg.C v c ≤ P.dualValue o.cfg.C (w t) (b t) + 2 * B / (t + 2)) ∧
      ∀ k : ℕ, 1 ≤ k → 3 * B < (k + 1) * (n * o.cfg.C * o.cfg.tol) → T ≤ 2 * k + 1 := by
  intro P n B
  have hne : samples ≠ [] := by
    intro h0
    subst h0
    unfold FrankWolfe.fit at hfit
    simp only at hfit
    split at hfit
    · cases hfit
    · split at hfit
      · cases hfit
      · rename_i h
        unfold objectivePrimal at h
        simp at h
  have hn : 0 < n := by
    have := List.length_pos_of_ne_nil hne
    change (0 : ℚ) < (samples.length : ℚ)
    exact_mod_cast this
  unfold FrankWolfe.fit at hfit
  rw [hfresh] at hfit
  simp only [hb, if_true] at hfit
  split at hfit
  · cases hfit
  · rename_i w l c hrun
    split at hrun
    · cases hrun
    · rename_i hrr
      obtain ⟨p, ho1, ho2⟩ := C30_objective m outputs hLA samples hl hne w o.cfg.C true
      rw [ho1] at hfit
      simp only at hfit
      split at hfit
      · cases hfit
      · rename_i d hlast
        injection hfit with hfit
        injection hrun with hrun
        simp only [Prod.mk.injEq] at hrun
        obtain ⟨hw, -, hc⟩ := hrun
        obtain ⟨T, t1, t2, t3, t4, t5⟩ := batchLoop_run m o.cfg samples o.cfg.maxIter 0 ⟨[], []⟩
        have t3' : batchLoop m o.cfg samples o.cfg.maxIter 0 (fun _ => 0) 0 ⟨[], []⟩ = _ := t3
        rw [t3'] at hw hc
        simp only [Nat.zero_add, List.nil_append] at hw hc t4 t5
        have hmi : o.cfg.maxIter ≠ 0 := by
          intro h0
          have hT : T = 0 := by omega
          rw [← hc, hT] at hlast
          simp at hlast
        have hr : m.rescaleC = false := by
          cases hrc : m.rescaleC
          · rfl
          · exact absurd ⟨hrc, hmi⟩ hrr
        have hst := fun t => batchStep_is_step m outputs o.cfg hC samples hne hr hLA hl t
          (batchAt m o.cfg samples t).1 (batchAt m o.cfg samples t).2
        have hrunT := batch_run m outputs o.cfg hC samples hne hr hLA hl T
        have hgap : ∀ t, (batchReport m o.cfg samples t).2.2 -
            P.dualValue o.cfg.C (batchAt m o.cfg samples t).1 (n * (batchAt m o.cfg samples t).2) =
            n * o.cfg.C * (batchReport m o.cfg samples t).2.1 := by
          intro t
          rw [← (hst t).1]
          exact (hst t).2.2.1
        have hnC : 0 < n * o.cfg.C := mul_pos hn hC
        have hslack : 0 ≤ eps * o.cfg.C * n := (mul_pos (mul_pos eps_pos hC) hn).le
        refine ⟨fun t => (batchAt m o.cfg samples t).1, fun t => n * (batchAt m o.cfg samples t).2,
          fun t => (batchReport m o.cfg samples t).2.2, T, d, p, hrunT, t2 hmi, t1, ?_, fun t _ => (hst t).2.1, ?_, ?_,
          ?_, ?_, ?_, ?_, ?_⟩
        · rw [← hfit, ← hw]
        · rw [← hfit, ← hc]
          simp only
          congr 1
          exact List.map_congr_left fun t _ => (hst t).1
        · rw [← hfit, ← hc]
        · change P.IsObjective o.cfg.C samples (batchAt m o.cfg samples T).1 p
          rw [hw]; exact ho2
        · intro t ht
          rw [hgap t]
          exact mul_le_mul_of_nonneg_left (t4 t ht) hnC.le
        · rcases t5 with h | ⟨i, h, hi⟩
          · exact Or.inl h
          · right
            have e : T - 1 = i := by omega
            rw [e, hgap i]
            exact mul_lt_mul_of_pos_left hi hnC
        · intro t ht1 ht2 v cc hv
          exact hrunT.rate hC.le hl hslack hR v cc hv t ht1 ht2.le
        · intro k hk hlt
          by_contra hcon
          obtain ⟨t, s1, s2, s3⟩ := hrunT.small_gap hC.le hl hslack hR k hk (by omega)
          have := s3 _ (hst t).2.1
          have h6 := t4 t (by omega)
          have h7 := mul_le_mul_of_nonneg_left h6 hnC.le
          have h8 := hgap t
          have hkq : (0 : ℚ) < k + 1 := by positivity
          rw [le_div_iff₀ hkq] at this
          have h9 : (batchReport m o.cfg samples t).2.2 -
            P.dualValue o.cfg.C (batchAt m o.cfg samples t).1 (n * (batchAt m o.cfg samples t).2) ≥
            n * o.cfg.C * o.cfg.tol := by rw [h8]; exact h7
          have h10 := mul_le_mul_of_nonneg_right h9 hkq.le
          have h11 : ((batchReport m o.cfg samples t).2.2 -
            P.dualValue o.cfg.C (batchAt m o.cfg samples t).1 (n * (batchAt m o.cfg samples t).2)) * (k + 1) ≤ 3 * B :=
            this
          linarith

/-- The hypotheses of C85 hold for a multi-class problem with three classes and two samples, with `R = 8`. -/
example : (problemOf (multiClassModel exampleClf) (classes 3)).ExactLossAug
      (fun x y w => (multiClassModel exampleClf).lossAug x y w true) ∧
    (problemOf (multiClassModel exampleClf) (classes 3)).Labelled exampleSamples ∧
    (problemOf (multiClassModel exampleClf) (classes 3)).FeatureRange exampleSamples 8 ∧
    (FrankWolfe.fit (multiClassModel exampleClf) (fun _ => []) (exampleFW 4 true false false)
      exampleSamples).toOption.map (fun o => (o.curves.dual, o.curves.primal)) =
        some ([0, -3, 1 / 9, 13 / 36, 13 / 36], [2, 5, 11 / 9, 35 / 36, 133 / 100]) := by
  refine ⟨(multiClass_exact exampleClf rfl (fun _ _ => zero_le_one) true).1,
    multiClass_labelled exampleClf rfl _ (by decide), ?_, by decide +kernel⟩
  have key : ∀ s ∈ exampleSamples, ∀ y < 3, ∀ z < 3,
      ∑ k ∈ range (multiClassModel exampleClf).dim, ((multiClassModel exampleClf).feat s.1 y s.2 k -
        (multiClassModel exampleClf).feat s.1 z s.2 k) ^ 2 ≤ 8 := by
    intro s hs
    simp only [exampleSamples, List.mem_cons, List.not_mem_nil, or_false] at hs
    rcases hs with rfl | rfl <;> decide +kernel
  exact fun s hs y hy z hz => key s hs y hy z hz

end Verif.Props
