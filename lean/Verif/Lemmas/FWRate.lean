import Verif.Spec.FrankWolfe
import Verif.Lemmas.Duality
import Mathlib.Tactic.FieldSimp

/-!
# Convergence of Frank-Wolfe runs

Everything here is about `Problem.FWRun`, not about the code.
-/

namespace Verif.Spec

open Finset

variable {X Y : Type}

/-- weighted Cauchy-Schwarz for lists. -/
theorem list_cauchy {α : Type} (l : List α) (p u : α → ℚ) (hp : ∀ a ∈ l, 0 ≤ p a) :
    0 ≤ (l.map p).sum ∧ 0 ≤ (l.map fun a => p a * u a ^ 2).sum ∧
    ((l.map fun a => p a * u a).sum) ^ 2 ≤ (l.map p).sum * (l.map fun a => p a * u a ^ 2).sum := by
  induction l with
  | nil => simp
  | cons a l ih =>
    obtain ⟨h1, h2, h3⟩ := ih fun b hb => hp b (List.mem_cons_of_mem _ hb)
    have ha := hp a List.mem_cons_self
    simp only [List.map_cons, List.sum_cons]
    set A := (l.map p).sum
    set Q := (l.map fun a => p a * u a ^ 2).sum
    set S := (l.map fun a => p a * u a).sum
    have hu := sq_nonneg (u a)
    refine ⟨by linarith, by positivity, ?_⟩
    have key : 0 ≤ A * u a ^ 2 + Q - 2 * u a * S := by
      rcases h1.eq_or_lt with h0 | h0
      · rw [← h0, zero_mul] at h3
        have : S = 0 := by nlinarith
        rw [this, ← h0]
        linarith
      · have : 0 ≤ A * (A * u a ^ 2 + Q - 2 * u a * S) := by nlinarith [sq_nonneg (A * u a - S)]
        exact nonneg_of_mul_nonneg_right this h0
    nlinarith [mul_nonneg ha key]

/-- the distance between a mean of feature differences and one of them. -/
theorem mix_dist {P : Problem X Y} {x : X} {y : Y} {a : ℕ → ℚ} {b : ℚ} (h : P.Mix x y a b) {ŷ : Y} {R : ℚ}
    (hR : ∀ z ∈ P.outputs x, ∑ k ∈ range P.dim, (P.feat x ŷ y k - P.feat x z y k) ^ 2 ≤ R) :
    ∑ k ∈ range P.dim, (a k - (P.feat x y y k - P.feat x ŷ y k)) ^ 2 ≤ R := by
  obtain ⟨cs, h1, h2, h3, -⟩ := h
  have e : ∀ k ∈ range P.dim, (a k - (P.feat x y y k - P.feat x ŷ y k)) ^ 2 ≤
      (cs.map fun c => c.1 * (P.feat x ŷ y k - P.feat x c.2 y k) ^ 2).sum := by
    intro k hk
    have e1 : a k - (P.feat x y y k - P.feat x ŷ y k) =
        (cs.map fun c => c.1 * (P.feat x ŷ y k - P.feat x c.2 y k)).sum := by
      rw [h3 k (mem_range.mp hk)]
      have : (P.feat x y y k - P.feat x ŷ y k) =
          (cs.map fun c => c.1 * (P.feat x y y k - P.feat x ŷ y k)).sum := by
        have := list_sum_mul_left cs (P.feat x y y k - P.feat x ŷ y k) Prod.fst
        rw [h2, mul_one] at this
        refine this.symm.trans ?_
        congr 1
        exact List.map_congr_left fun c _ => by ring
      rw [this]
      clear this h1 h2 h3
      induction cs with
      | nil => simp
      | cons c l ih =>
        simp only [List.map_cons, List.sum_cons]
        rw [← ih]; ring
    have := (list_cauchy cs Prod.fst (fun c => P.feat x ŷ y k - P.feat x c.2 y k)
      (fun c hc => (h1 c hc).1)).2.2
    rw [h2, one_mul] at this
    rw [e1]
    exact this
  refine (sum_le_sum e).trans ?_
  rw [list_sum_finset]
  have e2 : (cs.map fun c => ∑ k ∈ range P.dim, c.1 * (P.feat x ŷ y k - P.feat x c.2 y k) ^ 2).sum ≤
      (cs.map fun c => c.1 * R).sum := by
    apply Props.list_sum_le
    intro c hc
    rw [← mul_sum]
    exact mul_le_mul_of_nonneg_left (hR _ (h1 c hc).2) (h1 c hc).1
  refine e2.trans ?_
  have := list_sum_mul_left cs R Prod.fst
  rw [h2, mul_one] at this
  refine le_of_eq (Eq.trans ?_ this)
  congr 1
  exact List.map_congr_left fun c _ => by ring

/-- corners and dual points are at bounded distance. -/
theorem corner_dist {P : Problem X Y} {C : ℚ} {samples : List (X × Y)} {w v ws : ℕ → ℚ} {b bs R : ℚ}
    (h : P.DualPoint C samples w b) (hc : P.Corner C samples v ws bs) (hR : P.FeatureRange samples R) :
    ∑ k ∈ range P.dim, (w k - ws k) ^ 2 ≤ C ^ 2 * samples.length ^ 2 * R := by
  obtain ⟨blocks, b1, b2, -⟩ := h
  obtain ⟨ys, y1, y2, -⟩ := hc
  have hxs : ∃ xs : List (ℕ → ℚ), xs.length = samples.length ∧
      (∀ x ∈ xs, ∑ k ∈ range P.dim, x k ^ 2 ≤ R) ∧
      ∀ k, (blocks.map fun p => p.1 k).sum -
        (List.zipWith (fun s ŷ => P.feat s.1 s.2 s.2 k - P.feat s.1 ŷ s.2 k) samples ys).sum =
          (xs.map fun x => x k).sum := by
    clear b2 y2
    induction b1 generalizing ys with
    | nil => cases y1; exact ⟨[], rfl, by simp, by simp⟩
    | @cons s p ss ps hm _ ih =>
      cases y1 with
      | @cons _ ŷ _ ys hy y1 =>
        obtain ⟨xs, x1, x2, x3⟩ := ih (fun t ht => hR t (List.mem_cons_of_mem _ ht)) ys y1
        refine ⟨(fun k => p.1 k - (P.feat s.1 s.2 s.2 k - P.feat s.1 ŷ s.2 k)) :: xs, by simp [x1], ?_, ?_⟩
        · intro x hx
          rcases List.mem_cons.mp hx with rfl | hx
          · exact mix_dist hm fun z hz => hR s List.mem_cons_self ŷ hy.1 z hz
          · exact x2 x hx
        · intro k
          simp only [List.map_cons, List.sum_cons, List.zipWith_cons_cons]
          rw [← x3 k]; ring
  obtain ⟨xs, x1, x2, x3⟩ := hxs
  have e : ∀ k ∈ range P.dim, (w k - ws k) ^ 2 ≤ C ^ 2 * (samples.length * (xs.map fun x => x k ^ 2).sum) := by
    intro k hk
    rw [b2 k (mem_range.mp hk), y2 k (mem_range.mp hk), ← mul_sub, x3 k, mul_pow]
    refine mul_le_mul_of_nonneg_left ?_ (sq_nonneg C)
    have := (list_cauchy xs (fun _ => 1) (fun x => x k) (fun _ _ => zero_le_one)).2.2
    simp only [one_mul] at this
    refine this.trans (le_of_eq ?_)
    rw [← x1]
    simp
  refine (sum_le_sum e).trans ?_
  rw [← mul_sum, ← mul_sum, list_sum_finset]
  have e2 : (xs.map fun x => ∑ k ∈ range P.dim, x k ^ 2).sum ≤ samples.length * R := by
    have : (xs.map fun x => ∑ k ∈ range P.dim, x k ^ 2).sum ≤ (xs.map fun _ => R).sum :=
      Props.list_sum_le _ _ _ x2
    refine this.trans (le_of_eq ?_)
    rw [← x1]
    simp
  have hn : (0 : ℚ) ≤ samples.length := Nat.cast_nonneg _
  have := mul_le_mul_of_nonneg_left e2 hn
  have := mul_le_mul_of_nonneg_left this (sq_nonneg C)
  refine this.trans (le_of_eq ?_)
  ring

/-- corners are dual points. -/
theorem corner_dualPoint {P : Problem X Y} {C : ℚ} {samples : List (X × Y)} {v ws : ℕ → ℚ} {bs : ℚ}
    (hc : P.Corner C samples v ws bs) : P.DualPoint C samples ws bs := by
  obtain ⟨ys, y1, y2, y3⟩ := hc
  refine ⟨List.zipWith (fun s ŷ => (fun k => P.feat s.1 s.2 s.2 k - P.feat s.1 ŷ s.2 k, P.loss s.2 ŷ)) samples ys,
    ?_, ?_, ?_⟩
  · clear y2 y3
    induction y1 with
    | nil => exact List.Forall₂.nil
    | cons h _ ih => exact List.Forall₂.cons (mix_single P h.1) ih
  · intro k hk
    rw [y2 k hk]
    congr 2
    rw [List.map_zipWith]
  · rw [y3]
    congr 1
    rw [List.map_zipWith]

/-- the risk at `w` in terms of the corner at `w`. -/
theorem corner_objective {P : Problem X Y} {C : ℚ} {samples : List (X × Y)} {w ws : ℕ → ℚ} {bs : ℚ}
    (hc : P.Corner C samples w ws bs) :
    P.IsObjective C samples w (dot P.dim w w / 2 + C * bs - dot P.dim w ws) := by
  obtain ⟨ys, y1, y2, y3⟩ := hc
  refine ⟨List.zipWith (fun s ŷ => P.violation w s.1 s.2 ŷ) samples ys, ?_, ?_⟩
  · clear y2 y3
    induction y1 with
    | nil => exact List.Forall₂.nil
    | cons h _ ih =>
      refine List.Forall₂.cons ⟨⟨_, h.1, rfl⟩, ?_⟩ ih
      rintro v ⟨z, hz, rfl⟩
      exact h.2 z hz
  · have e : dot P.dim w ws = C * (List.zipWith (fun s ŷ =>
        P.value w s.1 s.2 s.2 - P.value w s.1 s.2 ŷ) samples ys).sum := by
      have e0 : dot P.dim w ws = ∑ k ∈ range P.dim, w k * (C * (List.zipWith (fun s ŷ =>
          P.feat s.1 s.2 s.2 k - P.feat s.1 ŷ s.2 k) samples ys).sum) := by
        unfold dot
        exact sum_congr rfl fun k hk => by rw [y2 k (mem_range.mp hk)]
      rw [e0]
      clear e0 y2 y3
      have e1 : ∀ k, w k * (C * (List.zipWith (fun s ŷ => P.feat s.1 s.2 s.2 k - P.feat s.1 ŷ s.2 k)
          samples ys).sum) = C * (w k * (List.zipWith (fun s ŷ => P.feat s.1 s.2 s.2 k - P.feat s.1 ŷ s.2 k)
          samples ys).sum) := fun k => by ring
      simp only [e1]
      rw [← mul_sum]
      congr 1
      clear e1
      induction y1 with
      | nil => simp
      | @cons s ŷ ss ys _ _ ih =>
        simp only [List.zipWith_cons_cons, List.sum_cons, mul_add, sum_add_distrib]
        rw [ih]
        congr 1
        unfold Problem.value
        rw [← sum_sub_distrib]
        exact sum_congr rfl fun k _ => by ring
    have e2 : (List.zipWith (fun s ŷ => P.violation w s.1 s.2 ŷ) samples ys).sum =
        bs - (List.zipWith (fun s ŷ => P.value w s.1 s.2 s.2 - P.value w s.1 s.2 ŷ) samples ys).sum := by
      rw [y3]
      clear e y2 y3
      induction y1 with
      | nil => simp
      | cons _ _ ih =>
        simp only [List.zipWith_cons_cons, List.sum_cons]
        rw [ih]
        unfold Problem.violation
        ring
    rw [e2, e, sum_sq_mul]
    ring

/-- the dual along a step. -/
theorem dualValue_step (P : Problem X Y) (C : ℚ) (w ws : ℕ → ℚ) (b bs γ : ℚ) :
    P.dualValue C (fun k => (1 - γ) * w k + γ * ws k) ((1 - γ) * b + γ * bs) =
      P.dualValue C w b + γ * ((dot P.dim w w / 2 + C * bs - dot P.dim w ws) - P.dualValue C w b) -
        γ ^ 2 / 2 * ∑ k ∈ range P.dim, (w k - ws k) ^ 2 := by
  unfold Problem.dualValue dot
  have e1 : ∑ k ∈ range P.dim, ((1 - γ) * w k + γ * ws k) * ((1 - γ) * w k + γ * ws k) =
      (1 - γ) ^ 2 * ∑ k ∈ range P.dim, w k * w k + 2 * γ * (1 - γ) * ∑ k ∈ range P.dim, w k * ws k +
        γ ^ 2 * ∑ k ∈ range P.dim, ws k * ws k := by
    rw [mul_sum, mul_sum, mul_sum, ← sum_add_distrib, ← sum_add_distrib]
    exact sum_congr rfl fun k _ => by ring
  have e2 : ∑ k ∈ range P.dim, (w k - ws k) ^ 2 =
      ∑ k ∈ range P.dim, w k * w k - 2 * ∑ k ∈ range P.dim, w k * ws k + ∑ k ∈ range P.dim, ws k * ws k := by
    rw [mul_sum, ← sum_sub_distrib, ← sum_add_distrib]
    exact sum_congr rfl fun k _ => by ring
  rw [e1, e2]
  ring

variable {P : Problem X Y} {C slack : ℚ} {samples : List (X × Y)} {w : ℕ → ℕ → ℚ} {b : ℕ → ℚ} {T : ℕ}

theorem Problem.FWRun.dualPoint (h : P.FWRun C slack samples w b T) (hl : P.Labelled samples) (t : ℕ) (ht : t ≤ T) :
    P.DualPoint C samples (w t) (b t) := by
  induction t with
  | zero =>
    have := dualPoint_true P C samples hl
    have e : w 0 = fun _ => 0 := funext h.start_w
    rw [e, h.start_b]
    exact this
  | succ t ih =>
    obtain ⟨ws, bs, γ, h1, h2, h3, -, h5, h6⟩ := h.step t (by omega)
    have := dualPoint_convex (ih (by omega)) (corner_dualPoint h1) h2 h3
    have e : w (t + 1) = fun k => (1 - γ) * w t k + γ * ws k := funext h5
    rw [e, h6]
    exact this

/-- what one step gains at least. -/
theorem Problem.FWRun.gain (h : P.FWRun C slack samples w b T) (hl : P.Labelled samples) (hs : 0 ≤ slack) {R : ℚ}
    (hR : P.FeatureRange samples R) (t : ℕ) (ht : t < T) (obj : ℚ) (ho : P.IsObjective C samples (w t) obj) :
    P.dualValue C (w t) (b t) + 2 / (t + 2) * (obj - P.dualValue C (w t) (b t)) -
      (2 / (t + 2)) ^ 2 / 2 * (C ^ 2 * samples.length ^ 2 * R + slack) ≤ P.dualValue C (w (t + 1)) (b (t + 1)) := by
  obtain ⟨ws, bs, γ, h1, h2, h3, h4, h5, h6⟩ := h.step t ht
  have e : w (t + 1) = fun k => (1 - γ) * w t k + γ * ws k := funext h5
  rw [e, h6]
  have hd := corner_dist (h.dualPoint hl t ht.le) h1 hR
  have ho' : obj = dot P.dim (w t) (w t) / 2 + C * bs - dot P.dim (w t) ws :=
    isObjective_unique ho (corner_objective h1)
  have hsq : 0 ≤ (2 / ((t : ℚ) + 2)) ^ 2 / 2 := by positivity
  have h1' := dualValue_step P C (w t) ws (b t) bs (2 / (t + 2))
  rw [← ho'] at h1'
  have hb := mul_le_mul_of_nonneg_left hd hsq
  have hss := mul_nonneg hsq hs
  rcases h4 with rfl | h4
  · rw [h1']
    nlinarith
  · have := h4 (2 / (t + 2)) (by positivity) (by
      rw [div_le_one (by positivity)]
      have : (0 : ℚ) ≤ t := Nat.cast_nonneg _
      linarith)
    rw [h1'] at this
    nlinarith

/-- a run knows the risk at each of its weights. -/
theorem Problem.FWRun.objective (h : P.FWRun C slack samples w b T) (t : ℕ) (ht : t < T) :
    ∃ obj, P.IsObjective C samples (w t) obj := by
  obtain ⟨ws, bs, γ, h1, -⟩ := h.step t ht
  exact ⟨_, corner_objective h1⟩

/-- **rate**: after `t ≥ 1` steps the dual value is within `2B/(t+2)` of every dual value. -/
theorem Problem.FWRun.rate (h : P.FWRun C slack samples w b T) (hC : 0 ≤ C) (hl : P.Labelled samples) (hs : 0 ≤ slack) {R : ℚ}
    (hR : P.FeatureRange samples R) (v : ℕ → ℚ) (c : ℚ) (hv : P.DualPoint C samples v c) (t : ℕ) (ht : 1 ≤ t)
    (htT : t ≤ T) :
    P.dualValue C v c ≤ P.dualValue C (w t) (b t) +
      2 * (C ^ 2 * samples.length ^ 2 * R + slack) / (t + 2) := by
  set B := C ^ 2 * samples.length ^ 2 * R + slack with hB
  have step : ∀ t < T, P.dualValue C v c - P.dualValue C (w (t + 1)) (b (t + 1)) ≤
      (1 - 2 / (t + 2)) * (P.dualValue C v c - P.dualValue C (w t) (b t)) + (2 / (t + 2)) ^ 2 / 2 * B := by
    intro t ht
    obtain ⟨obj, ho⟩ := h.objective t ht
    have h1 := h.gain hl hs hR t ht obj ho
    have h2 := weak_duality P hC hv ho
    have h3 : (0 : ℚ) ≤ 2 / (t + 2) := by positivity
    rw [← hB] at h1
    nlinarith [mul_nonneg h3 (sub_nonneg.mpr h2)]
  have hB0 : 0 ≤ B := by
    obtain ⟨ws, bs, γ, h1, -⟩ := h.step 0 (by omega)
    have := corner_dist (h.dualPoint hl 0 (by omega)) h1 hR
    have h0 : 0 ≤ ∑ k ∈ range P.dim, (w 0 k - ws k) ^ 2 := sum_nonneg fun k _ => sq_nonneg _
    linarith
  have main : ∀ t, 1 ≤ t → t ≤ T → P.dualValue C v c - P.dualValue C (w t) (b t) ≤ 2 * B / (t + 2) := by
    intro t ht
    induction t, ht using Nat.le_induction with
    | base =>
      intro hT
      have := step 0 (by omega)
      norm_num at this ⊢
      linarith
    | succ t ht ih =>
      intro hT
      have h1 := step t (by omega)
      have h2 := ih (by omega)
      have htq : (1 : ℚ) ≤ t := by exact_mod_cast ht
      have h3 : (0 : ℚ) ≤ 1 - 2 / (t + 2) := by
        rw [sub_nonneg, div_le_one (by positivity)]; linarith
      have h4 := mul_le_mul_of_nonneg_left h2 h3
      have h5 : (1 - 2 / ((t : ℚ) + 2)) * (2 * B / (t + 2)) + (2 / (t + 2)) ^ 2 / 2 * B ≤ 2 * B / (t + 1 + 2) := by
        have e : (1 - 2 / ((t : ℚ) + 2)) * (2 * B / (t + 2)) + (2 / (t + 2)) ^ 2 / 2 * B =
            2 * B * (t + 1) / (t + 2) ^ 2 := by field_simp; ring
        rw [e, div_le_div_iff₀ (by positivity) (by positivity)]
        nlinarith
      push_cast
      linarith
  have := main t ht htT
  linarith

/-- sum of the squares of the step sizes. -/
theorem step_sums (m j : ℕ) :
    ∑ i ∈ range j, (2 / (((m + i : ℕ) : ℚ) + 2)) ^ 2 / 2 ≤ 2 * (1 / ((m : ℚ) + 1) - 1 / ((m : ℚ) + j + 1)) := by
  induction j with
  | zero => simp
  | succ j ih =>
    rw [sum_range_succ]
    push_cast at ih ⊢
    have hm : (0 : ℚ) ≤ m := Nat.cast_nonneg _
    have hj : (0 : ℚ) ≤ j := Nat.cast_nonneg _
    have e : (2 / ((m : ℚ) + j + 2)) ^ 2 / 2 ≤ 2 * (1 / (m + j + 1) - 1 / (m + (j + 1) + 1)) := by
      have e1 : 2 * (1 / ((m : ℚ) + j + 1) - 1 / (m + (j + 1) + 1)) = 2 / ((m + j + 1) * (m + j + 2)) := by
        field_simp; ring
      have e2 : (2 / ((m : ℚ) + j + 2)) ^ 2 / 2 = 2 / ((m + j + 2) * (m + j + 2)) := by
        field_simp
      rw [e1, e2]
      apply div_le_div_of_nonneg_left
      · norm_num
      · positivity
      · nlinarith
    linarith

theorem step_sum_ge (m : ℕ) : 1 ≤ ∑ i ∈ range (m + 1), (2 / (((m + i : ℕ) : ℚ) + 2)) := by
  have h : ∀ i ∈ range (m + 1), (1 / ((m : ℚ) + 1)) ≤ 2 / (((m + i : ℕ) : ℚ) + 2) := by
    intro i hi
    have h1 : (i : ℚ) ≤ m := by exact_mod_cast Nat.lt_succ_iff.mp (mem_range.mp hi)
    rw [div_le_div_iff₀ (by positivity) (by positivity)]
    push_cast
    linarith
  have := card_nsmul_le_sum (range (m + 1)) _ _ h
  rw [card_range, nsmul_eq_mul] at this
  refine le_trans (le_of_eq ?_) this
  push_cast
  field_simp

/-- **gap**: among the steps `m, …, 2m` with `m ≥ 1` one starts with a duality gap of at most `3B/(m+1)`. -/
theorem Problem.FWRun.small_gap (h : P.FWRun C slack samples w b T) (hC : 0 ≤ C) (hl : P.Labelled samples) (hs : 0 ≤ slack)
    {R : ℚ} (hR : P.FeatureRange samples R) (m : ℕ) (hm : 1 ≤ m) (hT : 2 * m + 1 ≤ T) :
    ∃ t, m ≤ t ∧ t ≤ 2 * m ∧ ∀ obj, P.IsObjective C samples (w t) obj →
      obj - P.dualValue C (w t) (b t) ≤ 3 * (C ^ 2 * samples.length ^ 2 * R + slack) / (m + 1) := by
  set B := C ^ 2 * samples.length ^ 2 * R + slack with hB
  by_contra hcon
  have hcon : ∀ t, m ≤ t → t ≤ 2 * m → ∃ obj, P.IsObjective C samples (w t) obj ∧
      3 * B / (m + 1) < obj - P.dualValue C (w t) (b t) := by
    intro t h1 h2
    by_contra hc
    exact hcon ⟨t, h1, h2, fun obj ho => le_of_not_gt fun hgt => hc ⟨obj, ho, hgt⟩⟩
  have hB0 : 0 ≤ B := by
    obtain ⟨ws, bs, γ, h1, -⟩ := h.step 0 (by omega)
    have := corner_dist (h.dualPoint hl 0 (by omega)) h1 hR
    have h0 : 0 ≤ ∑ k ∈ range P.dim, (w 0 k - ws k) ^ 2 := sum_nonneg fun k _ => sq_nonneg _
    linarith
  set τ := 3 * B / ((m : ℚ) + 1) with hτ
  have acc : ∀ j, j ≤ m + 1 → P.dualValue C (w m) (b m) + τ * ∑ i ∈ range j, (2 / (((m + i : ℕ) : ℚ) + 2)) -
      B * ∑ i ∈ range j, (2 / (((m + i : ℕ) : ℚ) + 2)) ^ 2 / 2 ≤ P.dualValue C (w (m + j)) (b (m + j)) ∧
      (1 ≤ j → P.dualValue C (w m) (b m) + τ * ∑ i ∈ range j, (2 / (((m + i : ℕ) : ℚ) + 2)) -
      B * ∑ i ∈ range j, (2 / (((m + i : ℕ) : ℚ) + 2)) ^ 2 / 2 < P.dualValue C (w (m + j)) (b (m + j))) := by
    intro j
    induction j with
    | zero => intro _; exact ⟨by simp, by omega⟩
    | succ j ih =>
      intro hj
      obtain ⟨i1, -⟩ := ih (by omega)
      obtain ⟨obj, ho, hgt⟩ := hcon (m + j) (by omega) (by omega)
      have hg := h.gain hl hs hR (m + j) (by omega) obj ho
      rw [← hB] at hg
      have hpos : (0 : ℚ) < 2 / (((m + j : ℕ) : ℚ) + 2) := by positivity
      have := mul_lt_mul_of_pos_left hgt hpos
      rw [sum_range_succ, sum_range_succ]
      have hlt : P.dualValue C (w m) (b m) + τ * (∑ i ∈ range j, (2 / (((m + i : ℕ) : ℚ) + 2)) +
          2 / (((m + j : ℕ) : ℚ) + 2)) - B * (∑ i ∈ range j, (2 / (((m + i : ℕ) : ℚ) + 2)) ^ 2 / 2 +
          (2 / (((m + j : ℕ) : ℚ) + 2)) ^ 2 / 2) < P.dualValue C (w (m + (j + 1))) (b (m + (j + 1))) := by
        have e : m + (j + 1) = m + j + 1 := by omega
        rw [e]
        nlinarith
      exact ⟨hlt.le, fun _ => hlt⟩
  have h1 := (acc (m + 1) le_rfl).2 (by omega)
  have h2 := h.rate hC hl hs hR _ _ (h.dualPoint hl (m + (m + 1)) (by omega)) m hm (by omega)
  rw [← hB] at h2
  have s1 := step_sum_ge m
  have s2 := step_sums m (m + 1)
  have hmq : (1 : ℚ) ≤ m := by exact_mod_cast hm
  have e1 : 2 * (1 / ((m : ℚ) + 1) - 1 / ((m : ℚ) + ((m + 1 : ℕ) : ℚ) + 1)) = 1 / (m + 1) := by
    push_cast
    field_simp
    ring
  rw [e1] at s2
  have hτ0 : 0 ≤ τ := by rw [hτ]; positivity
  have k1 := mul_le_mul_of_nonneg_left s1 hτ0
  have k2 := mul_le_mul_of_nonneg_left s2 hB0
  have k3 : 2 * B / ((m : ℚ) + 2) ≤ 2 * B / (m + 1) := by
    apply div_le_div_of_nonneg_left <;> linarith
  have k4 : τ - B * (1 / (m + 1)) = 2 * B / (m + 1) := by
    rw [hτ]; field_simp; ring
  linarith

end Verif.Spec
