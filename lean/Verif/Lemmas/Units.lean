import Verif.Spec.Units
import Verif.Props.C147

/-!
# Learners in other units
-/

namespace Verif.Props

open Finset Verif.Spec Verif.Lemmas Verif.Learner

variable {X X' Y : Type} {ρ : Equiv.Perm ℕ} {a b : ℚ} {f : X → X'} {m : SModel X Y} {m' : SModel X' Y}

theorem sum_reorder {d : ℕ} (hρ : Reorders ρ d) (g : ℕ → ℚ) : ∑ k ∈ range d, g (ρ k) = ∑ k ∈ range d, g k :=
  sum_equiv ρ (fun k => by rw [mem_range, mem_range, hρ k]) fun _ _ => rfl

theorem reorders_symm {d : ℕ} (hρ : Reorders ρ d) : Reorders ρ.symm d := fun k => by
  have := hρ (ρ.symm k)
  rwa [Equiv.apply_symm_apply, Iff.comm] at this

theorem dot_units {s t : ℚ} {d : ℕ} (hρ : Reorders ρ d) {u u' v v' : ℕ → ℚ} (hu : Multiple ρ s d u u') (hv : Multiple ρ t d v v') :
    dot d u' v' = s * t * dot d u v := by
  unfold dot
  rw [← sum_reorder hρ fun k => u k * v k, mul_sum]
  refine sum_congr rfl fun k hk => ?_
  rw [hu k (mem_range.mp hk), hv k (mem_range.mp hk)]
  ring

theorem sumSq_units {s : ℚ} {d : ℕ} (hρ : Reorders ρ d) {u u' : ℕ → ℚ} (hu : Multiple ρ s d u u') :
    ∑ k ∈ range d, u' k ^ 2 = s ^ 2 * ∑ k ∈ range d, u k ^ 2 := by
  rw [← sum_reorder hρ fun k => u k ^ 2, mul_sum]
  refine sum_congr rfl fun k hk => ?_
  rw [hu k (mem_range.mp hk)]
  ring

theorem sum_units {α : Type} (l : List α) {c : ℚ} {g h : α → ℚ} (e : ∀ x, h x = c * g x) :
    (l.map h).sum = c * (l.map g).sum := by
  induction l with
  | nil => simp
  | cons x l ih => rw [List.map_cons, List.map_cons, List.sum_cons, List.sum_cons, ih, e]; ring

theorem feat_units (h : OtherUnits ρ a b f m m') (x : X) (y t : Y) :
    Multiple ρ b m.dim (m.feat x y t) (m'.feat (f x) y t) := by
  unfold SModel.feat
  rw [h.rescaleC]
  by_cases hr : m.rescaleC = true
  · rw [if_pos hr, if_pos hr]; exact h.featureR x y t
  · rw [if_neg hr, if_neg hr]; exact h.feature x y

theorem lossOf_units (h : OtherUnits ρ a b f m m') (y z : Y) : m'.lossOf y z = a * m.lossOf y z := by
  unfold SModel.lossOf
  rw [h.isTuple]
  by_cases hr : m.isTuple z = true
  · rw [if_pos hr, if_pos hr]; exact h.continuousLoss y z
  · rw [if_neg hr, if_neg hr]; exact h.loss y z

/-- the constraint found in other units. -/
theorem findConstraint_units (ha : 0 < a) (hb : 0 < b) (h : OtherUnits ρ a b f m m') (x : X) (y : Y) {w w' : W}
    (hw : Multiple ρ (a / b) m.dim w w') :
    (findConstraint m' (f x) y w' none true true).yhat = (findConstraint m x y w none true true).yhat ∧
    Multiple ρ b m.dim (findConstraint m x y w none true true).delta (findConstraint m' (f x) y w' none true true).delta ∧
    (findConstraint m' (f x) y w' none true true).slack = a * (findConstraint m x y w none true true).slack ∧
    (findConstraint m' (f x) y w' none true true).loss = a * (findConstraint m x y w none true true).loss := by
  have hd : Multiple ρ b m.dim (findConstraint m x y w none true true).delta
      (findConstraint m' (f x) y w' none true true).delta := by
    intro k hk
    unfold findConstraint
    simp only [if_true]
    rw [h.lossAug x y w w' true hw, feat_units h _ _ _ k hk, feat_units h _ _ _ k hk]
    ring
  have hl : (findConstraint m' (f x) y w' none true true).loss = a * (findConstraint m x y w none true true).loss := by
    unfold findConstraint
    simp only
    rw [h.lossAug x y w w' true hw, lossOf_units h]
  refine ⟨h.lossAug x y w w' true hw, hd, ?_, hl⟩
  have e1 : (findConstraint m x y w none true true).slack = max ((findConstraint m x y w none true true).loss -
      dot m.dim w (findConstraint m x y w none true true).delta) 0 := rfl
  have e2 : (findConstraint m' (f x) y w' none true true).slack = max ((findConstraint m' (f x) y w' none true true).loss -
      dot m'.dim w' (findConstraint m' (f x) y w' none true true).delta) 0 := rfl
  rw [e1, e2, hl, h.dim, dot_units h.order hw hd, div_mul_cancel₀ _ hb.ne', ← mul_sub, mul_max_of_nonneg _ _ ha.le, mul_zero]

theorem objectivePrimal_units (ha : 0 < a) (hb : 0 < b) (h : OtherUnits ρ a b f m m') (samples : List (X × Y)) {w w' : W}
    (hw : Multiple ρ (a / b) m.dim w w') (C : ℚ) (ns : Bool) :
    BothRun (fun p p' => p' = (a / b) ^ 2 * p) (objectivePrimal m w samples C ns)
      (objectivePrimal m' w' (inUnits f samples) (C * a / b ^ 2) ns) := by
  unfold objectivePrimal
  by_cases hl : samples = []
  · subst hl; exact .error _
  · have hl' : ¬ inUnits f samples = [] := by unfold inUnits; simpa using hl
    rw [if_neg (by simpa using hl), if_neg (by simpa using hl')]
    refine .ok ?_
    have hs : ∀ x y, (findConstraint m' (f x) y w' none true true).slack = a * (findConstraint m x y w none true true).slack :=
      fun x y => (findConstraint_units ha hb h x y hw).2.2.1
    have key : ∀ T : ℚ, max (a * T) 0 * (C * a / b ^ 2) = (a / b) ^ 2 * (max T 0 * C) := by
      intro T
      have : max (a * T) 0 = a * max T 0 := by rw [mul_max_of_nonneg _ _ ha.le, mul_zero]
      rw [this]
      field_simp
    have hq : ∑ k ∈ range m'.dim, w' k ^ 2 = (a / b) ^ 2 * ∑ k ∈ range m.dim, w k ^ 2 := by
      rw [h.dim]; exact sumSq_units h.order hw
    cases ns with
    | true =>
      simp only [if_true, inUnits, List.map_map]
      rw [sum_units (c := a) (g := (fun s => max s 0) ∘ fun s : X × Y => (findConstraint m s.1 s.2 w none true true).slack)
        samples (by
          intro s
          simp only [Function.comp, hs]
          rw [mul_max_of_nonneg _ _ ha.le, mul_zero]), key, hq]
      ring
    | false =>
      simp only [Bool.false_eq_true, if_false, inUnits, List.map_map]
      rw [sum_units (c := a) (g := fun s : X × Y => (findConstraint m s.1 s.2 w none true true).slack)
        samples (by
          intro s
          simp only [Function.comp, hs]), key, hq]
      ring

theorem trainingLoss_units (ha : 0 < a) (h : OtherUnits ρ a b f m m') (samples : List (X × Y)) {w w' : W}
    (hw : Multiple ρ (a / b) m.dim w w') (e it : ℕ) (curve : List ℚ) :
    computeTrainingLoss m' e w' (inUnits f samples) it curve = computeTrainingLoss m e w samples it curve := by
  have hz : (((inUnits f samples).map Prod.snd).zip (predict m' w' ((inUnits f samples).map Prod.fst))) =
      (samples.map Prod.snd).zip (predict m w (samples.map Prod.fst)) := by
    unfold inUnits predict
    simp only [List.map_map]
    congr 1
    refine List.map_congr_left fun s _ => ?_
    exact h.inference s.1 w w' hw
  unfold computeTrainingLoss score
  rw [hz]
  have h1 : (((samples.map Prod.snd).zip (predict m w (samples.map Prod.fst))).map fun p => m'.loss p.1 p.2).sum =
      a * (((samples.map Prod.snd).zip (predict m w (samples.map Prod.fst))).map fun p => m.loss p.1 p.2).sum :=
    sum_units _ fun p => h.loss _ _
  have h2 : (((inUnits f samples).map Prod.snd).map m'.maxLoss).sum = a * ((samples.map Prod.snd).map m.maxLoss).sum := by
    unfold inUnits
    rw [List.map_map, List.map_map, List.map_map]
    exact sum_units _ fun s => h.maxLoss s.2
  rw [h1, h2, mul_div_mul_left _ _ ha.ne']

/-- loops over related data keep related states related. -/
theorem foldl_units {α β σ τ : Type} (R : σ → τ → Prop) (g : α → β) (F : σ → α → σ) (G : τ → β → τ)
    (hstep : ∀ s t x, R s t → R (F s x) (G t (g x))) :
    ∀ (l : List α) (s : σ) (t : τ), R s t → R (l.foldl F s) ((l.map g).foldl G t) := by
  intro l
  induction l with
  | nil => intro s t h; exact h
  | cons x l ih => intro s t h; exact ih _ _ (hstep s t x h)

/-! ### perceptron -/

section Perceptron
open Verif.Perceptron

/-- states of the perceptron in the two units. -/
structure PercUnits (ρ : Equiv.Perm ℕ) (c : ℚ) (d : ℕ) (st st' : St) : Prop where
  w : Multiple ρ c d st.w st'.w
  wbar : Multiple ρ c d st.wbar st'.wbar
  nObs : st'.nObs = st.nObs
  curve : st'.curve = st.curve

theorem percObserve_units {c : ℚ} {d : ℕ} (avg : Option ℤ) (it : ℕ) {st st' : St} (h : PercUnits ρ c d st st') :
    PercUnits ρ c d (observe avg it st) (observe avg it st') := by
  unfold observe
  cases avg with
  | none => exact h
  | some k =>
    simp only
    by_cases hk : k ≤ it
    · rw [if_pos hk, if_pos hk]
      refine ⟨h.w, ?_, by simp only [h.nObs], h.curve⟩
      intro j hj
      simp only [h.nObs, h.w j hj, h.wbar j hj]
      ring
    · rw [if_neg hk, if_neg hk]; exact h

theorem percUpdate_units (ha : 0 < a) (h : OtherUnits ρ a b f m m') {c : ℚ} (lr : ℚ) {w w' : W}
    (hw : Multiple ρ (c * b) m.dim w w') (x : X) (y z : Y) :
    Multiple ρ (c * b) m.dim (update m lr w x y z) (update m' (c * lr) w' (f x) y z) := by
  unfold update
  rw [h.loss]
  by_cases hz : m.loss y z ≠ 0
  · rw [if_pos hz, if_pos (mul_ne_zero ha.ne' hz)]
    intro k hk
    simp only [hw k hk, h.feature _ _ k hk]
    ring
  · have h0 : m.loss y z = 0 := not_not.mp hz
    rw [if_neg hz, if_neg (by rw [h0, mul_zero]; simp)]
    exact hw

theorem percPass_units (ha : 0 < a) (h : OtherUnits ρ a b f m m') {c : ℚ}
    (hin : ∀ x w w', Multiple ρ (c * b) m.dim w w' → m'.inference (f x) w' = m.inference x w) (cfg : Config) (avg : Option ℤ)
    (samples : List (X × Y)) (it : ℕ) {st st' : St} (hs : PercUnits ρ (c * b) m.dim st st') :
    PercUnits ρ (c * b) m.dim (pass m cfg avg samples it st).1
        (pass m' { cfg with lr := fun t => c * cfg.lr t } avg (inUnits f samples) it st').1 ∧
      (pass m' { cfg with lr := fun t => c * cfg.lr t } avg (inUnits f samples) it st').2 = a * (pass m cfg avg samples it st).2 := by
  unfold pass
  simp only
  have hs0 : PercUnits ρ (c * b) m.dim (if avg = some (-1) then { st with nObs := 0, wbar := fun _ => 0 } else st)
      (if avg = some (-1) then { st' with nObs := 0, wbar := fun _ => 0 } else st') := by
    by_cases hm : avg = some (-1)
    · rw [if_pos hm, if_pos hm]; exact ⟨hs.w, fun k _ => by simp, rfl, hs.curve⟩
    · rw [if_neg hm, if_neg hm]; exact hs
  generalize (if avg = some (-1) then { st with nObs := 0, wbar := fun _ => 0 } else st) = s0 at hs0 ⊢
  generalize (if avg = some (-1) then { st' with nObs := 0, wbar := fun _ => 0 } else st') = s0' at hs0 ⊢
  by_cases hb : cfg.batch = true
  · rw [if_pos hb, if_pos hb]
    have key := foldl_units (fun (p p' : St × ℚ) => PercUnits ρ (c * b) m.dim p.1 p'.1 ∧ p'.2 = a * p.2)
      (fun s : X × Y => (f s.1, s.2)) (batchStep m (cfg.lr it) it s0.w) (batchStep m' (c * cfg.lr it) it s0'.w) (by
        rintro p p' s ⟨h1, h2⟩
        unfold batchStep
        simp only
        rw [hin s.1 s0.w s0'.w hs0.w]
        exact ⟨⟨percUpdate_units ha h _ h1.w _ _ _, h1.wbar, h1.nObs, h1.curve⟩, by rw [h2, h.loss]; ring⟩)
      samples (s0, 0) (s0', 0) ⟨hs0, by simp⟩
    exact ⟨percObserve_units avg it key.1, key.2⟩
  · rw [if_neg hb, if_neg hb]
    exact foldl_units (fun (p p' : St × ℚ) => PercUnits ρ (c * b) m.dim p.1 p'.1 ∧ p'.2 = a * p.2)
      (fun s : X × Y => (f s.1, s.2)) (onlineStep m avg (cfg.lr it) it) (onlineStep m' avg (c * cfg.lr it) it) (by
        rintro p p' s ⟨h1, h2⟩
        unfold onlineStep
        simp only
        rw [hin s.1 p.1.w p'.1.w h1.w]
        exact ⟨percObserve_units avg it ⟨percUpdate_units ha h _ h1.w _ _ _, h1.wbar, h1.nObs, h1.curve⟩,
          by rw [h2, h.loss]; ring⟩)
      samples (s0, 0) (s0', 0) ⟨hs0, by simp⟩

theorem percLoop_units (ha : 0 < a) (h : OtherUnits ρ a b f m m') {c : ℚ}
    (hin : ∀ x w w', Multiple ρ (c * b) m.dim w w' → m'.inference (f x) w' = m.inference x w) (cfg : Config) (avg : Option ℤ)
    (samples : List (X × Y)) (ml : ℚ) : ∀ (n it : ℕ) (st st' : St), PercUnits ρ (c * b) m.dim st st' →
      PercUnits ρ (c * b) m.dim (loop m cfg avg samples ml n it st)
        (loop m' { cfg with lr := fun t => c * cfg.lr t } avg (inUnits f samples) (a * ml) n it st') := by
  intro n
  induction n with
  | zero => intro it st st' hs; exact hs
  | succ n ih =>
    intro it st st' hs
    unfold loop
    obtain ⟨hp, hl⟩ := percPass_units ha h hin cfg avg samples it hs
    have he : curveEntry (a * (pass m cfg avg samples it st).2) (a * ml) = curveEntry (pass m cfg avg samples it st).2 ml := by
      unfold curveEntry
      by_cases hz : ml = 0
      · rw [if_pos hz, if_pos (by rw [hz, mul_zero])]
      · rw [if_neg hz, if_neg (mul_ne_zero ha.ne' hz), mul_div_mul_left _ _ ha.ne']
    simp only
    rw [hl, he]
    by_cases hz : curveEntry (pass m cfg avg samples it st).2 ml = some 0
    · rw [if_pos hz, if_pos hz]
      exact ⟨hp.w, hp.wbar, hp.nObs, by simp only [hp.curve]⟩
    · rw [if_neg hz, if_neg hz]
      exact ih _ _ _ ⟨hp.w, hp.wbar, hp.nObs, by simp only [hp.curve]⟩

end Perceptron

/-! ### subgradient descent -/

section Subgradient
open Verif.Subgradient

/-- states of subgradient descent in the two units. -/
structure SubUnits (ρ : Equiv.Perm ℕ) (a b : ℚ) (d : ℕ) (st st' : St) : Prop where
  w : Multiple ρ (a / b) d st.w st'.w
  grad : Multiple ρ b d st.gradOld st'.gradOld
  selfW : Multiple ρ (a / b) d st.selfW st'.selfW
  t : st'.t = st.t

/-- the parameters of SubgradientSSVM in other units. -/
def subConfigUnits (a b : ℚ) (cfg : Config) : Config :=
  { cfg with C := cfg.C * a / b ^ 2, learningRate := cfg.learningRate.map fun lr => lr * a / b ^ 2 }

theorem subSolve_units (ha : 0 < a) (hb : 0 < b) (cfg : Config) (d : ℕ) (lr : ℚ) (n : ℕ) {st st' : St}
    (h : SubUnits ρ a b d st st') {dj dj' : W} (hd : Multiple ρ b d dj dj') :
    SubUnits ρ a b d (solveSubgradient cfg lr n st dj)
      (solveSubgradient (subConfigUnits a b cfg) (lr * a / b ^ 2) n st' dj') := by
  have hg : ∀ k < d, dj' k - st'.w k / (cfg.C * a / b ^ 2 * n) = b * (dj (ρ k) - st.w (ρ k) / (cfg.C * n)) := by
    intro k hk
    rw [hd k hk, h.w k hk, mul_sub]
    congr 1
    rw [show cfg.C * a / b ^ 2 * (n : ℚ) = (a / b) * (cfg.C * n / b) by field_simp,
      mul_div_mul_left _ _ (div_pos ha hb).ne', div_div_eq_mul_div]
    ring
  have hgo : Multiple ρ b d (solveSubgradient cfg lr n st dj).gradOld
      (solveSubgradient (subConfigUnits a b cfg) (lr * a / b ^ 2) n st' dj').gradOld := by
    intro k hk
    unfold solveSubgradient subConfigUnits
    simp only
    rw [hg k hk, h.grad k hk]
    ring
  have hw : Multiple ρ (a / b) d (solveSubgradient cfg lr n st dj).w
      (solveSubgradient (subConfigUnits a b cfg) (lr * a / b ^ 2) n st' dj').w := by
    intro k hk
    have e1 : (solveSubgradient cfg lr n st dj).w (ρ k) = st.w (ρ k) + lr / cfg.decay st.t *
        (solveSubgradient cfg lr n st dj).gradOld (ρ k) := rfl
    have e2 : (solveSubgradient (subConfigUnits a b cfg) (lr * a / b ^ 2) n st' dj').w k = st'.w k +
        lr * a / b ^ 2 / cfg.decay st'.t * (solveSubgradient (subConfigUnits a b cfg) (lr * a / b ^ 2) n st' dj').gradOld k := rfl
    rw [e1, e2, h.w k hk, hgo k hk, h.t]
    field_simp
  refine ⟨hw, hgo, ?_, by unfold solveSubgradient; simp only [h.t]⟩
  intro k hk
  have e1 : (solveSubgradient cfg lr n st dj).selfW (ρ k) = (match cfg.averaging with
      | .linear => (1 - 2 / ((st.t : ℚ) + 2)) * st.selfW (ρ k) + 2 / ((st.t : ℚ) + 2) * (solveSubgradient cfg lr n st dj).w (ρ k)
      | .squared => (1 - 6 * ((st.t : ℚ) + 1) / (((st.t : ℚ) + 2) * (2 * st.t + 3))) * st.selfW (ρ k) +
          6 * ((st.t : ℚ) + 1) / (((st.t : ℚ) + 2) * (2 * st.t + 3)) * (solveSubgradient cfg lr n st dj).w (ρ k)
      | .none => (solveSubgradient cfg lr n st dj).w (ρ k)) := by
    unfold solveSubgradient; cases cfg.averaging <;> rfl
  have e2 : (solveSubgradient (subConfigUnits a b cfg) (lr * a / b ^ 2) n st' dj').selfW k = (match cfg.averaging with
      | .linear => (1 - 2 / ((st'.t : ℚ) + 2)) * st'.selfW k + 2 / ((st'.t : ℚ) + 2) *
          (solveSubgradient (subConfigUnits a b cfg) (lr * a / b ^ 2) n st' dj').w k
      | .squared => (1 - 6 * ((st'.t : ℚ) + 1) / (((st'.t : ℚ) + 2) * (2 * st'.t + 3))) * st'.selfW k +
          6 * ((st'.t : ℚ) + 1) / (((st'.t : ℚ) + 2) * (2 * st'.t + 3)) *
            (solveSubgradient (subConfigUnits a b cfg) (lr * a / b ^ 2) n st' dj').w k
      | .none => (solveSubgradient (subConfigUnits a b cfg) (lr * a / b ^ 2) n st' dj').w k) := by
    unfold solveSubgradient subConfigUnits; cases cfg.averaging <;> rfl
  rw [e1, e2, h.t, hw k hk, h.selfW k hk]
  cases cfg.averaging
  · rfl
  · simp only; ring
  · simp only; ring

theorem subLearn_units (ha : 0 < a) (hb : 0 < b) (h : OtherUnits ρ a b f m m') (cfg : Config) (lr : ℚ) (data : List (X × Y))
    {st st' : St} (hs : SubUnits ρ a b m.dim st st') :
    BothRun (fun r r' => SubUnits ρ a b m.dim r.1 r'.1 ∧ r'.2 = r.2) (learn m cfg lr data st)
      (learn m' (subConfigUnits a b cfg) (lr * a / b ^ 2) (inUnits f data) st') := by
  have hlen : (inUnits f data).length = data.length := by unfold inUnits; simp
  have honline : SubUnits ρ a b m.dim (data.foldl (onlineStep m cfg lr data.length) (st, 0)).1
        ((inUnits f data).foldl (onlineStep m' (subConfigUnits a b cfg) (lr * a / b ^ 2) (inUnits f data).length) (st', 0)).1 ∧
      ((inUnits f data).foldl (onlineStep m' (subConfigUnits a b cfg) (lr * a / b ^ 2) (inUnits f data).length) (st', 0)).2 =
        (data.foldl (onlineStep m cfg lr data.length) (st, 0)).2 := by
    rw [hlen]
    exact foldl_units (fun (p p' : St × ℤ) => SubUnits ρ a b m.dim p.1 p'.1 ∧ p'.2 = p.2)
      (fun s : X × Y => (f s.1, s.2)) _ _ (by
        rintro p p' s ⟨h1, h2⟩
        unfold onlineStep
        simp only
        obtain ⟨-, hd, hsl, -⟩ := findConstraint_units ha hb h s.1 s.2 h1.w
        refine ⟨subSolve_units ha hb cfg m.dim lr data.length h1 hd, ?_⟩
        rw [hsl, h2]
        simp only [mul_pos_iff_of_pos_left ha]) data (st, 0) (st', 0) ⟨hs, rfl⟩
  have hcut : ∀ sl, cut (inUnits f data) sl = (cut data sl).map (inUnits f) := by
    intro sl
    unfold cut inUnits
    rw [List.map_map]
    refine List.map_congr_left fun p _ => ?_
    simp only [Function.comp, List.map_drop, List.map_take]
  unfold learn
  by_cases hj : cfg.nJobs = 1
  · rw [if_pos hj, if_pos (show (subConfigUnits a b cfg).nJobs = 1 from hj)]
    unfold sequentialLearning
    rw [show (subConfigUnits a b cfg).batchSize = cfg.batchSize from rfl]
    cases cfg.batchSize with
    | none => exact .ok honline
    | some z =>
      simp only
      by_cases hz : z = 1
      · rw [if_pos hz, if_pos hz]; exact .ok honline
      · rw [if_neg hz, if_neg hz]
        have hmini : miniBatches (inUnits f data) z = (miniBatches data z).map fun bs => bs.map (inUnits f) := by
          unfold miniBatches
          by_cases h1 : z = -1
          · rw [if_pos h1, if_pos h1]; rfl
          · rw [if_neg h1, if_neg h1]
            by_cases h2 : z = 0
            · rw [if_pos h2, if_pos h2]; rfl
            · rw [if_neg h2, if_neg h2, hlen]
              cases evenSlices data.length (ceilDiv data.length z) with
              | error e => rfl
              | ok sl => simp only [hcut]; rfl
        rw [hmini, h.rescaleC]
        cases miniBatches data z with
        | error e => exact .error e
        | ok bs =>
          change BothRun _ (if m.rescaleC = true ∧ bs ≠ [] then .error .valueError else _)
            (if m.rescaleC = true ∧ bs.map (inUnits f) ≠ [] then .error .valueError else _)
          by_cases hr : m.rescaleC = true ∧ bs ≠ []
          · rw [if_pos hr, if_pos ⟨hr.1, by simpa using hr.2⟩]; exact .error _
          · rw [if_neg hr, if_neg (by simpa using hr), hlen]
            refine .ok (foldl_units (fun (p p' : St × ℤ) => SubUnits ρ a b m.dim p.1 p'.1 ∧ p'.2 = p.2)
              (inUnits f) _ _ ?_ bs (st, 0) (st', 0) ⟨hs, rfl⟩)
            rintro p p' bt ⟨h1, h2⟩
            unfold batchStep
            refine ⟨subSolve_units ha hb cfg m.dim lr data.length h1 ?_, by rw [h2]⟩
            intro k hk
            unfold meanDelta inUnits
            rw [List.length_map, List.map_map, List.map_map,
              sum_units (c := b) (g := fun s : X × Y => m.jointFeature s.1 s.2 (ρ k))
                (h := (fun s : X' × Y => m'.jointFeature s.1 s.2 k) ∘ fun s : X × Y => (f s.1, s.2)) bt
                (fun s => h.feature s.1 s.2 k hk),
              sum_units (c := b) (g := fun s : X × Y => m.jointFeature s.1 (m.lossAug s.1 s.2 p.1.w true) (ρ k))
                (h := (fun s : X' × Y => m'.jointFeature s.1 (m'.lossAug s.1 s.2 p'.1.w true) k) ∘
                  fun s : X × Y => (f s.1, s.2)) bt (fun s => by
                simp only [Function.comp]
                rw [h.lossAug s.1 s.2 _ _ true h1.w]
                exact h.feature _ _ k hk)]
            ring
  · rw [if_neg hj, if_neg (show ¬ (subConfigUnits a b cfg).nJobs = 1 from hj)]
    unfold parallelLearning
    rw [show (subConfigUnits a b cfg).batchSize = cfg.batchSize from rfl,
      show (subConfigUnits a b cfg).nJobs = cfg.nJobs from rfl, hlen]
    by_cases h1 : cfg.batchSize ≠ none
    · rw [if_pos h1, if_pos h1]; exact .error _
    · rw [if_neg h1, if_neg h1]
      by_cases h2 : cfg.nJobs = 0
      · rw [if_pos h2, if_pos h2]; exact .error _
      · rw [if_neg h2, if_neg h2]
        cases evenSlices data.length (ceilDiv data.length cfg.nJobs) with
        | error e => exact .error e
        | ok sl =>
          simp only [hcut]
          refine .ok (foldl_units (fun (p p' : St × ℤ) => SubUnits ρ a b m.dim p.1 p'.1 ∧ p'.2 = p.2)
            (inUnits f) _ _ ?_ (cut data sl) (st, 0) (st', 0) ⟨hs, rfl⟩)
          rintro p p' bt ⟨h3, h4⟩
          unfold parallelStep
          simp only
          have key : ∀ bt : List (X × Y), ∀ k < m.dim,
              ((((inUnits f bt).map fun s => findConstraint m' s.1 s.2 p'.1.w none true true).filter
                fun c => 0 < c.slack).map fun c => c.delta k).sum =
              b * (((bt.map fun s => findConstraint m s.1 s.2 p.1.w none true true).filter
                fun c => 0 < c.slack).map fun c => c.delta (ρ k)).sum := by
            intro bt k hk
            induction bt with
            | nil => simp [inUnits]
            | cons s bt ih =>
              obtain ⟨-, hd, hsl, -⟩ := findConstraint_units ha hb h s.1 s.2 h3.w
              have e : inUnits f (s :: bt) = (f s.1, s.2) :: inUnits f bt := rfl
              rw [e, List.map_cons, List.map_cons, List.filter_cons, List.filter_cons]
              simp only [hsl, mul_pos_iff_of_pos_left ha]
              by_cases hp : 0 < (findConstraint m s.1 s.2 p.1.w none true true).slack
              · rw [if_pos (by simpa using hp), if_pos (by simpa using hp), List.map_cons, List.map_cons, List.sum_cons,
                  List.sum_cons, ih, hd k hk]
                ring
              · rw [if_neg (by simpa using hp), if_neg (by simpa using hp)]
                exact ih
          refine ⟨subSolve_units ha hb cfg m.dim lr data.length h3 fun k hk => key bt k hk, ?_⟩
          have hlen2 : (((inUnits f bt).map fun s => findConstraint m' s.1 s.2 p'.1.w none true true).filter
                fun c => 0 < c.slack).length =
              ((bt.map fun s => findConstraint m s.1 s.2 p.1.w none true true).filter fun c => 0 < c.slack).length := by
            clear key
            induction bt with
            | nil => rfl
            | cons s bt ih =>
              obtain ⟨-, hd, hsl, -⟩ := findConstraint_units ha hb h s.1 s.2 h3.w
              have e : inUnits f (s :: bt) = (f s.1, s.2) :: inUnits f bt := rfl
              rw [e, List.map_cons, List.map_cons, List.filter_cons, List.filter_cons]
              simp only [hsl, mul_pos_iff_of_pos_left ha]
              by_cases hp : 0 < (findConstraint m s.1 s.2 p.1.w none true true).slack
              · rw [if_pos (by simpa using hp), if_pos (by simpa using hp), List.length_cons, List.length_cons, ih]
              · rw [if_neg (by simpa using hp), if_neg (by simpa using hp)]
                exact ih
          rw [h4, hlen2]

theorem subLoop_units (ha : 0 < a) (hb : 0 < b) (h : OtherUnits ρ a b f m m') (cfg : Config) (lr : ℚ)
    (order : ℕ → List (X × Y)) : ∀ (n it : ℕ) (data : List (X × Y)) (st st' : St), SubUnits ρ a b m.dim st st' →
      ∀ (c c' : Curves), c'.objective = c.objective.map (fun v => (a / b) ^ 2 * v) → c'.loss = c.loss →
      BothRun (fun r r' => r'.1 = inUnits f r.1 ∧ SubUnits ρ a b m.dim r.2.1 r'.2.1 ∧
          r'.2.2.objective = r.2.2.objective.map (fun v => (a / b) ^ 2 * v) ∧ r'.2.2.loss = r.2.2.loss)
        (loop m cfg lr order n it data st c)
        (loop m' (subConfigUnits a b cfg) (lr * a / b ^ 2) (fun i => inUnits f (order i)) n it (inUnits f data) st' c') := by
  intro n
  induction n with
  | zero => intro it data st st' hs c c' h1 h2; exact .ok ⟨rfl, hs, h1, h2⟩
  | succ n ih =>
    intro it data st st' hs c c' h1 h2
    unfold loop
    simp only
    have e : (if (subConfigUnits a b cfg).shuffle then inUnits f (order it) else inUnits f data) =
        inUnits f (if cfg.shuffle then order it else data) := by
      rw [show (subConfigUnits a b cfg).shuffle = cfg.shuffle from rfl]
      cases cfg.shuffle <;> rfl
    rw [e]
    generalize (if cfg.shuffle then order it else data) = dt
    have hl := subLearn_units ha hb h cfg lr dt hs
    generalize learn m cfg lr dt st = r at hl ⊢
    generalize learn m' (subConfigUnits a b cfg) (lr * a / b ^ 2) (inUnits f dt) st' = r' at hl ⊢
    cases hl with
    | error e => exact .error e
    | @ok r r' hr =>
      obtain ⟨st1, pos⟩ := r
      obtain ⟨st1', pos'⟩ := r'
      obtain ⟨hst, hpos⟩ := hr
      simp only at hst hpos ⊢
      subst hpos
      rw [show (subConfigUnits a b cfg).breakOnNoConstraints = cfg.breakOnNoConstraints from rfl]
      by_cases hp : pos' = 0 ∧ cfg.breakOnNoConstraints = true
      · rw [if_pos hp, if_pos hp]; exact .ok ⟨rfl, hst, h1, h2⟩
      · rw [if_neg hp, if_neg hp]
        have ho := objectivePrimal_units ha hb h dt hst.selfW cfg.C true
        rw [show (subConfigUnits a b cfg).C = cfg.C * a / b ^ 2 from rfl]
        generalize objectivePrimal m st1.selfW dt cfg.C true = v at ho ⊢
        generalize objectivePrimal m' st1'.selfW (inUnits f dt) (cfg.C * a / b ^ 2) true = v' at ho ⊢
        cases ho with
        | error e => exact .error e
        | @ok v v' hv =>
          simp only
          refine ih _ _ _ _ hst _ _ ?_ ?_
          · simp only [h1, hv, List.map_append, List.map_cons, List.map_nil]
          · simp only [h2]
            exact trainingLoss_units ha h dt hst.selfW _ _ _

end Subgradient

end Verif.Props
