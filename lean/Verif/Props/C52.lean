import Verif.Model.Perceptron
import Verif.Props.C29
import Mathlib.Algebra.Order.BigOperators.Ring.Finset

/-!
# C52, C53, C54 (and the perceptron part of C51): the structured perceptron
-/

namespace Verif.Props

open Finset Verif.Spec Verif.Learner Verif.Perceptron

variable {X Y : Type}

/-- The prediction problem as the perceptron sees it: joint features are never rescaled. -/
def perceptronProblem (m : SModel X Y) (outputs : X → Set Y) : Problem X Y :=
  ⟨m.dim, fun x yhat _ => m.jointFeature x yhat, m.loss, outputs⟩

/-- Number of visits with a wrong prediction. -/
def mistakes (vs : List Visit) : ℕ := (vs.filter fun v => v.loss ≠ 0).length

/-- `u` separates the samples with margin `γ`: the true output beats every other output that costs
something by at least `γ`. -/
def Separates (P : Problem X Y) (u : ℕ → ℚ) (γ : ℚ) (samples : List (X × Y)) : Prop :=
  ∀ s ∈ samples, ∀ ŷ ∈ P.outputs s.1, P.loss s.2 ŷ ≠ 0 →
    γ ≤ P.value u s.1 s.2 s.2 - P.value u s.1 s.2 ŷ

/-- All joint-feature differences of wrong outputs have squared length at most `R2`. -/
def Radius (P : Problem X Y) (R2 : ℚ) (samples : List (X × Y)) : Prop :=
  ∀ s ∈ samples, ∀ ŷ ∈ P.outputs s.1, P.loss s.2 ŷ ≠ 0 →
    ∑ k ∈ range P.dim, (P.feat s.1 s.2 s.2 k - P.feat s.1 ŷ s.2 k) ^ 2 ≤ R2

theorem observe_w (avg : Option ℤ) (it : ℕ) (st : St) : (observe avg it st).w = st.w := by
  unfold observe
  split
  · rfl
  · split <;> rfl

theorem observe_visits (avg : Option ℤ) (it : ℕ) (st : St) :
    (observe avg it st).visits = st.visits := by
  unfold observe
  split
  · rfl
  · split <;> rfl

theorem observe_curve (avg : Option ℤ) (it : ℕ) (st : St) :
    (observe avg it st).curve = st.curve := by
  unfold observe
  split
  · rfl
  · split <;> rfl

theorem mistakes_append (vs : List Visit) (v : Visit) :
    mistakes (vs ++ [v]) = mistakes vs + if v.loss ≠ 0 then 1 else 0 := by
  unfold mistakes
  rw [List.filter_append, List.length_append]
  congr 1
  by_cases h : v.loss = 0 <;> simp [h]

/-- the invariant behind the mistake bound. -/
structure MistakeInv (d : ℕ) (u : ℕ → ℚ) (γ R2 : ℚ) (st : St) : Prop where
  along : mistakes st.visits * γ ≤ dot d u st.w
  norm : dot d st.w st.w ≤ mistakes st.visits * R2

theorem onlineStep_mistakes (m : SModel X Y) (outputs : X → Set Y) (avg : Option ℤ) (it : ℕ)
    (u : ℕ → ℚ) (γ R2 : ℚ) (samples : List (X × Y)) (hR2 : 0 ≤ R2)
    (hinf : (perceptronProblem m outputs).ExactInference m.inference)
    (hlab : ∀ s ∈ samples, s.2 ∈ outputs s.1)
    (hsep : Separates (perceptronProblem m outputs) u γ samples)
    (hrad : Radius (perceptronProblem m outputs) R2 samples)
    (st : St × ℚ) (s : X × Y) (hs : s ∈ samples) (h : MistakeInv m.dim u γ R2 st.1) :
    MistakeInv m.dim u γ R2 (onlineStep m avg 1 it st s).1 := by
  obtain ⟨h1, h2⟩ := h
  have key : ∀ st' : St, st'.w = update m 1 st.1.w s.1 s.2 (m.inference s.1 st.1.w) →
      mistakes st'.visits = mistakes st.1.visits +
        (if m.loss s.2 (m.inference s.1 st.1.w) ≠ 0 then 1 else 0) →
      MistakeInv m.dim u γ R2 st' := by
    intro st' hw hv
    obtain ⟨hmem, hmax⟩ := hinf s.1 s.2 st.1.w (hlab s hs)
    by_cases hl : m.loss s.2 (m.inference s.1 st.1.w) = 0
    · unfold update at hw
      rw [if_neg (not_not.mpr hl)] at hw
      rw [if_neg (not_not.mpr hl), add_zero] at hv
      exact ⟨by rw [hw, hv]; exact h1, by rw [hw, hv]; exact h2⟩
    · unfold update at hw
      rw [if_pos hl] at hw
      rw [if_pos hl] at hv
      set ŷ := m.inference s.1 st.1.w with hŷ
      set δ : ℕ → ℚ := fun k => m.jointFeature s.1 s.2 k - m.jointFeature s.1 ŷ k with hδ
      have hw' : st'.w = fun k => st.1.w k + δ k := by rw [hw]; funext k; rw [one_mul]
      have e1 : dot m.dim u δ = (perceptronProblem m outputs).value u s.1 s.2 s.2 -
          (perceptronProblem m outputs).value u s.1 s.2 ŷ := by
        rw [hδ, dot_sub_right]; rfl
      have e2 : dot m.dim st.1.w δ = (perceptronProblem m outputs).value st.1.w s.1 s.2 s.2 -
          (perceptronProblem m outputs).value st.1.w s.1 s.2 ŷ := by
        rw [hδ, dot_sub_right]; rfl
      have e3 : dot m.dim δ δ ≤ R2 := by
        refine le_trans (le_of_eq ?_) (hrad s hs ŷ hmem hl)
        unfold dot
        apply sum_congr rfl; intro k _
        rw [pow_two]; rfl
      have m1 := hsep s hs ŷ hmem hl
      have m2 := hmax s.2 (hlab s hs)
      constructor
      · rw [hw', dot_add_right, hv]
        push_cast
        rw [e1]
        nlinarith
      · rw [hw', dot_add_left, dot_add_right, dot_add_right, hv, dot_comm _ δ st.1.w]
        push_cast
        rw [e2]
        nlinarith
  apply key
  · unfold onlineStep; simp only [observe_w]
  · unfold onlineStep; simp only [observe_visits]; rw [mistakes_append]

theorem pass_mistakes (m : SModel X Y) (outputs : X → Set Y) (cfg : Config) (avg : Option ℤ)
    (it : ℕ) (u : ℕ → ℚ) (γ R2 : ℚ) (samples : List (X × Y)) (hR2 : 0 ≤ R2)
    (hon : cfg.batch = false) (hlr : ∀ t, cfg.lr t = 1)
    (hinf : (perceptronProblem m outputs).ExactInference m.inference)
    (hlab : ∀ s ∈ samples, s.2 ∈ outputs s.1)
    (hsep : Separates (perceptronProblem m outputs) u γ samples)
    (hrad : Radius (perceptronProblem m outputs) R2 samples)
    (st : St) (h : MistakeInv m.dim u γ R2 st) :
    MistakeInv m.dim u γ R2 (pass m cfg avg samples it st).1 := by
  unfold pass
  simp only [hon, Bool.false_eq_true, if_false, hlr]
  have h0 : MistakeInv m.dim u γ R2
      (if avg = some (-1) then { st with nObs := 0, wbar := fun _ => 0 } else st) := by
    split
    · exact ⟨h.1, h.2⟩
    · exact h
  generalize (if avg = some (-1) then { st with nObs := 0, wbar := fun _ => 0 } else st) = st0 at h0
  have : ∀ l : List (X × Y), (∀ s ∈ l, s ∈ samples) → ∀ p : St × ℚ, MistakeInv m.dim u γ R2 p.1 →
      MistakeInv m.dim u γ R2 (l.foldl (onlineStep m avg 1 it) p).1 := by
    intro l
    induction l with
    | nil => intro _ p hp; exact hp
    | cons s l ih =>
      intro hl p hp
      rw [List.foldl_cons]
      exact ih (fun s' hs' => hl s' (List.mem_cons_of_mem _ hs')) _
        (onlineStep_mistakes m outputs avg it u γ R2 samples hR2 hinf hlab hsep hrad p s
          (hl s List.mem_cons_self) hp)
  exact this samples (fun s hs => hs) _ h0

theorem loop_mistakes (m : SModel X Y) (outputs : X → Set Y) (cfg : Config) (avg : Option ℤ)
    (u : ℕ → ℚ) (γ R2 : ℚ) (samples : List (X × Y)) (hR2 : 0 ≤ R2)
    (hon : cfg.batch = false) (hlr : ∀ t, cfg.lr t = 1)
    (hinf : (perceptronProblem m outputs).ExactInference m.inference)
    (hlab : ∀ s ∈ samples, s.2 ∈ outputs s.1)
    (hsep : Separates (perceptronProblem m outputs) u γ samples)
    (hrad : Radius (perceptronProblem m outputs) R2 samples) (ml : ℚ)
    (n it : ℕ) (st : St) (h : MistakeInv m.dim u γ R2 st) :
    MistakeInv m.dim u γ R2 (loop m cfg avg samples ml n it st) := by
  induction n generalizing it st with
  | zero => exact h
  | succ n ih =>
    have hp := pass_mistakes m outputs cfg avg it u γ R2 samples hR2 hon hlr hinf hlab hsep hrad st h
    unfold loop
    simp only
    split
    · exact ⟨hp.1, hp.2⟩
    · exact ih _ _ ⟨hp.1, hp.2⟩

/-- **C52 (mistake bound).** Online training without decay, exact inference: if some weight vector `u`
separates the samples with margin `γ > 0` and joint-feature differences have squared length at most `R2`,
then over all epochs, whatever their number, at most `R2 ‖u‖² / γ²` predictions are wrong. -/
theorem C52_mistake_bound (m : SModel X Y) (outputs : X → Set Y) (cfg : Config) (avg : Option ℤ)
    (samples : List (X × Y)) (u : ℕ → ℚ) (γ R2 : ℚ) (hγ : 0 < γ) (hR2 : 0 ≤ R2)
    (hon : cfg.batch = false) (hlr : ∀ t, cfg.lr t = 1)
    (hinf : (perceptronProblem m outputs).ExactInference m.inference)
    (hlab : ∀ s ∈ samples, s.2 ∈ outputs s.1)
    (hsep : Separates (perceptronProblem m outputs) u γ samples)
    (hrad : Radius (perceptronProblem m outputs) R2 samples) :
    (mistakes (train m cfg avg samples).visits : ℚ) ≤
      R2 * (∑ k ∈ range m.dim, u k ^ 2) / γ ^ 2 := by
  have hinv : MistakeInv m.dim u γ R2 (train m cfg avg samples) := by
    apply loop_mistakes m outputs cfg avg u γ R2 samples hR2 hon hlr hinf hlab hsep hrad
    constructor
    · change ((0 : ℕ) : ℚ) * γ ≤ dot m.dim u (fun _ => 0)
      rw [dot_zero_right]; simp
    · change dot m.dim (fun _ => 0) (fun _ => 0) ≤ ((0 : ℕ) : ℚ) * R2
      rw [dot_zero_right]; simp
  obtain ⟨h1, h2⟩ := hinv
  set K : ℚ := ((mistakes (train m cfg avg samples).visits : ℕ) : ℚ) with hK
  set w := (train m cfg avg samples).w
  have hK0 : 0 ≤ K := by rw [hK]; exact Nat.cast_nonneg _
  have hcs : dot m.dim u w ^ 2 ≤ (∑ k ∈ range m.dim, u k ^ 2) * dot m.dim w w := by
    have := sum_mul_sq_le_sq_mul_sq (range m.dim) u w
    unfold dot
    simpa only [pow_two] using this
  have hu : 0 ≤ ∑ k ∈ range m.dim, u k ^ 2 := sum_nonneg fun k _ => sq_nonneg _
  rw [le_div_iff₀ (by positivity)]
  have h3 : (K * γ) ^ 2 ≤ (∑ k ∈ range m.dim, u k ^ 2) * (K * R2) := by
    have a1 : (K * γ) ^ 2 ≤ dot m.dim u w ^ 2 := by
      have : 0 ≤ K * γ := mul_nonneg hK0 hγ.le
      exact pow_le_pow_left₀ this h1 2
    exact a1.trans (hcs.trans (mul_le_mul_of_nonneg_left h2 hu))
  rcases hK0.eq_or_lt with h | h
  · rw [← h, zero_mul]; exact mul_nonneg hR2 hu
  · have h4 : K * (K * γ ^ 2) ≤ K * (R2 * ∑ k ∈ range m.dim, u k ^ 2) := by nlinarith
    exact le_of_mul_le_mul_left h4 h

/-! ### early stopping -/

/-- the running sum of losses in an online pass; if it does not grow, nothing happened. -/
theorem onlineFold (m : SModel X Y) (avg : Option ℤ) (lr : ℚ) (it : ℕ) (l : List (X × Y))
    (hnn : ∀ s ∈ l, ∀ w, 0 ≤ m.loss s.2 (m.inference s.1 w)) (p : St × ℚ) :
    p.2 ≤ (l.foldl (onlineStep m avg lr it) p).2 ∧
    mistakes p.1.visits ≤ mistakes (l.foldl (onlineStep m avg lr it) p).1.visits ∧
    ((l.foldl (onlineStep m avg lr it) p).2 ≠ p.2 →
      mistakes p.1.visits < mistakes (l.foldl (onlineStep m avg lr it) p).1.visits) ∧
    ((l.foldl (onlineStep m avg lr it) p).2 = p.2 →
      (l.foldl (onlineStep m avg lr it) p).1.w = p.1.w ∧
      ∀ s ∈ l, m.loss s.2 (m.inference s.1 p.1.w) = 0) := by
  induction l generalizing p with
  | nil => exact ⟨le_rfl, le_rfl, fun h => absurd rfl h, fun _ => ⟨rfl, fun s hs => by cases hs⟩⟩
  | cons s l ih =>
    rw [List.foldl_cons]
    obtain ⟨i1, i2, i3, i4⟩ := ih (fun s' hs' => hnn s' (List.mem_cons_of_mem _ hs'))
      (onlineStep m avg lr it p s)
    have hl := hnn s List.mem_cons_self p.1.w
    have e2 : (onlineStep m avg lr it p s).2 = p.2 + m.loss s.2 (m.inference s.1 p.1.w) := rfl
    have ev : mistakes (onlineStep m avg lr it p s).1.visits = mistakes p.1.visits +
        (if m.loss s.2 (m.inference s.1 p.1.w) ≠ 0 then 1 else 0) := by
      unfold onlineStep; simp only [observe_visits]; rw [mistakes_append]
    have ew : (onlineStep m avg lr it p s).1.w =
        update m lr p.1.w s.1 s.2 (m.inference s.1 p.1.w) := by
      unfold onlineStep; simp only [observe_w]
    refine ⟨by rw [e2] at i1; linarith, by omega, ?_, ?_⟩
    · intro hne
      by_cases h0 : m.loss s.2 (m.inference s.1 p.1.w) = 0
      · have := i3 (by rw [e2, h0, add_zero]; exact hne)
        omega
      · rw [if_pos h0] at ev; omega
    · intro heq
      have h0 : m.loss s.2 (m.inference s.1 p.1.w) = 0 := by rw [e2] at i1; linarith
      obtain ⟨j1, j2⟩ := i4 (by rw [e2, h0, add_zero]; exact heq)
      have ew' : (onlineStep m avg lr it p s).1.w = p.1.w := by
        rw [ew]; unfold update; rw [if_neg (not_not.mpr h0)]
      rw [ew'] at j1 j2
      refine ⟨j1, ?_⟩
      intro s' hs'
      rcases List.mem_cons.mp hs' with rfl | hs'
      · exact h0
      · exact j2 s' hs'

theorem batchFold (m : SModel X Y) (lr : ℚ) (it : ℕ) (w0 : W) (l : List (X × Y))
    (hnn : ∀ s ∈ l, ∀ w, 0 ≤ m.loss s.2 (m.inference s.1 w)) (p : St × ℚ) :
    p.2 ≤ (l.foldl (batchStep m lr it w0) p).2 ∧
    mistakes p.1.visits ≤ mistakes (l.foldl (batchStep m lr it w0) p).1.visits ∧
    ((l.foldl (batchStep m lr it w0) p).2 ≠ p.2 →
      mistakes p.1.visits < mistakes (l.foldl (batchStep m lr it w0) p).1.visits) ∧
    ((l.foldl (batchStep m lr it w0) p).2 = p.2 →
      (l.foldl (batchStep m lr it w0) p).1.w = p.1.w ∧
      ∀ s ∈ l, m.loss s.2 (m.inference s.1 w0) = 0) := by
  induction l generalizing p with
  | nil => exact ⟨le_rfl, le_rfl, fun h => absurd rfl h, fun _ => ⟨rfl, fun s hs => by cases hs⟩⟩
  | cons s l ih =>
    rw [List.foldl_cons]
    obtain ⟨i1, i2, i3, i4⟩ := ih (fun s' hs' => hnn s' (List.mem_cons_of_mem _ hs'))
      (batchStep m lr it w0 p s)
    have hl := hnn s List.mem_cons_self w0
    have e2 : (batchStep m lr it w0 p s).2 = p.2 + m.loss s.2 (m.inference s.1 w0) := rfl
    have ev : mistakes (batchStep m lr it w0 p s).1.visits = mistakes p.1.visits +
        (if m.loss s.2 (m.inference s.1 w0) ≠ 0 then 1 else 0) := by
      unfold batchStep; simp only; rw [mistakes_append]
    refine ⟨by rw [e2] at i1; linarith, by omega, ?_, ?_⟩
    · intro hne
      by_cases h0 : m.loss s.2 (m.inference s.1 w0) = 0
      · have := i3 (by rw [e2, h0, add_zero]; exact hne)
        omega
      · rw [if_pos h0] at ev; omega
    · intro heq
      have h0 : m.loss s.2 (m.inference s.1 w0) = 0 := by rw [e2] at i1; linarith
      obtain ⟨j1, j2⟩ := i4 (by rw [e2, h0, add_zero]; exact heq)
      have ew' : (batchStep m lr it w0 p s).1.w = p.1.w := by
        unfold batchStep update; simp only; rw [if_neg (not_not.mpr h0)]
      rw [ew'] at j1
      refine ⟨j1, ?_⟩
      intro s' hs'
      rcases List.mem_cons.mp hs' with rfl | hs'
      · exact h0
      · exact j2 s' hs'

/-- what one pass tells: losses are nonnegative; nonzero ones mean a mistake; if they are zero the weights
did not move and predict everything correctly. -/
theorem pass_facts (m : SModel X Y) (cfg : Config) (avg : Option ℤ) (samples : List (X × Y))
    (hnn : ∀ s ∈ samples, ∀ w, 0 ≤ m.loss s.2 (m.inference s.1 w)) (it : ℕ) (st : St) :
    ((pass m cfg avg samples it st).2 ≠ 0 →
      mistakes st.visits < mistakes (pass m cfg avg samples it st).1.visits) ∧
    mistakes st.visits ≤ mistakes (pass m cfg avg samples it st).1.visits ∧
    ((pass m cfg avg samples it st).2 = 0 → (pass m cfg avg samples it st).1.w = st.w ∧
      ∀ s ∈ samples, m.loss s.2 (m.inference s.1 st.w) = 0) := by
  set st0 : St := if avg = some (-1) then { st with nObs := 0, wbar := fun _ => 0 } else st with h0
  have hw : st0.w = st.w := by rw [h0]; split <;> rfl
  have hv : st0.visits = st.visits := by rw [h0]; split <;> rfl
  by_cases hb : cfg.batch
  · obtain ⟨_, i2, i3, i4⟩ := batchFold m (cfg.lr it) it st0.w samples hnn (st0, 0)
    have e : pass m cfg avg samples it st =
        (observe avg it (samples.foldl (batchStep m (cfg.lr it) it st0.w) (st0, 0)).1,
          (samples.foldl (batchStep m (cfg.lr it) it st0.w) (st0, 0)).2) := by
      unfold pass; simp only [hb, if_true, ← h0]
    rw [e]
    simp only [observe_visits, observe_w]
    rw [← hv, ← hw]
    exact ⟨i3, i2, i4⟩
  · obtain ⟨_, i2, i3, i4⟩ := onlineFold m avg (cfg.lr it) it samples hnn (st0, 0)
    have e : pass m cfg avg samples it st =
        samples.foldl (onlineStep m avg (cfg.lr it) it) (st0, 0) := by
      unfold pass; simp only [hb, if_false, ← h0]; rfl
    rw [e, ← hv, ← hw]
    exact ⟨i3, i2, i4⟩

theorem pass_curve (m : SModel X Y) (cfg : Config) (avg : Option ℤ) (samples : List (X × Y))
    (it : ℕ) (st : St) : (pass m cfg avg samples it st).1.curve = st.curve := by
  have hon : ∀ l : List (X × Y), ∀ p : St × ℚ,
      (l.foldl (onlineStep m avg (cfg.lr it) it) p).1.curve = p.1.curve := by
    intro l
    induction l with
    | nil => intro p; rfl
    | cons s l ih =>
      intro p; rw [List.foldl_cons, ih]
      unfold onlineStep; simp only [observe_curve]
  have hba : ∀ w0, ∀ l : List (X × Y), ∀ p : St × ℚ,
      (l.foldl (batchStep m (cfg.lr it) it w0) p).1.curve = p.1.curve := by
    intro w0 l
    induction l with
    | nil => intro p; rfl
    | cons s l ih => intro p; rw [List.foldl_cons, ih]; rfl
  unfold pass
  simp only
  split
  · simp only [observe_curve]; rw [hba]; split <;> rfl
  · rw [hon]; split <;> rfl

/-- either training stopped with zero loss, or every epoch had a mistake. -/
theorem loop_stop_or_mistakes (m : SModel X Y) (cfg : Config) (avg : Option ℤ)
    (samples : List (X × Y)) (hnn : ∀ s ∈ samples, ∀ w, 0 ≤ m.loss s.2 (m.inference s.1 w)) (ml : ℚ) (hml : ml ≠ 0)
    (n it : ℕ) (st : St) :
    (loop m cfg avg samples ml n it st).curve.getLast? = some (some 0) ∨
    mistakes st.visits + n ≤ mistakes (loop m cfg avg samples ml n it st).visits := by
  induction n generalizing it st with
  | zero => exact Or.inr le_rfl
  | succ n ih =>
    obtain ⟨f1, f2, _⟩ := pass_facts m cfg avg samples hnn it st
    unfold loop
    simp only
    split
    · rename_i hz
      left
      simp only [List.getLast?_append, List.getLast?_singleton, Option.some_or, hz]
    · rename_i hz
      have hne : (pass m cfg avg samples it st).2 ≠ 0 := by
        intro h; apply hz; unfold curveEntry; rw [if_neg hml, h, zero_div]
      have := f1 hne
      rcases ih (it + 1) { (pass m cfg avg samples it st).1 with
          curve := (pass m cfg avg samples it st).1.curve ++
            [curveEntry (pass m cfg avg samples it st).2 ml] } with h | h
      · exact Or.inl h
      · right; simp only at h; omega

/-- if the last entry of the loss curve is zero, the final weights predict all samples correctly and were
not changed in the last pass. -/
theorem loop_stop (m : SModel X Y) (cfg : Config) (avg : Option ℤ)
    (samples : List (X × Y)) (hnn : ∀ s ∈ samples, ∀ w, 0 ≤ m.loss s.2 (m.inference s.1 w)) (ml : ℚ)
    (n it : ℕ) (st : St) (hst : st.curve.getLast? ≠ some (some 0))
    (h : (loop m cfg avg samples ml n it st).curve.getLast? = some (some 0)) :
    (∀ s ∈ samples, m.loss s.2 (m.inference s.1 (loop m cfg avg samples ml n it st).w) = 0) ∧
    ∃ it' st', (loop m cfg avg samples ml n it st).w = (pass m cfg avg samples it' st').1.w ∧
      (pass m cfg avg samples it' st').1.w = st'.w := by
  induction n generalizing it st with
  | zero => exact absurd h hst
  | succ n ih =>
    obtain ⟨_, _, f3⟩ := pass_facts m cfg avg samples hnn it st
    unfold loop at h ⊢
    simp only at h ⊢
    by_cases hz : curveEntry (pass m cfg avg samples it st).2 ml = some 0
    · rw [if_pos hz] at h ⊢
      have h0 : (pass m cfg avg samples it st).2 = 0 := by
        unfold curveEntry at hz
        split at hz
        · cases hz
        · rename_i hml
          injection hz with hz
          exact (div_eq_zero_iff.mp hz).resolve_right hml
      obtain ⟨g1, g2⟩ := f3 h0
      refine ⟨?_, it, st, rfl, g1⟩
      intro s hs
      simp only
      rw [g1]; exact g2 s hs
    · rw [if_neg hz] at h ⊢
      refine ih (it + 1) _ ?_ h
      simp only [List.getLast?_append, List.getLast?_singleton, Option.some_or]
      intro hc
      injection hc with hc
      exact hz hc

/-- **C54.** If training stops early (the last recorded loss is zero), then without averaging the learned
weights predict every training sample with loss zero, online or batch, with or without decay, and the
weights did not change during the last pass. -/
theorem C54_early_stop (m : SModel X Y) (o o' : Obj) (samples : List (X × Y))
    (hnn : ∀ s ∈ samples, ∀ w, 0 ≤ m.loss s.2 (m.inference s.1 w)) (havg : o.average = .off)
    (hfit : Perceptron.fit m o samples = .ok o') (hstop : o'.lossCurve.getLast? = some (some 0)) :
    (∀ s ∈ samples, m.loss s.2 (m.inference s.1 o'.w) = 0) ∧
    ∃ it st, o'.w = (pass m o.cfg none samples it st).1.w ∧
      (pass m o.cfg none samples it st).1.w = st.w := by
  unfold Perceptron.fit at hfit
  rw [havg] at hfit
  simp only [normAverage, if_true] at hfit
  injection hfit with hfit
  subst hfit
  exact loop_stop m o.cfg none samples hnn _ _ _ _ (by unfold start; simp) hstop

/-- **C52 (termination).** Under the conditions of the mistake bound, with nonnegative losses that can be
positive at all, training with more than `R2 ‖u‖² / γ²` allowed epochs ends with recorded loss zero, and
without averaging the learned weights predict every training sample with loss zero. -/
theorem C52_converges (m : SModel X Y) (outputs : X → Set Y) (o : Obj)
    (samples : List (X × Y)) (u : ℕ → ℚ) (γ R2 : ℚ) (hγ : 0 < γ) (hR2 : 0 ≤ R2)
    (hon : o.cfg.batch = false) (hlr : ∀ t, o.cfg.lr t = 1) (havg : o.average = .off)
    (hinf : (perceptronProblem m outputs).ExactInference m.inference)
    (hlab : ∀ s ∈ samples, s.2 ∈ outputs s.1)
    (hnn : ∀ s ∈ samples, ∀ w, 0 ≤ m.loss s.2 (m.inference s.1 w))
    (hml : 0 < (samples.map fun s => m.maxLoss s.2).sum)
    (hsep : Separates (perceptronProblem m outputs) u γ samples)
    (hrad : Radius (perceptronProblem m outputs) R2 samples)
    (hiter : R2 * (∑ k ∈ range m.dim, u k ^ 2) / γ ^ 2 < o.cfg.maxIter) :
    ∃ o', Perceptron.fit m o samples = .ok o' ∧ o'.lossCurve.getLast? = some (some 0) ∧
      ∀ s ∈ samples, m.loss s.2 (m.inference s.1 o'.w) = 0 := by
  have hb := C52_mistake_bound m outputs o.cfg none samples u γ R2 hγ hR2 hon hlr hinf hlab hsep hrad
  have hfit : Perceptron.fit m o samples = .ok { o with
      average := .off, w := (train m o.cfg none samples).w,
      lossCurve := (train m o.cfg none samples).curve } := by
    unfold Perceptron.fit; rw [havg]; simp [normAverage]
  have hstop : (train m o.cfg none samples).curve.getLast? = some (some 0) := by
    rcases loop_stop_or_mistakes m o.cfg none samples hnn _ hml.ne' o.cfg.maxIter 0 start with h | h
    · exact h
    · exfalso
      have h' : o.cfg.maxIter ≤ mistakes (train m o.cfg none samples).visits := by
        unfold train; have : mistakes start.visits = 0 := rfl
        omega
      have : (o.cfg.maxIter : ℚ) ≤ mistakes (train m o.cfg none samples).visits := by
        exact_mod_cast h'
      linarith
  exact ⟨_, hfit, hstop, (C54_early_stop m o _ samples hnn havg hfit hstop).1⟩

end Verif.Props
