import Verif.Spec.Perceptron
import Verif.Props.C52
import Mathlib.Algebra.BigOperators.Intervals

/-!
# C51, C52, C53 for the structured perceptron, stated on the run of the algorithm
-/

namespace Verif.Props

open Finset Verif.Spec Verif.Learner Verif.Perceptron

variable {X Y : Type}

/-- the run of the online perceptron for a model. -/
abbrev runOf (m : SModel X Y) (lr : ℕ → ℚ) (samples : List (X × Y)) : ℕ → W :=
  (perceptronProblem m (fun _ => Set.univ)).onlineRun m.inference lr samples

/-- the losses of the predictions during this run. -/
abbrev lossAt (m : SModel X Y) (lr : ℕ → ℚ) (samples : List (X × Y)) : ℕ → ℚ :=
  (perceptronProblem m (fun _ => Set.univ)).onlineLoss m.inference lr samples

/-- the run of the batch perceptron for a model. -/
abbrev batchOf (m : SModel X Y) (lr : ℕ → ℚ) (samples : List (X × Y)) : ℕ → W :=
  (perceptronProblem m (fun _ => Set.univ)).batchRun m.inference lr samples

theorem runOf_succ (m : SModel X Y) (lr : ℕ → ℚ) (samples : List (X × Y)) (it i : ℕ) (s : X × Y)
    (hi : i < samples.length) (hs : samples[i]? = some s) :
    runOf m lr samples (samples.length * it + i + 1) =
      update m (lr it) (runOf m lr samples (samples.length * it + i)) s.1 s.2
        (m.inference s.1 (runOf m lr samples (samples.length * it + i))) ∧
    lossAt m lr samples (samples.length * it + i) =
      m.loss s.2 (m.inference s.1 (runOf m lr samples (samples.length * it + i))) := by
  have h1 : (samples.length * it + i) % samples.length = i := by
    rw [Nat.mul_add_mod]; exact Nat.mod_eq_of_lt hi
  have h2 : (samples.length * it + i) / samples.length = it := by
    rw [Nat.mul_add_div (by omega), Nat.div_eq_of_lt hi, add_zero]
  constructor
  · have e : runOf m lr samples (samples.length * it + i + 1) =
      (match samples[(samples.length * it + i) % samples.length]? with
        | none => runOf m lr samples (samples.length * it + i)
        | some (x, y) =>
          if m.loss y (m.inference x (runOf m lr samples (samples.length * it + i))) = 0 then
            runOf m lr samples (samples.length * it + i)
          else fun k => runOf m lr samples (samples.length * it + i) k +
            lr ((samples.length * it + i) / samples.length) *
              (m.jointFeature x y k -
                m.jointFeature x (m.inference x (runOf m lr samples (samples.length * it + i))) k)) :=
      rfl
    rw [e, h1, h2, hs]
    unfold update
    simp only [ne_eq, ite_not]
  · have e : lossAt m lr samples (samples.length * it + i) =
      (match samples[(samples.length * it + i) % samples.length]? with
        | none => 0
        | some (x, y) => m.loss y (m.inference x (runOf m lr samples (samples.length * it + i)))) := rfl
    rw [e, h1, hs]

/-- what has been observed: `nObs` weights from step `b` on, and their mean. -/
def Observed (run : ℕ → W) (b t : ℕ) (st : St) : Prop :=
  st.nObs = t - b ∧ (∀ j, ((t - b : ℕ) : ℚ) * st.wbar j = ∑ i ∈ Ico b t, run (i + 1) j) ∧
    (t ≤ b → ∀ j, st.wbar j = 0)

/-- state of an online run after `t` visits. -/
def OnlineInv (m : SModel X Y) (lr : ℕ → ℚ) (samples : List (X × Y)) (avg : Option ℤ) (b t : ℕ)
    (st : St) : Prop :=
  st.w = runOf m lr samples t ∧
  st.visits = (List.range t).map (fun i => (⟨i / samples.length, runOf m lr samples i,
    lossAt m lr samples i, runOf m lr samples (i + 1)⟩ : Visit)) ∧
  (avg ≠ none → Observed (runOf m lr samples) b t st)

theorem observed_succ (run : ℕ → W) (b t : ℕ) (st : St) (k : ℤ) (it : ℕ)
    (hact : k ≤ it ↔ b ≤ t) (hw : st.w = run (t + 1)) (h : Observed run b t st) :
    Observed run b (t + 1) (observe (some k) it st) := by
  obtain ⟨h1, h2, h3⟩ := h
  unfold observe
  simp only
  by_cases hb : b ≤ t
  · rw [if_pos (hact.mpr hb)]
    have e : t + 1 - b = t - b + 1 := by omega
    refine ⟨by simp only; omega, ?_, fun h => by omega⟩
    intro j
    rw [sum_Ico_succ_top hb, ← h2 j, e]
    simp only [h1, hw]
    have : ((t - b + 1 : ℕ) : ℚ) ≠ 0 := by positivity
    field_simp
    push_cast
    ring
  · rw [if_neg (fun h => hb (hact.mp h))]
    refine ⟨by omega, ?_, fun _ => h3 (by omega)⟩
    intro j
    rw [Ico_eq_empty (by omega), sum_empty]
    have : t + 1 - b = 0 := by omega
    rw [this]; simp

theorem onlinePass_inv (m : SModel X Y) (cfg : Config) (avg : Option ℤ) (samples : List (X × Y))
    (b it : ℕ)
    (hact : ∀ k, avg = some k → ∀ t, samples.length * it ≤ t → t < samples.length * (it + 1) →
      (k ≤ it ↔ b ≤ t)) :
    ∀ (l : List (X × Y)) (i : ℕ), samples.drop i = l → i ≤ samples.length → ∀ p : St × ℚ,
      OnlineInv m cfg.lr samples avg b (samples.length * it + i) p.1 →
      OnlineInv m cfg.lr samples avg b (samples.length * (it + 1))
        (l.foldl (onlineStep m avg (cfg.lr it) it) p).1 := by
  intro l
  induction l with
  | nil =>
    intro i hd hi p h
    have : i = samples.length := by
      have := congrArg List.length hd
      rw [List.length_drop, List.length_nil] at this
      omega
    rw [List.foldl_nil, show samples.length * (it + 1) = samples.length * it + i by rw [this]; ring]
    exact h
  | cons s l ih =>
    intro i hd hi p h
    have hlen := congrArg List.length hd
    rw [List.length_drop, List.length_cons] at hlen
    have hi' : i < samples.length := by omega
    have hs : samples[i]? = some s := by
      have := congrArg (fun l => l[0]?) hd
      simpa using this
    have hd' : samples.drop (i + 1) = l := by
      rw [← List.drop_drop, hd]; rfl
    rw [List.foldl_cons]
    refine ih (i + 1) hd' hi' _ ?_
    obtain ⟨r1, r2⟩ := runOf_succ m cfg.lr samples it i s hi' hs
    obtain ⟨h1, h2, h3⟩ := h
    have hmul : samples.length * (it + 1) = samples.length * it + samples.length := by ring
    refine ⟨?_, ?_, ?_⟩
    · unfold onlineStep
      simp only [observe_w]
      rw [h1, ← add_assoc, r1]
    · unfold onlineStep
      simp only [observe_visits]
      rw [h2, ← add_assoc, List.range_succ, List.map_append, List.map_singleton, r1, r2, h1]
      rw [Nat.mul_add_div (by omega), Nat.div_eq_of_lt hi', add_zero]
    · intro ha
      cases avg with
      | none => exact absurd rfl ha
      | some k =>
        rw [← add_assoc]
        apply observed_succ
        · exact hact k rfl _ (by omega) (by omega)
        · simp only; rw [h1, r1]
        · exact h3 ha

/-- offset from which weights enter the mean. -/
def offset (avg : Option ℤ) (n epochs : ℕ) : ℕ :=
  match avg with
  | none => 0
  | some k => if k = -1 then n * (epochs - 1) else n * k.toNat

theorem onlineLoop_inv (m : SModel X Y) (cfg : Config) (hb : cfg.batch = false) (avg : Option ℤ)
    (havg : ∀ k, avg = some k → -1 ≤ k) (samples : List (X × Y)) (ml : ℚ) (n it : ℕ) (st : St)
    (hc : st.curve.length = it)
    (h : OnlineInv m cfg.lr samples avg (offset avg samples.length it) (samples.length * it) st) :
    OnlineInv m cfg.lr samples avg
      (offset avg samples.length (loop m cfg avg samples ml n it st).curve.length)
      (samples.length * (loop m cfg avg samples ml n it st).curve.length)
      (loop m cfg avg samples ml n it st) := by
  induction n generalizing it st with
  | zero => unfold loop; rw [hc]; exact h
  | succ n ih =>
    have hpass : OnlineInv m cfg.lr samples avg (offset avg samples.length (it + 1))
        (samples.length * (it + 1)) (pass m cfg avg samples it st).1 := by
      unfold pass
      simp only [hb, Bool.false_eq_true, if_false]
      apply onlinePass_inv m cfg avg samples _ it ?_ samples 0 rfl (Nat.zero_le _)
      · obtain ⟨h1, h2, h3⟩ := h
        rw [add_zero]
        by_cases hk : avg = some (-1)
        · rw [if_pos hk]
          refine ⟨h1, h2, fun _ => ?_⟩
          have : offset avg samples.length (it + 1) = samples.length * it := by
            rw [hk]; simp [offset]
          rw [this]
          exact ⟨by simp, fun j => by simp, fun _ _ => rfl⟩
        · rw [if_neg hk]
          refine ⟨h1, h2, fun ha => ?_⟩
          have : offset avg samples.length (it + 1) = offset avg samples.length it := by
            cases avg with
            | none => rfl
            | some k =>
              have : k ≠ -1 := fun h => hk (by rw [h])
              simp only [offset, if_neg this]
          rw [this]; exact h3 ha
      · intro k hk t ht1 ht2
        have hk1 := havg k hk
        rw [hk]
        unfold offset
        simp only
        by_cases hkm : k = -1
        · rw [if_pos hkm, Nat.add_sub_cancel]
          constructor
          · intro _; exact ht1
          · intro _; omega
        · rw [if_neg hkm]
          have hk0 : 0 ≤ k := by omega
          have hn : 0 < samples.length := by
            rcases Nat.eq_zero_or_pos samples.length with h0 | h0
            · rw [h0] at ht2; omega
            · exact h0
          constructor
          · intro hle
            have : k.toNat ≤ it := by omega
            exact (Nat.mul_le_mul_left _ this).trans ht1
          · intro hle
            have : samples.length * k.toNat < samples.length * (it + 1) := by omega
            have := Nat.lt_of_mul_lt_mul_left this
            omega
    have hc' : (pass m cfg avg samples it st).1.curve.length = it := by rw [pass_curve, hc]
    unfold loop
    simp only
    split
    · simp only [List.length_append, List.length_singleton, hc']
      exact hpass
    · exact ih (it + 1) _ (by simp [hc']) hpass

/-- the state after online training in terms of the run. -/
theorem train_online (m : SModel X Y) (cfg : Config) (hb : cfg.batch = false) (avg : Option ℤ)
    (havg : ∀ k, avg = some k → -1 ≤ k) (samples : List (X × Y)) :
    OnlineInv m cfg.lr samples avg
      (offset avg samples.length (train m cfg avg samples).curve.length)
      (samples.length * (train m cfg avg samples).curve.length) (train m cfg avg samples) := by
  apply onlineLoop_inv m cfg hb avg havg
  · rfl
  · refine ⟨rfl, rfl, fun _ => ⟨?_, fun j => ?_, fun _ _ => rfl⟩⟩
    · simp [start]
    · simp [start]

/-- **C52 on the run.** The number of wrong predictions among the visits of online training is at most
`R2 ‖u‖² / γ²`. -/
theorem C52_mistakes_on_run (m : SModel X Y) (outputs : X → Set Y) (cfg : Config) (avg : Option ℤ)
    (havg : ∀ k, avg = some k → -1 ≤ k)
    (samples : List (X × Y)) (u : ℕ → ℚ) (γ R2 : ℚ) (hγ : 0 < γ) (hR2 : 0 ≤ R2)
    (hon : cfg.batch = false) (hlr : ∀ t, cfg.lr t = 1)
    (hinf : (perceptronProblem m outputs).ExactInference m.inference)
    (hlab : ∀ s ∈ samples, s.2 ∈ outputs s.1)
    (hsep : Separates (perceptronProblem m outputs) u γ samples)
    (hrad : Radius (perceptronProblem m outputs) R2 samples) :
    (((range (samples.length * (train m cfg avg samples).curve.length)).filter
        fun t => lossAt m cfg.lr samples t ≠ 0).card : ℚ) ≤
      R2 * (∑ k ∈ range m.dim, u k ^ 2) / γ ^ 2 := by
  have h := C52_mistake_bound m outputs cfg avg samples u γ R2 hγ hR2 hon hlr hinf hlab hsep hrad
  have hv := (train_online m cfg hon avg havg samples).2.1
  have : mistakes (train m cfg avg samples).visits =
      ((range (samples.length * (train m cfg avg samples).curve.length)).filter
        fun t => lossAt m cfg.lr samples t ≠ 0).card := by
    generalize samples.length * (train m cfg avg samples).curve.length = T at hv ⊢
    rw [hv]
    clear hv h
    induction T with
    | zero => rfl
    | succ T ih =>
      rw [List.range_succ, List.map_append, List.map_singleton, mistakes_append, ih,
        range_add_one, filter_insert]
      simp only
      split
      · rw [card_insert_of_notMem (by simp)]
      · rw [add_zero]
  rw [← this]; exact h

/-- the parameter after normalisation is at least -1. -/
theorem normAverage_ge {a : Average} {avg : Option ℤ} (h : normAverage a = .ok avg) :
    ∀ k, avg = some k → -1 ≤ k := by
  intro k hk
  subst hk
  cases a with
  | off => simp [normAverage] at h
  | on => simp [normAverage] at h; omega
  | after k' =>
    simp only [normAverage] at h
    split at h
    · cases h
    · injection h with h; injection h with h; omega

/-- **C53, online.** After `fit` the loss curve has one entry per epoch, `E` in all. Without averaging
the learned weights are the last ones of the run; with averaging from epoch `k` they are the mean of the
weights after every visit in epochs `k … E-1`, provided there was one; with `average=-1` the mean over the
last epoch. -/
theorem C53_online_partial (m : SModel X Y) (o o' : Obj) (samples : List (X × Y))
    (hon : o.cfg.batch = false) (hn : 0 < samples.length)
    (hfit : Perceptron.fit m o samples = .ok o') :
    (o.average = .off → o'.w = runOf m o.cfg.lr samples (samples.length * o'.lossCurve.length)) ∧
    (∀ k : ℕ, (o.average = .after k ∨ (o.average = .on ∧ k = 0)) → k < o'.lossCurve.length → ∀ j,
      o'.w j = (∑ t ∈ Ico (samples.length * k) (samples.length * o'.lossCurve.length),
          runOf m o.cfg.lr samples (t + 1) j) /
        ((samples.length * (o'.lossCurve.length - k) : ℕ) : ℚ)) ∧
    (o.average = .after (-1) → 0 < o'.lossCurve.length → ∀ j,
      o'.w j = (∑ t ∈ Ico (samples.length * (o'.lossCurve.length - 1))
            (samples.length * o'.lossCurve.length), runOf m o.cfg.lr samples (t + 1) j) /
        (samples.length : ℚ)) := by
  unfold Perceptron.fit at hfit
  cases hna : normAverage o.average with
  | error err => rw [hna] at hfit; cases hfit
  | ok avg =>
  rw [hna] at hfit
  simp only at hfit
  injection hfit with hfit
  obtain ⟨i1, _, i3⟩ := train_online m o.cfg hon avg (normAverage_ge hna) samples
  subst hfit
  simp only
  generalize (train m o.cfg avg samples).curve.length = E at i1 i3 ⊢
  have mean : ∀ b : ℕ, b < samples.length * E → avg ≠ none → offset avg samples.length E = b → ∀ j,
      (if avg = none then (train m o.cfg avg samples).w else (train m o.cfg avg samples).wbar) j =
      (∑ t ∈ Ico b (samples.length * E), runOf m o.cfg.lr samples (t + 1) j) /
        ((samples.length * E - b : ℕ) : ℚ) := by
    intro b hbt hne hoff j
    obtain ⟨_, h2, _⟩ := i3 hne
    rw [if_neg hne, hoff] at *
    rw [← h2 j, mul_div_cancel_left₀]
    have : 0 < samples.length * E - b := by omega
    exact_mod_cast this.ne'
  refine ⟨?_, ?_, ?_⟩
  · intro ha
    rw [ha] at hna
    simp only [normAverage] at hna
    injection hna with hna
    subst hna
    exact i1
  · intro k ha hk j
    have : avg = some (k : ℤ) := by
      rcases ha with ha | ⟨ha, hk0⟩
      · rw [ha] at hna
        simp only [normAverage] at hna
        rw [if_neg (by omega)] at hna
        injection hna with hna; exact hna.symm
      · rw [ha] at hna
        simp only [normAverage] at hna
        injection hna with hna; rw [← hna, hk0]; rfl
    subst this
    have hlt : samples.length * k < samples.length * E := Nat.mul_lt_mul_of_pos_left hk hn
    rw [mean (samples.length * k) hlt (by simp) (by simp [offset]) j, Nat.mul_sub]
  · intro ha hE j
    have : avg = some (-1) := by
      rw [ha] at hna
      simp only [normAverage] at hna
      rw [if_neg (by omega)] at hna
      injection hna with hna; exact hna.symm
    subst this
    have hlt : samples.length * (E - 1) < samples.length * E :=
      Nat.mul_lt_mul_of_pos_left (by omega) hn
    have hsub : samples.length * E - samples.length * (E - 1) = samples.length := by
      rw [← Nat.mul_sub, show E - (E - 1) = 1 by omega, mul_one]
    rw [mean (samples.length * (E - 1)) hlt (by simp) (by simp [offset]) j, hsub]

/-! ### batch -/

theorem batchFold_w (m : SModel X Y) (lr : ℚ) (it : ℕ) (w0 : W) (l : List (X × Y)) (p : St × ℚ) :
    (∀ k, (l.foldl (batchStep m lr it w0) p).1.w k = p.1.w k + lr * (l.map fun s =>
      if m.loss s.2 (m.inference s.1 w0) = 0 then 0
      else m.jointFeature s.1 s.2 k - m.jointFeature s.1 (m.inference s.1 w0) k).sum) ∧
    (l.foldl (batchStep m lr it w0) p).1.nObs = p.1.nObs ∧
    (l.foldl (batchStep m lr it w0) p).1.wbar = p.1.wbar := by
  induction l generalizing p with
  | nil => exact ⟨fun k => by simp, rfl, rfl⟩
  | cons s l ih =>
    rw [List.foldl_cons]
    obtain ⟨i1, i2, i3⟩ := ih (batchStep m lr it w0 p s)
    refine ⟨fun k => ?_, i2, i3⟩
    rw [i1 k, List.map_cons, List.sum_cons]
    have e : (batchStep m lr it w0 p s).1.w k = p.1.w k + lr *
        (if m.loss s.2 (m.inference s.1 w0) = 0 then 0
          else m.jointFeature s.1 s.2 k - m.jointFeature s.1 (m.inference s.1 w0) k) := by
      unfold batchStep update
      simp only
      by_cases h : m.loss s.2 (m.inference s.1 w0) = 0
      · rw [if_neg (not_not.mpr h), if_pos h, mul_zero, add_zero]
      · rw [if_pos h, if_neg h]
    rw [e]; ring

/-- state of a batch run after `t` epochs. -/
def BatchInv (m : SModel X Y) (lr : ℕ → ℚ) (samples : List (X × Y)) (avg : Option ℤ) (b t : ℕ)
    (st : St) : Prop :=
  st.w = batchOf m lr samples t ∧ (avg ≠ none → Observed (batchOf m lr samples) b t st)

theorem batchLoop_inv (m : SModel X Y) (cfg : Config) (hb : cfg.batch = true) (avg : Option ℤ)
    (havg : ∀ k, avg = some k → -1 ≤ k) (samples : List (X × Y)) (ml : ℚ) (n it : ℕ) (st : St)
    (hc : st.curve.length = it)
    (h : BatchInv m cfg.lr samples avg (offset avg 1 it) it st) :
    BatchInv m cfg.lr samples avg
      (offset avg 1 (loop m cfg avg samples ml n it st).curve.length)
      (loop m cfg avg samples ml n it st).curve.length
      (loop m cfg avg samples ml n it st) := by
  induction n generalizing it st with
  | zero => unfold loop; rw [hc]; exact h
  | succ n ih =>
    have hpass : BatchInv m cfg.lr samples avg (offset avg 1 (it + 1)) (it + 1)
        (pass m cfg avg samples it st).1 := by
      unfold pass
      simp only [hb, if_true]
      have h0 : BatchInv m cfg.lr samples avg (offset avg 1 (it + 1)) it
          (if avg = some (-1) then { st with nObs := 0, wbar := fun _ => 0 } else st) := by
        obtain ⟨h1, h3⟩ := h
        by_cases hk : avg = some (-1)
        · rw [if_pos hk]
          refine ⟨h1, fun _ => ?_⟩
          have : offset avg 1 (it + 1) = it := by rw [hk]; simp [offset]
          rw [this]
          exact ⟨by simp, fun j => by simp, fun _ _ => rfl⟩
        · rw [if_neg hk]
          refine ⟨h1, fun ha => ?_⟩
          have : offset avg 1 (it + 1) = offset avg 1 it := by
            cases avg with
            | none => rfl
            | some k =>
              have : k ≠ -1 := fun h => hk (by rw [h])
              simp only [offset, if_neg this]
          rw [this]; exact h3 ha
      generalize (if avg = some (-1) then { st with nObs := 0, wbar := fun _ => 0 } else st) = st0
        at h0
      obtain ⟨h1, h3⟩ := h0
      obtain ⟨b1, b2, b3⟩ := batchFold_w m (cfg.lr it) it st0.w samples (st0, 0)
      have hw : (samples.foldl (batchStep m (cfg.lr it) it st0.w) (st0, 0)).1.w =
          batchOf m cfg.lr samples (it + 1) := by
        funext k
        rw [b1 k, h1]
        rfl
      refine ⟨by rw [observe_w]; exact hw, ?_⟩
      intro ha
      cases avg with
      | none => exact absurd rfl ha
      | some k =>
        have hk1 := havg k rfl
        apply observed_succ _ _ _ _ _ _ ?_ hw
        · obtain ⟨o1, o2, o3⟩ := h3 ha
          refine ⟨b2.trans o1, ?_, ?_⟩
          · intro j; rw [b3]; exact o2 j
          · intro hle j; rw [b3]; exact o3 hle j
        · unfold offset
          simp only
          by_cases hkm : k = -1
          · rw [if_pos hkm]; constructor <;> intro _ <;> omega
          · rw [if_neg hkm]; constructor <;> intro _ <;> omega
    have hc' : (pass m cfg avg samples it st).1.curve.length = it := by rw [pass_curve, hc]
    unfold loop
    simp only
    split
    · simp only [List.length_append, List.length_singleton, hc']
      exact hpass
    · exact ih (it + 1) _ (by simp [hc']) hpass

/-- **C53, batch.** The same for batch training, with one observation per epoch; averaging over the last
epoch is then no averaging at all. -/
theorem C53_batch_partial (m : SModel X Y) (o o' : Obj) (samples : List (X × Y))
    (hba : o.cfg.batch = true) (hfit : Perceptron.fit m o samples = .ok o') :
    (o.average = .off → o'.w = batchOf m o.cfg.lr samples o'.lossCurve.length) ∧
    (∀ k : ℕ, (o.average = .after k ∨ (o.average = .on ∧ k = 0)) → k < o'.lossCurve.length → ∀ j,
      o'.w j = (∑ e ∈ Ico k o'.lossCurve.length, batchOf m o.cfg.lr samples (e + 1) j) /
        ((o'.lossCurve.length - k : ℕ) : ℚ)) ∧
    (o.average = .after (-1) → 0 < o'.lossCurve.length → ∀ j,
      o'.w j = batchOf m o.cfg.lr samples o'.lossCurve.length j) := by
  unfold Perceptron.fit at hfit
  cases hna : normAverage o.average with
  | error err => rw [hna] at hfit; cases hfit
  | ok avg =>
  rw [hna] at hfit
  simp only at hfit
  injection hfit with hfit
  have hinv : BatchInv m o.cfg.lr samples avg
      (offset avg 1 (train m o.cfg avg samples).curve.length)
      (train m o.cfg avg samples).curve.length (train m o.cfg avg samples) := by
    apply batchLoop_inv m o.cfg hba avg (normAverage_ge hna)
    · rfl
    · refine ⟨rfl, fun _ => ⟨?_, fun j => ?_, fun _ _ => rfl⟩⟩
      · simp [start]
      · simp [start]
  obtain ⟨i1, i3⟩ := hinv
  subst hfit
  simp only
  generalize (train m o.cfg avg samples).curve.length = E at i1 i3 ⊢
  have mean : ∀ b : ℕ, b < E → avg ≠ none → offset avg 1 E = b → ∀ j,
      (if avg = none then (train m o.cfg avg samples).w else (train m o.cfg avg samples).wbar) j =
      (∑ t ∈ Ico b E, batchOf m o.cfg.lr samples (t + 1) j) / ((E - b : ℕ) : ℚ) := by
    intro b hbt hne hoff j
    obtain ⟨_, h2, _⟩ := i3 hne
    rw [if_neg hne, hoff] at *
    rw [← h2 j, mul_div_cancel_left₀]
    have : 0 < E - b := by omega
    exact_mod_cast this.ne'
  refine ⟨?_, ?_, ?_⟩
  · intro ha
    rw [ha] at hna
    simp only [normAverage] at hna
    injection hna with hna
    subst hna
    exact i1
  · intro k ha hk j
    have : avg = some (k : ℤ) := by
      rcases ha with ha | ⟨ha, hk0⟩
      · rw [ha] at hna
        simp only [normAverage] at hna
        rw [if_neg (by omega)] at hna
        injection hna with hna; exact hna.symm
      · rw [ha] at hna
        simp only [normAverage] at hna
        injection hna with hna; rw [← hna, hk0]; rfl
    subst this
    exact mean k hk (by simp) (by simp [offset]) j
  · intro ha hE j
    have : avg = some (-1) := by
      rw [ha] at hna
      simp only [normAverage] at hna
      rw [if_neg (by omega)] at hna
      injection hna with hna; exact hna.symm
    subst this
    rw [mean (E - 1) (by omega) (by simp) (by simp [offset]) j, show E - (E - 1) = 1 by omega]
    have : Ico (E - 1) E = {E - 1} := by
      ext i; simp only [mem_Ico, mem_singleton]; omega
    rw [this, sum_singleton, Nat.cast_one, div_one, show E - 1 + 1 = E by omega]

/-- **C53 does not hold after an early stop.** If training ends before epoch `k` is reached, averaging from
epoch `k` gives the zero vector whatever was learned. -/
theorem C53_violated_early_stop (m : SModel X Y) (o o' : Obj) (samples : List (X × Y)) (k : ℕ)
    (ha : o.average = .after k) (hfit : Perceptron.fit m o samples = .ok o')
    (hE : o'.lossCurve.length ≤ k) : ∀ j, o'.w j = 0 := by
  unfold Perceptron.fit at hfit
  have hna : normAverage o.average = .ok (some (k : ℤ)) := by
    rw [ha]; simp only [normAverage]; rw [if_neg (by omega)]
  rw [hna] at hfit
  simp only at hfit
  injection hfit with hfit
  subst hfit
  simp only at hE
  intro j
  have hne : (some (k : ℤ)) ≠ none := by simp
  simp only [if_neg hne]
  by_cases hb : o.cfg.batch = true
  · have hinv := batchLoop_inv m o.cfg hb (some (k : ℤ)) (normAverage_ge hna) samples
      (samples.map fun s => m.maxLoss s.2).sum o.cfg.maxIter 0 start rfl
      ⟨rfl, fun _ => ⟨by simp [start], fun j => by simp [start], fun _ _ => rfl⟩⟩
    refine (hinv.2 hne).2.2 ?_ j
    simp only [offset]
    rw [if_neg (by omega), one_mul]
    exact hE
  · have hinv := train_online m o.cfg (by simpa using hb) (some (k : ℤ)) (normAverage_ge hna) samples
    refine (hinv.2.2 hne).2.2 ?_ j
    simp only [offset]
    rw [if_neg (by omega)]
    exact Nat.mul_le_mul_left _ hE

/-- **C51, perceptron.** What `fit` computes does not depend on the attributes left behind by earlier
training: a learner that was fitted before learns exactly what a fresh one learns. -/
theorem C51_perceptron (m m' : SModel X Y) (o o' : Obj) (samples samples' : List (X × Y))
    (hfit : Perceptron.fit m' o samples' = .ok o') :
    Perceptron.fit m o' samples = Perceptron.fit m o samples := by
  unfold Perceptron.fit at hfit ⊢
  cases hna : normAverage o.average with
  | error err => rw [hna] at hfit; cases hfit
  | ok avg =>
  rw [hna] at hfit
  simp only at hfit
  injection hfit with hfit
  subst hfit
  have hge := normAverage_ge hna
  cases avg with
  | none => simp [normAverage]
  | some k =>
    have := hge k rfl
    simp only [normAverage]
    rw [if_neg (by omega)]

/-! ### non-vacuity -/

/-- A learner with `max_iter` 20, online, without decay. -/
def exampleObj (avg : Average) : Obj := ⟨⟨20, false, fun _ => 1⟩, avg, fun _ => 0, []⟩

/-- the hypotheses of C52 hold for `exampleClf` on `exampleSamples`, with the weights that put class 0 on
the first feature and class 2 on the second, margin 1 and radius 8; the bound is 16. -/
example : ∃ u : ℕ → ℚ,
    (perceptronProblem (multiClassModel exampleClf) (classes 3)).ExactInference
      (multiClassModel exampleClf).inference ∧
    Separates (perceptronProblem (multiClassModel exampleClf) (classes 3)) u 1 exampleSamples ∧
    Radius (perceptronProblem (multiClassModel exampleClf) (classes 3)) 8 exampleSamples ∧
    (∀ s ∈ exampleSamples, s.2 ∈ classes 3 s.1) ∧
    8 * (∑ k ∈ range (multiClassModel exampleClf).dim, u k ^ 2) / 1 ^ 2 < (20 : ℚ) := by
  refine ⟨fun k => if k = 0 ∨ k = 5 then 1 else 0,
    (multiClass_exact exampleClf rfl (fun _ _ => zero_le_one) true).2, ?_, ?_, ?_, by decide +kernel⟩
  · have : ∀ s ∈ exampleSamples, ∀ ŷ < 3,
      (perceptronProblem (multiClassModel exampleClf) (classes 3)).loss s.2 ŷ ≠ 0 →
      1 ≤ (perceptronProblem (multiClassModel exampleClf) (classes 3)).value
          (fun k => if k = 0 ∨ k = 5 then 1 else 0) s.1 s.2 s.2 -
        (perceptronProblem (multiClassModel exampleClf) (classes 3)).value
          (fun k => if k = 0 ∨ k = 5 then 1 else 0) s.1 s.2 ŷ := by decide +kernel
    exact this
  · have : ∀ s ∈ exampleSamples, ∀ ŷ < 3,
      (perceptronProblem (multiClassModel exampleClf) (classes 3)).loss s.2 ŷ ≠ 0 →
      ∑ k ∈ range (perceptronProblem (multiClassModel exampleClf) (classes 3)).dim,
        ((perceptronProblem (multiClassModel exampleClf) (classes 3)).feat s.1 s.2 s.2 k -
          (perceptronProblem (multiClassModel exampleClf) (classes 3)).feat s.1 ŷ s.2 k) ^ 2 ≤ 8 := by
      decide +kernel
    exact this
  · have : ∀ s ∈ exampleSamples, s.2 < 3 := by decide
    exact this

/-- training `exampleClf` really makes a mistake, stops after two epochs with loss zero and leaves
non-zero weights; with averaging from epoch 2 the learned weights are zero and mispredict. -/
example :
    (Perceptron.fit (multiClassModel exampleClf) (exampleObj .off) exampleSamples).toOption.map
      (fun o => (o.lossCurve, (List.range 6).map o.w)) =
        some ([some (1 / 2), some 0], [0, -2, 0, 0, 0, 2]) ∧
    (Perceptron.fit (multiClassModel exampleClf) (exampleObj .on) exampleSamples).toOption.map
      (fun o => (o.lossCurve, (List.range 6).map o.w)) =
        some ([some (1 / 2), some 0], [0, -3 / 2, 0, 0, 0, 3 / 2]) ∧
    (Perceptron.fit (multiClassModel exampleClf) (exampleObj (.after 2)) exampleSamples).toOption.map
      (fun o => (o.lossCurve, (List.range 6).map o.w,
        (multiClassModel exampleClf).inference (fun k => if k = 1 then 2 else 0) o.w)) =
        some ([some (1 / 2), some 0], [0, 0, 0, 0, 0, 0], 0) := by decide +kernel

end Verif.Props
