import Verif.Props.C50
import Verif.Props.C58

/-!
# C120: when the subgradient learners return

and the part of C83 that holds.
-/

namespace Verif.Props

open Finset Verif.Spec Verif.Learner

variable {X Y H : Type}

/-- The combinations of `n_jobs` and `batch_size` that `SubgradientSSVM` accepts: with one job, no batches, batches of
one sample, or - for a model that does not rescale `C` - batches of a positive size or one batch (-1); with several
jobs, no `batch_size`. -/
def LegalJobs (cfg : Subgradient.Config) (rescale : Bool) : Prop :=
  (cfg.nJobs = 1 ∧ (cfg.batchSize = none ∨ cfg.batchSize = some 1 ∨
    ∃ b, cfg.batchSize = some b ∧ (b = -1 ∨ 0 < b) ∧ rescale = false)) ∨
  (1 < cfg.nJobs ∧ cfg.batchSize = none)

theorem ok_exists {α : Type} (a : α) : (∃ r, (Except.ok a : Except PyErr α) = .ok r) ↔ True :=
  ⟨fun _ => trivial, fun _ => ⟨a, rfl⟩⟩

theorem error_exists {α : Type} (e : PyErr) : (∃ r, (Except.error e : Except PyErr α) = .ok r) ↔ False :=
  ⟨fun ⟨_, h⟩ => (by cases h), fun h => h.elim⟩

theorem miniBatches_returns {α : Type} {data : List α} (hne : data ≠ []) (b : ℤ) :
    (∃ bs, Subgradient.miniBatches data b = .ok bs ∧ bs ≠ []) ∧ (b = -1 ∨ 0 < b) ∨
      (∃ e, Subgradient.miniBatches data b = .error e) ∧ ¬(b = -1 ∨ 0 < b) := by
  unfold Subgradient.miniBatches
  by_cases h1 : b = -1
  · rw [if_pos h1]
    exact .inl ⟨⟨_, rfl, by simp⟩, .inl h1⟩
  rw [if_neg h1]
  by_cases h0 : b = 0
  · rw [if_pos h0]
    exact .inr ⟨⟨_, rfl⟩, by omega⟩
  rw [if_neg h0]
  obtain ⟨k1, k2⟩ := even_slices b data
  cases hs : Subgradient.evenSlices data.length (Subgradient.ceilDiv data.length b) with
  | ok sl =>
    obtain ⟨h, hf, -⟩ := k1 sl hs
    refine .inl ⟨⟨_, rfl, fun h0 => hne ?_⟩, .inr h⟩
    rw [← hf, h0]
    rfl
  | error e =>
    refine .inr ⟨⟨e, rfl⟩, ?_⟩
    rintro (h | h)
    · exact h1 h
    · obtain ⟨sl, hsl⟩ := k2.mpr ⟨hne, h⟩
      rw [hs] at hsl
      cases hsl

theorem learn_returns (m : SModel X Y) (cfg : Subgradient.Config) (lr : ℚ) {data : List (X × Y)} (hne : data ≠ [])
    (st : Subgradient.St) :
    (∃ r, Subgradient.learn m cfg lr data st = .ok r) ↔ LegalJobs cfg m.rescaleC := by
  unfold Subgradient.learn LegalJobs
  by_cases hj : cfg.nJobs = 1
  · rw [if_pos hj]
    unfold Subgradient.sequentialLearning
    cases hb : cfg.batchSize with
    | none => simp [hj]
    | some b =>
      simp only
      by_cases h1 : b = 1
      · rw [if_pos h1, ok_exists, h1]
        simp [hj]
      · rw [if_neg h1]
        rcases miniBatches_returns hne b with ⟨⟨bs, hbs, hbne⟩, hl⟩ | ⟨⟨e, he⟩, hl⟩
        · rw [hbs]
          simp only
          cases hr : m.rescaleC with
          | true =>
            rw [if_pos ⟨rfl, hbne⟩, error_exists]
            simp [hj, h1]
          | false =>
            rw [if_neg (by simp), ok_exists]
            simp [hj, hl]
        · rw [he]
          simp only
          rw [error_exists]
          simp [hj, h1]
          intro h
          exact absurd h hl
  · rw [if_neg hj]
    unfold Subgradient.parallelLearning
    by_cases hb : cfg.batchSize = none
    · rw [if_neg (by simp [hb])]
      by_cases h0 : cfg.nJobs = 0
      · rw [if_pos h0, error_exists]
        simp [h0]
      · rw [if_neg h0]
        obtain ⟨sl, hsl⟩ := (even_slices (cfg.nJobs : ℤ) data).2.mpr ⟨hne, by omega⟩
        rw [hsl]
        simp only
        rw [ok_exists]
        exact ⟨fun _ => .inr ⟨by omega, hb⟩, fun _ => trivial⟩
    · rw [if_pos hb, error_exists]
      simp [hj, hb]

/-- the loop returns, with data that is not empty. -/
theorem subgradient_loop_returns (m : SModel X Y) (cfg : Subgradient.Config) (lr : ℚ) (order : ℕ → List (X × Y))
    (hord : cfg.shuffle = true → ∀ it, order it ≠ []) (fuel it : ℕ) (data : List (X × Y)) (hne : data ≠ [])
    (st : Subgradient.St) (c : Subgradient.Curves) :
    (∃ data' st' c', Subgradient.loop m cfg lr order fuel it data st c = .ok (data', st', c') ∧ data' ≠ []) ∧
        (fuel = 0 ∨ LegalJobs cfg m.rescaleC) ∨
      (∃ e, Subgradient.loop m cfg lr order fuel it data st c = .error e) ∧ ¬(fuel = 0 ∨ LegalJobs cfg m.rescaleC) := by
  induction fuel generalizing it data st c with
  | zero => exact .inl ⟨⟨data, st, c, rfl, hne⟩, .inl rfl⟩
  | succ fuel ih =>
    have hd : (if cfg.shuffle then order it else data) ≠ [] := by
      split
      · exact hord ‹_› it
      · exact hne
    unfold Subgradient.loop
    simp only
    generalize (if cfg.shuffle then order it else data) = d at hd ⊢
    have hl := learn_returns m cfg lr hd st
    cases hr : Subgradient.learn m cfg lr d st with
    | error e =>
      rw [hr, error_exists] at hl
      simp only
      exact .inr ⟨⟨e, rfl⟩, by simpa using fun h => hl.mpr h⟩
    | ok r =>
      rw [hr, ok_exists] at hl
      have hl := hl.mp trivial
      obtain ⟨st1, p⟩ := r
      simp only
      by_cases hp : p = 0 ∧ cfg.breakOnNoConstraints = true
      · rw [if_pos hp]
        exact .inl ⟨⟨d, st1, c, rfl, hd⟩, .inr hl⟩
      · rw [if_neg hp, objectivePrimal_ok m st1.selfW d cfg.C true hd]
        simp only
        rcases ih (it + 1) d hd st1 _ with ⟨h, -⟩ | ⟨-, h⟩
        · exact .inl ⟨h, .inr hl⟩
        · exact absurd (.inr hl) h

theorem setup_returns (o : Subgradient.Obj) (n : ℕ) (warm : Bool) :
    (∃ lr curve, Subgradient.setup o n warm = .ok (lr, curve)) ∧ (warm = true → o.lr ≠ none) ∨
      Subgradient.setup o n warm = .error .attributeError ∧ warm = true ∧ o.lr = none := by
  unfold Subgradient.setup
  cases warm with
  | false => exact .inl ⟨⟨_, _, rfl⟩, by simp⟩
  | true =>
    rw [if_pos rfl]
    cases h : o.lr with
    | none => exact .inr ⟨rfl, rfl, rfl⟩
    | some lr => exact .inl ⟨⟨_, _, rfl⟩, by simp⟩

/-- **C120, `SubgradientSSVM`.** On data that is not empty, `fit` returns if and only if `n_jobs` and `batch_size` are
one of the legal combinations (or there is no iteration to do) and, for a warm start, the learner was fitted before. The
learner that is returned was fitted. -/
theorem C120_subgradient (m : SModel X Y) (order : ℕ → List (X × Y)) (o : Subgradient.Obj) (samples : List (X × Y))
    (hne : samples ≠ []) (hord : o.cfg.shuffle = true → ∀ it, (order it).Perm samples) (warm : Bool) :
    (∃ o', Subgradient.fit m order o samples warm = .ok o') ↔
      (o.cfg.maxIter = 0 ∨ LegalJobs o.cfg m.rescaleC) ∧ (warm = true → o.lr ≠ none) := by
  have hord' : o.cfg.shuffle = true → ∀ it, order it ≠ [] := by
    intro hs it h0
    have := hord hs it
    rw [h0] at this
    exact hne this.nil_eq.symm
  unfold Subgradient.fit
  simp only
  rcases setup_returns o samples.length warm with ⟨⟨lr, curve, hs⟩, hw⟩ | ⟨hs, hw, hn⟩
  · rw [hs]
    simp only
    rcases subgradient_loop_returns m o.cfg lr order hord' o.cfg.maxIter 0 samples hne
        ⟨o.w.getD fun _ => 0, fun _ => 0, o.w.getD fun _ => 0, o.t⟩ ⟨curve, o.curves.loss⟩ with
      ⟨⟨d, st, c, hl, hd⟩, hk⟩ | ⟨⟨e, hl⟩, hk⟩
    · rw [hl]
      simp only
      rw [objectivePrimal_ok m st.selfW d o.cfg.C true hd]
      simp only
      rw [ok_exists]
      exact ⟨fun _ => ⟨hk, hw⟩, fun _ => trivial⟩
    · rw [hl]
      simp only
      rw [error_exists]
      exact ⟨fun h => h.elim, fun h => hk h.1⟩
  · rw [hs]
    simp only
    rw [error_exists]
    exact ⟨fun h => h.elim, fun h => h.2 hw hn⟩

/-- Without samples `fit` never returns. -/
theorem C120_subgradient_empty (m : SModel X Y) (order : ℕ → List (X × Y)) (o : Subgradient.Obj)
    (hord : o.cfg.shuffle = true → ∀ it, order it = []) (warm : Bool) (o' : Subgradient.Obj) :
    Subgradient.fit m order o [] warm ≠ .ok o' := by
  have key : ∀ (lr : ℚ) (fuel it : ℕ) (st : Subgradient.St) (c : Subgradient.Curves) r,
      Subgradient.loop m o.cfg lr order fuel it [] st c = .ok r → r.1 = [] := by
    intro lr fuel
    induction fuel with
    | zero =>
      intro it st c r h
      simp only [Subgradient.loop, Except.ok.injEq] at h
      rw [← h]
    | succ fuel ih =>
      intro it st c r h
      unfold Subgradient.loop at h
      simp only at h
      have hd : (if o.cfg.shuffle then order it else ([] : List (X × Y))) = [] := by
        split
        · exact hord ‹_› it
        · rfl
      rw [hd] at h
      cases hr : Subgradient.learn m o.cfg lr [] st with
      | error e => rw [hr] at h; cases h
      | ok q =>
        rw [hr] at h
        obtain ⟨st1, p⟩ := q
        simp only at h
        by_cases hp : p = 0 ∧ o.cfg.breakOnNoConstraints = true
        · rw [if_pos hp, Except.ok.injEq] at h
          rw [← h]
        · rw [if_neg hp] at h
          simp only [objectivePrimal, List.isEmpty_nil, if_true] at h
          cases h
  intro h
  unfold Subgradient.fit at h
  simp only at h
  rcases setup_returns o ([] : List (X × Y)).length warm with ⟨⟨lr, curve, hs⟩, -⟩ | ⟨hs, -⟩
  · rw [hs] at h
    simp only at h
    cases hl : Subgradient.loop m o.cfg lr order o.cfg.maxIter 0 []
        ⟨o.w.getD fun _ => 0, fun _ => 0, o.w.getD fun _ => 0, o.t⟩ ⟨curve, o.curves.loss⟩ with
    | error e => rw [hl] at h; cases h
    | ok r =>
      have hr := key _ _ _ _ _ _ hl
      rw [hl] at h
      obtain ⟨d, st, c⟩ := r
      simp only at hr h
      rw [hr] at h
      simp only [objectivePrimal, List.isEmpty_nil, if_true] at h
      cases h
  · rw [hs] at h
    cases h

/-! ### `SubgradientLatentSSVM` -/

/-- What the model assumes of `n_jobs`: a processor count is positive. -/
def WorkingJobs : SubgradientLatent.Jobs → Prop
  | .one => True
  | .allCpus n => 0 < n
  | .other => False

theorem pass_returns (L : SubgradientLatent.SLModel X Y H) (cfg : Subgradient.Config) (jobs : SubgradientLatent.Jobs)
    (lr : ℚ) {data : List (X × Y)} (hne : data ≠ []) (st : Subgradient.St) :
    (∃ r, SubgradientLatent.pass L cfg jobs lr data st = .ok r) ↔ WorkingJobs jobs := by
  unfold SubgradientLatent.pass WorkingJobs
  cases jobs with
  | one => simp
  | other => simp
  | allCpus n =>
    simp only
    by_cases h0 : n = 0
    · rw [if_pos h0, error_exists]
      simp [h0]
    · rw [if_neg h0]
      obtain ⟨sl, hsl⟩ := (even_slices (n : ℤ) data).2.mpr ⟨hne, by omega⟩
      rw [hsl]
      simp only
      rw [ok_exists]
      exact ⟨fun _ => by omega, fun _ => trivial⟩

theorem latent_loop_returns (L : SubgradientLatent.SLModel X Y H) (cfg : Subgradient.Config)
    (jobs : SubgradientLatent.Jobs) (lr : ℚ) {data : List (X × Y)} (hne : data ≠ []) (fuel it : ℕ)
    (st : Subgradient.St) (c : Subgradient.Curves) :
    (∃ r, SubgradientLatent.loop L cfg jobs lr data fuel it st c = .ok r) ↔ fuel = 0 ∨ WorkingJobs jobs := by
  induction fuel generalizing it st c with
  | zero => simp [SubgradientLatent.loop]
  | succ fuel ih =>
    have hl := pass_returns L cfg jobs lr hne st
    unfold SubgradientLatent.loop
    cases hr : SubgradientLatent.pass L cfg jobs lr data st with
    | error e =>
      rw [hr, error_exists] at hl
      simp only
      rw [error_exists]
      simpa using fun h => hl.mpr h
    | ok r =>
      rw [hr, ok_exists] at hl
      have hl := hl.mp trivial
      obtain ⟨st1, p, ob⟩ := r
      simp only
      by_cases hp : p = 0 ∧ cfg.breakOnNoConstraints = true
      · rw [if_pos hp, ok_exists]
        simp [hl]
      · rw [if_neg hp, ih]
        simp [hl]

/-- **C120, `SubgradientLatentSSVM`; also the part of C83 that holds.** On data that is not empty, `fit` returns if
and only if `n_jobs` is 1 or -1 (or there is no iteration to do) and, for a warm start, the learner was fitted
before. -/
theorem C120_subgradient_latent (L : SubgradientLatent.SLModel X Y H) (jobs : SubgradientLatent.Jobs) (w0 : W)
    (o : Subgradient.Obj) (samples : List (X × Y)) (hne : samples ≠ []) (warm : Bool) :
    (∃ o', SubgradientLatent.fit L jobs w0 o samples warm = .ok o') ↔
      (o.cfg.maxIter = 0 ∨ WorkingJobs jobs) ∧ (warm = true → o.lr ≠ none) := by
  unfold SubgradientLatent.fit
  rcases setup_returns o samples.length warm with ⟨⟨lr, curve, hs⟩, hw⟩ | ⟨hs, hw, hn⟩
  · rw [hs]
    simp only
    have hl := latent_loop_returns L o.cfg jobs lr hne o.cfg.maxIter 0
      ⟨o.w.getD w0, fun _ => 0, o.w.getD w0, o.t⟩ ⟨curve, o.curves.loss⟩
    cases hr : SubgradientLatent.loop L o.cfg jobs lr samples o.cfg.maxIter 0
      ⟨o.w.getD w0, fun _ => 0, o.w.getD w0, o.t⟩ ⟨curve, o.curves.loss⟩ with
    | error e =>
      rw [hr, error_exists] at hl
      simp only
      rw [error_exists]
      exact ⟨fun h => h.elim, fun h => hl.mpr h.1⟩
    | ok r =>
      rw [hr, ok_exists] at hl
      obtain ⟨st, c⟩ := r
      simp only [SubgradientLatent.objective]
      rw [if_neg (by cases samples <;> simp_all)]
      simp only
      rw [ok_exists]
      exact ⟨fun _ => ⟨hl.mp trivial, hw⟩, fun _ => trivial⟩
  · rw [hs]
    simp only
    rw [error_exists]
    exact ⟨fun h => h.elim, fun h => h.2 hw hn⟩

/-- Illegal: two jobs and a batch size; legal: one job and batches of two samples, unless the model rescales `C`. -/
example (cfg : Subgradient.Config) : ¬LegalJobs { cfg with nJobs := 2, batchSize := some 3 } false ∧
    LegalJobs { cfg with nJobs := 1, batchSize := some 2 } false ∧
    ¬LegalJobs { cfg with nJobs := 1, batchSize := some 2 } true ∧
    LegalJobs { cfg with nJobs := 3, batchSize := none } true := by
  simp [LegalJobs]

end Verif.Props
