import Verif.Props.C142
import Verif.Props.C58

/-!
# C144: interrupting the training of `SubgradientLatentSSVM`
-/

namespace Verif.Props

open Finset Verif.Spec Verif.Learner Verif.LatentSSVM Verif.SubgradientLatent Verif.Interrupt

variable {X Y H : Type}

/-- the steps of a part of a pass. -/
theorem latSteps_blocks (L : SLModel X Y H) (cfg : Subgradient.Config) (jobs : Jobs) (lr : ℚ) (samples : List (X × Y))
    (j : ℕ) (st st' : Subgradient.St) (h : latSteps L cfg jobs lr samples j st = .ok st') :
    ∃ bs, LatentPass jobs samples bs ∧ st' = (bs.take j).foldl (latentBlockStep L.toLModel cfg lr samples.length) st := by
  unfold latSteps at h
  cases jobs with
  | other => cases h
  | one =>
    simp only [Except.ok.injEq] at h
    refine ⟨samples.map fun s => [s], ⟨flatten_singletons samples, ?_, ?_, fun n h => by cases h⟩, ?_⟩
    · intro b hb
      obtain ⟨s, -, rfl⟩ := List.mem_map.mp hb
      simp
    · intro _ b hb
      obtain ⟨s, -, rfl⟩ := List.mem_map.mp hb
      rfl
    · rw [← List.map_take, List.foldl_map]
      have := foldl_fst (SubgradientLatent.onlineStep L cfg lr samples.length)
        (fun st s => latentBlockStep L.toLModel cfg lr samples.length st [s]) (samples.take j) (fun p s _ => by
          rw [latentBlockStep_eq]
          unfold SubgradientLatent.onlineStep
          simp only
          congr 1
          funext k
          simp) (st, 0, 0)
      rw [h] at this
      exact this
  | allCpus n =>
    simp only at h
    split_ifs at h with hn
    cases hs : Subgradient.evenSlices samples.length (Subgradient.ceilDiv samples.length n) with
    | error err => rw [hs] at h; cases h
    | ok sl =>
      rw [hs] at h
      simp only [Except.ok.injEq] at h
      obtain ⟨-, h2, h3, -⟩ := (even_slices (n : ℤ) samples).1 sl hs
      refine ⟨Subgradient.cut samples sl, ⟨h2, fun b hb => (h3 b hb).1, (fun h => by cases h), ?_⟩, ?_⟩
      · rintro k hk b hb
        cases hk
        exact_mod_cast (h3 b hb).2
      · have := foldl_fst (SubgradientLatent.parallelStep L cfg lr samples.length)
          (latentBlockStep L.toLModel cfg lr samples.length) ((Subgradient.cut samples sl).take j) (fun p b _ => by
            rw [latentBlockStep_eq]
            unfold SubgradientLatent.parallelStep
            simp only
            congr 1
            funext k
            rw [List.map_map]
            rfl) (st, 0, 0)
        rw [h] at this
        exact this

/-- where the loop stands when the interrupt in iteration `stop` has been caught: `st`, `c` are from the end of the last
complete iteration. -/
def LatStopped (L : SLModel X Y H) (cfg : Subgradient.Config) (jobs : Jobs) (lr : ℚ) (samples : List (X × Y))
    (place : Place) (st : Subgradient.St) (c : Subgradient.Curves) (r : Left Unit) : Prop :=
  r.curves.loss = c.loss ∧
  (∀ j, place = .step j → latSteps L cfg jobs lr samples j st = .ok r.st ∧ r.curves.objective = c.objective) ∧
  (place = .loss → ∃ pos obj, SubgradientLatent.pass L cfg jobs lr samples st = .ok (r.st, pos, obj) ∧
    ∃ e, r.curves.objective = c.objective ++ [e]) ∧
  place ≠ .objective

theorem latLoop_eq (L : SLModel X Y H) (cfg : Subgradient.Config) (jobs : Jobs) (lr : ℚ) (samples : List (X × Y))
    (stop : ℕ) (place : Place) :
    ∀ n it st c k r, it ≤ stop → latLoop L cfg jobs lr samples (onlyAt stop place) n it st c k = .ok r →
      (r.hit = false → SubgradientLatent.loop L cfg jobs lr samples n it st c = .ok (r.st, r.curves)) ∧
      (r.hit = true → r.stamps = k + (stop - it) + 1 ∧
        ∃ st1 c1, SubgradientLatent.loop L cfg jobs lr samples (stop - it) it st c = .ok (st1, c1) ∧
        c1.objective.length = c.objective.length + (stop - it) ∧ stop < it + n ∧
        LatStopped L cfg jobs lr samples place st1 c1 r) := by
  intro n
  induction n with
  | zero =>
    intro it st c k r _ h
    simp only [latLoop, Except.ok.injEq] at h
    subst h
    exact ⟨fun _ => rfl, fun h => by cases h⟩
  | succ n ih =>
    intro it st c k r hit h
    unfold latLoop at h
    by_cases he : it = stop
    · subst he
      have hi : onlyAt it place it = some place := by simp [onlyAt]
      rw [hi] at h
      have hzero : SubgradientLatent.loop L cfg jobs lr samples 0 it st c = .ok (st, c) := rfl
      rw [Nat.sub_self]
      have late : ∀ (q : Subgradient.St × ℤ × ℚ), SubgradientLatent.pass L cfg jobs lr samples st = .ok q →
          q.2.1 = 0 ∧ cfg.breakOnNoConstraints = true → r = ⟨(), q.1, c, k + 1, false⟩ →
          (r.hit = false → SubgradientLatent.loop L cfg jobs lr samples (n + 1) it st c = .ok (r.st, r.curves)) := by
        intro q hq hbr hr _
        unfold SubgradientLatent.loop
        rw [hq]
        simp only
        rw [if_pos hbr, hr]
      cases place with
      | step j =>
        simp only [inSteps] at h
        cases hs : latSteps L cfg jobs lr samples j st with
        | error err => rw [hs] at h; cases h
        | ok st' =>
          rw [hs] at h
          simp only [Except.ok.injEq] at h
          subst h
          refine ⟨fun h => (by cases h), fun _ => ⟨rfl, st, c, hzero, rfl, by omega, rfl, ?_, ?_, ?_⟩⟩
          · intro j' hj'
            cases hj'
            exact ⟨hs, rfl⟩
          · intro h; cases h
          · intro h; cases h
      | objective =>
        simp only [inSteps] at h
        cases hs : SubgradientLatent.pass L cfg jobs lr samples st with
        | error err => rw [hs] at h; cases h
        | ok q =>
          obtain ⟨st', pos, obj⟩ := q
          rw [hs] at h
          simp only at h
          by_cases hbr : pos = 0 ∧ cfg.breakOnNoConstraints = true
          · rw [if_pos hbr] at h
            simp only [Except.ok.injEq] at h
            refine ⟨late _ hs hbr h.symm, fun hh => ?_⟩
            rw [← h] at hh; cases hh
          · rw [if_neg hbr] at h
            -- no inference is interrupted here; the rest of training is not interrupted at all
            have hno : ∀ n' it' st c k r, it < it' →
                latLoop L cfg jobs lr samples (onlyAt it .objective) n' it' st c k = .ok r →
                r.hit = false ∧ SubgradientLatent.loop L cfg jobs lr samples n' it' st c = .ok (r.st, r.curves) := by
              intro n'
              induction n' with
              | zero =>
                intro it' st c k r _ h
                simp only [latLoop, Except.ok.injEq] at h
                subst h
                exact ⟨rfl, rfl⟩
              | succ n' ih' =>
                intro it' st c k r hlt h
                unfold latLoop at h
                have hi' : onlyAt it .objective it' = none := by simp [onlyAt]; omega
                rw [hi'] at h
                simp only [inSteps] at h
                unfold SubgradientLatent.loop
                cases hs : SubgradientLatent.pass L cfg jobs lr samples st with
                | error err => rw [hs] at h; cases h
                | ok q =>
                  obtain ⟨st', pos, obj⟩ := q
                  rw [hs] at h
                  simp only at h ⊢
                  by_cases hbr : pos = 0 ∧ cfg.breakOnNoConstraints = true
                  · rw [if_pos hbr] at h ⊢
                    simp only [Except.ok.injEq] at h
                    subst h
                    exact ⟨rfl, rfl⟩
                  · rw [if_neg hbr] at h ⊢
                    exact ih' _ _ _ _ _ (by omega) h
            obtain ⟨g1, g2⟩ := hno _ _ _ _ _ _ (Nat.lt_succ_self it) h
            refine ⟨fun _ => ?_, fun hh => by rw [g1] at hh; cases hh⟩
            unfold SubgradientLatent.loop
            rw [hs]
            simp only
            rw [if_neg hbr]
            exact g2
      | loss =>
        simp only [inSteps] at h
        cases hs : SubgradientLatent.pass L cfg jobs lr samples st with
        | error err => rw [hs] at h; cases h
        | ok q =>
          obtain ⟨st', pos, obj⟩ := q
          rw [hs] at h
          simp only at h
          by_cases hbr : pos = 0 ∧ cfg.breakOnNoConstraints = true
          · rw [if_pos hbr] at h
            simp only [Except.ok.injEq] at h
            refine ⟨late _ hs hbr h.symm, fun hh => ?_⟩
            rw [← h] at hh; cases hh
          · rw [if_neg hbr] at h
            simp only [Except.ok.injEq] at h
            subst h
            refine ⟨fun h => (by cases h), fun _ => ⟨rfl, st, c, hzero, rfl, by omega, rfl, ?_, ?_, ?_⟩⟩
            · intro j' h; cases h
            · intro _; exact ⟨pos, obj, hs, _, rfl⟩
            · intro h; cases h
    · have hi : onlyAt stop place it = none := by simp [onlyAt, he]
      rw [hi] at h
      simp only [inSteps] at h
      have hsub : stop - it = (stop - (it + 1)) + 1 := by omega
      rw [hsub]
      unfold SubgradientLatent.loop
      cases hs : SubgradientLatent.pass L cfg jobs lr samples st with
      | error err => rw [hs] at h; cases h
      | ok q =>
        obtain ⟨st', pos, obj⟩ := q
        rw [hs] at h
        simp only at h ⊢
        by_cases hbr : pos = 0 ∧ cfg.breakOnNoConstraints = true
        · rw [if_pos hbr] at h ⊢
          rw [if_pos hbr]
          simp only [Except.ok.injEq] at h
          subst h
          exact ⟨fun _ => rfl, fun h => by cases h⟩
        · rw [if_neg hbr] at h ⊢
          rw [if_neg hbr]
          obtain ⟨i1, i2⟩ := ih (it + 1) _ _ _ r (by omega) h
          refine ⟨i1, fun hh => ?_⟩
          obtain ⟨e0, st1, c1, e1, e2, e3, e4⟩ := i2 hh
          refine ⟨by rw [e0]; omega, st1, c1, e1, ?_, by omega, e4⟩
          rw [e2]; simp only [List.length_append, List.length_singleton]; omega

/-- every iteration of a loop that is not left early makes a pass. -/
theorem latent_loop_full (L : SLModel X Y H) (cfg : Subgradient.Config) (jobs : Jobs) (lr : ℚ)
    (samples : List (X × Y)) (n it : ℕ) (st st' : Subgradient.St) (c c' : Subgradient.Curves)
    (h : SubgradientLatent.loop L cfg jobs lr samples n it st c = .ok (st', c'))
    (hlen : c'.objective.length = c.objective.length + n) :
    ∃ passes : List (List (List (X × Y))), passes.length = n ∧ (∀ p ∈ passes, LatentPass jobs samples p) ∧
      st' = passes.flatten.foldl (latentBlockStep L.toLModel cfg lr samples.length) st := by
  induction n generalizing it st c with
  | zero =>
    simp only [SubgradientLatent.loop, Except.ok.injEq, Prod.mk.injEq] at h
    exact ⟨[], rfl, by simp, h.1.symm⟩
  | succ n ih =>
    unfold SubgradientLatent.loop at h
    cases hp : SubgradientLatent.pass L cfg jobs lr samples st with
    | error err => rw [hp] at h; cases h
    | ok r =>
      obtain ⟨st1, pos, obj⟩ := r
      rw [hp] at h
      simp only at h
      obtain ⟨bs, hbs, hst⟩ := pass_ok L cfg jobs lr samples st st1 pos obj hp
      by_cases hb : pos = 0 ∧ cfg.breakOnNoConstraints = true
      · rw [if_pos hb] at h
        simp only [Except.ok.injEq, Prod.mk.injEq] at h
        rw [h.2] at hlen; omega
      · rw [if_neg hb] at h
        obtain ⟨passes, h1, h3, h4⟩ := ih _ _ _ h
          (by rw [hlen]; simp only [List.length_append, List.length_singleton]; omega)
        refine ⟨bs :: passes, by simpa using h1, ?_, ?_⟩
        · intro p hp
          rcases List.mem_cons.mp hp with rfl | hp
          · exact hbs
          · exact h3 p hp
        · rw [List.flatten_cons, List.foldl_append, ← hst]
          exact h4

/-- the parts of an interrupted training. -/
theorem latFit_hit {L : SLModel X Y H} {jobs : Jobs} {w0 : W} {stop : ℕ} {place : Place} {o : Subgradient.Obj}
    {samples : List (X × Y)} {warm : Bool} {r : Trained Subgradient.Obj}
    (h : latFit L jobs w0 (onlyAt stop place) o samples warm = .ok r) :
    ∃ lr curve l obj, Subgradient.setup o samples.length warm = .ok (lr, curve) ∧
      latLoop L o.cfg jobs lr samples (onlyAt stop place) o.cfg.maxIter 0
        ⟨o.w.getD w0, fun _ => 0, o.w.getD w0, o.t⟩ ⟨curve, o.curves.loss⟩ 0 = .ok l ∧
      SubgradientLatent.objective L o.cfg.C l.st.selfW samples = .ok obj ∧
      r = ⟨⟨o.cfg, some l.st.selfW, l.st.t, some lr, ⟨l.curves.objective ++ [obj], l.curves.loss⟩⟩, l.stamps + 1,
        l.hit⟩ := by
  unfold latFit at h
  cases hs : Subgradient.setup o samples.length warm with
  | error err => rw [hs] at h; cases h
  | ok q =>
    obtain ⟨lr, curve⟩ := q
    rw [hs] at h
    simp only at h
    cases hl : latLoop L o.cfg jobs lr samples (onlyAt stop place) o.cfg.maxIter 0
        ⟨o.w.getD w0, fun _ => 0, o.w.getD w0, o.t⟩ ⟨curve, o.curves.loss⟩ 0 with
    | error err => rw [hl] at h; cases h
    | ok l =>
      rw [hl] at h
      simp only at h
      cases ho : SubgradientLatent.objective L o.cfg.C l.st.selfW samples with
      | error err => rw [ho] at h; cases h
      | ok obj =>
        rw [ho] at h
        simp only [Except.ok.injEq] at h
        exact ⟨lr, curve, l, obj, rfl, hl, ho, h.symm⟩

/-- **C144, without interrupt.** If training ends before the interrupt, the result is that of `fit`. -/
theorem C144_no_interrupt (L : SLModel X Y H) (jobs : Jobs) (w0 : W) (stop : ℕ) (place : Place) (o : Subgradient.Obj)
    (samples : List (X × Y)) (warm : Bool) (r : Trained Subgradient.Obj)
    (h : latFit L jobs w0 (onlyAt stop place) o samples warm = .ok r) (hit : r.hit = false) :
    SubgradientLatent.fit L jobs w0 o samples warm = .ok r.obj := by
  obtain ⟨lr, curve, l, obj, hs, hl, ho, rfl⟩ := latFit_hit h
  unfold SubgradientLatent.fit
  rw [hs]
  simp only
  rw [(latLoop_eq L o.cfg jobs lr samples stop place _ _ _ _ _ _ (Nat.zero_le _) hl).1 hit]
  simp only
  rw [ho]

theorem latSteps_returns (L : SLModel X Y H) (cfg : Subgradient.Config) (jobs : Jobs) (lr : ℚ) {data : List (X × Y)}
    (hne : data ≠ []) (j : ℕ) (st : Subgradient.St) (hw : WorkingJobs jobs) :
    ∃ st', latSteps L cfg jobs lr data j st = .ok st' := by
  unfold latSteps
  cases jobs with
  | one => exact ⟨_, rfl⟩
  | other => exact hw.elim
  | allCpus n =>
    have h0 : n ≠ 0 := by
      have : 0 < n := hw
      omega
    simp only
    rw [if_neg h0]
    obtain ⟨sl, hsl⟩ := (even_slices (n : ℤ) data).2.mpr ⟨hne, by omega⟩
    rw [hsl]
    exact ⟨_, rfl⟩

theorem latLoop_returns (L : SLModel X Y H) (cfg : Subgradient.Config) (jobs : Jobs) (lr : ℚ) {data : List (X × Y)}
    (hne : data ≠ []) (intr : ℕ → Option Place) (hw : WorkingJobs jobs) :
    ∀ n it st c k, ∃ r, latLoop L cfg jobs lr data intr n it st c k = .ok r := by
  intro n
  induction n with
  | zero => intro it st c k; exact ⟨_, rfl⟩
  | succ n ih =>
    intro it st c k
    unfold latLoop
    cases hi : inSteps (intr it) with
    | some j =>
      obtain ⟨st', hs⟩ := latSteps_returns L cfg jobs lr hne j st hw
      simp only [hs]
      exact ⟨_, rfl⟩
    | none =>
      obtain ⟨⟨st1, p, ob⟩, hl⟩ := (pass_returns L cfg jobs lr hne st).mpr hw
      simp only [hl]
      by_cases hp : p = 0 ∧ cfg.breakOnNoConstraints = true
      · rw [if_pos hp]; exact ⟨_, rfl⟩
      · rw [if_neg hp]
        cases hp : intr it with
        | none => exact ih _ _ _ _
        | some pl =>
          cases pl with
          | step j => rw [hp] at hi; cases hi
          | objective => exact ih _ _ _ _
          | loss => exact ⟨_, rfl⟩

/-- **C144, an interrupted `fit` returns.** If `fit` returns when it is not interrupted, it returns however it is
interrupted. -/
theorem C144_returns (L : SLModel X Y H) (jobs : Jobs) (w0 : W) (intr : ℕ → Option Place) (o o' : Subgradient.Obj)
    (samples : List (X × Y)) (warm : Bool) (h : SubgradientLatent.fit L jobs w0 o samples warm = .ok o') :
    ∃ r, latFit L jobs w0 intr o samples warm = .ok r := by
  have hne : samples ≠ [] := by
    intro h0
    subst h0
    unfold SubgradientLatent.fit SubgradientLatent.objective at h
    split at h
    · cases h
    · simp only [List.isEmpty_nil, if_true] at h
      split at h <;> cases h
  obtain ⟨hj, hw⟩ := (C120_subgradient_latent L jobs w0 o samples hne warm).mp ⟨o', h⟩
  unfold latFit
  rcases setup_returns o samples.length warm with ⟨⟨lr, curve, hs⟩, -⟩ | ⟨-, hw', hn⟩
  · rw [hs]
    simp only
    have key : ∃ r, latLoop L o.cfg jobs lr samples intr o.cfg.maxIter 0
        ⟨o.w.getD w0, fun _ => 0, o.w.getD w0, o.t⟩ ⟨curve, o.curves.loss⟩ 0 = .ok r := by
      rcases hj with h0 | hj
      · rw [h0]; exact ⟨_, rfl⟩
      · exact latLoop_returns L o.cfg jobs lr hne intr hj _ _ _ _ _
    obtain ⟨r, hr⟩ := key
    rw [hr]
    simp only [SubgradientLatent.objective]
    rw [if_neg (by simpa using hne)]
    exact ⟨_, rfl⟩
  · exact absurd hn (hw hw')

/-! ### the weights -/

/-- **C144, an interrupted training is the descent of C81 up to the interrupt.** Let training be interrupted in
iteration `stop`, while step `j` is prepared or while the training loss is computed. Then `fit` returns the weights
after `stop` complete passes and the first `j` steps of the interrupted pass (all its steps for the later interrupt).
Each of these steps completes its block with the weights it starts from and goes along a negative subgradient of the
risk of the completed block. The weights are the last iterate without averaging, the weighted mean of all iterates with
linear or squared averaging for a learner that was not fitted before. -/
theorem C144_descent (L : SLModel X Y H) (outputs : X → Set H) (completions : X → Y → Set H)
    (hLA : (problemOf L.m outputs).ExactLossAug (fun x y w => L.m.lossAug x y w true)) (hr : L.m.rescaleC = false)
    (samples : List (X × Y)) (hne : samples ≠ [])
    (hlab : (problemOf L.m outputs).LabelOnly completions samples)
    (hlat : (problemOf L.m outputs).ExactCompletion completions L.latent samples)
    (jobs : Jobs) (w0 : W) (o : Subgradient.Obj) (hC : 0 < o.cfg.C) (warm : Bool) (stop : ℕ) (place : Place)
    (r : Trained Subgradient.Obj) (h : latFit L jobs w0 (onlyAt stop place) o samples warm = .ok r)
    (hit : r.hit = true) :
    ∃ (lr : ℚ) (passes : List (List (List (X × Y)))) (last bl : List (List (X × Y))) (done : List (List (X × H)))
      (ws : ℕ → W) (w : W),
      r.obj.lr = some lr ∧ (warm = false → lr = (o.cfg.learningRate.getD (o.cfg.C * samples.length))) ∧
      passes.length = stop ∧ (∀ p ∈ last :: passes, LatentPass jobs samples p) ∧
      (∀ j, place = .step j → bl = passes.flatten ++ last.take j) ∧
      (place = .loss → bl = passes.flatten ++ last) ∧ place ≠ .objective ∧
      ws 0 = o.w.getD w0 ∧ done.length = bl.length ∧
      (∀ t (ht : t < bl.length) (ht' : t < done.length),
        done[t] = completed bl[t] (fun s => L.latent s.1 s.2 (ws t)) ∧
        ∀ c : ℚ, 0 ≤ c →
          (∀ v, (problemOf L.m outputs).IsLatentObjective completions c bl[t] (ws t) v ↔
            (problemOf L.m outputs).IsObjective c done[t] (ws t) v) ∧
          ∀ w v, (problemOf L.m outputs).IsLatentObjective completions c bl[t] w v →
            ∃ u, (problemOf L.m outputs).IsObjective c done[t] w u ∧ v ≤ u) ∧
      (problemOf L.m outputs).IsDescent (fun b => o.cfg.C * samples.length * (1 / b.length)) o.cfg.momentum
        (fun t => lr / o.cfg.decay (o.t + t) / (o.cfg.C * samples.length)) done ws ∧
      r.obj.t = o.t + bl.length ∧ r.obj.w = some w ∧
      (o.cfg.averaging = .none → w = ws bl.length) ∧
      (o.cfg.averaging = .linear → o.t = 0 → 0 < bl.length → ∀ k, w k = weightedMean (fun j => j) ws bl.length k) ∧
      (o.cfg.averaging = .squared → o.t = 0 → 0 < bl.length →
        ∀ k, w k = weightedMean (fun j => (j : ℚ) ^ 2) ws bl.length k) ∧
      (bl.length = 0 → w = o.w.getD w0) := by
  obtain ⟨lr, curve, l, obj, hs, hl, ho, rfl⟩ := latFit_hit h
  have hlr : warm = false → lr = (o.cfg.learningRate.getD (o.cfg.C * samples.length)) := by
    intro hw
    unfold Subgradient.setup at hs
    subst hw
    rw [if_neg (by simp)] at hs
    simp only [Except.ok.injEq, Prod.mk.injEq] at hs
    exact hs.1.symm
  obtain ⟨-, st1, c1, e1, e2, e3, e4, e5, e6, e7⟩ :=
    (latLoop_eq L o.cfg jobs lr samples stop place _ _ _ _ _ _ (Nat.zero_le _) hl).2 hit
  rw [Nat.sub_zero] at e1 e2
  obtain ⟨passes, p1, p2, p3⟩ := latent_loop_full L o.cfg jobs lr samples _ _ _ _ _ _ e1 e2
  have key : ∃ last part, LatentPass jobs samples last ∧ (∀ j, place = .step j → part = last.take j) ∧
      (place = .loss → part = last) ∧ (∀ b ∈ part, b ∈ last) ∧
      l.st = part.foldl (latentBlockStep L.toLModel o.cfg lr samples.length) st1 := by
    cases place with
    | step j =>
      obtain ⟨a1, -⟩ := e5 j rfl
      obtain ⟨bs, b1, b2⟩ := latSteps_blocks L o.cfg jobs lr samples j st1 l.st a1
      exact ⟨bs, bs.take j, b1, (by intro j' hj; cases hj; rfl), (by intro h; cases h),
        fun b hb => List.mem_of_mem_take hb, b2⟩
    | objective => exact absurd rfl e7
    | loss =>
      obtain ⟨pos, ob, a1, -⟩ := e6 rfl
      obtain ⟨bs, b1, b2⟩ := pass_ok L o.cfg jobs lr samples st1 l.st pos ob a1
      exact ⟨bs, bs, b1, (by intro j' hj; cases hj), fun _ => rfl, fun b hb => hb, b2⟩
  obtain ⟨last, part, k1, k2, k3, k4, k5⟩ := key
  have hall : ∀ p ∈ last :: passes, LatentPass jobs samples p := by
    intro p hp
    rcases List.mem_cons.mp hp with rfl | hp
    · exact k1
    · exact p2 p hp
  obtain ⟨done, ws, d1, d2, d3, d4, d5, d6, d7, d8, d9⟩ := latent_blocks_descent L outputs completions hLA hr samples hne
    hlab hlat o.cfg hC lr (o.w.getD w0) o.t (passes.flatten ++ part) (by
      intro b hb
      have : ∃ p ∈ last :: passes, b ∈ p := by
        rcases List.mem_append.mp hb with hb | hb
        · obtain ⟨p, hp, hbp⟩ := List.mem_flatten.mp hb
          exact ⟨p, List.mem_cons_of_mem _ hp, hbp⟩
        · exact ⟨last, List.mem_cons_self, k4 b hb⟩
      obtain ⟨p, hp, hbp⟩ := this
      refine ⟨(hall p hp).nonempty b hbp, fun s hsb => ?_⟩
      rw [← (hall p hp).all]
      exact List.mem_flatten.mpr ⟨b, hbp, hsb⟩) l.st (by rw [k5, p3, List.foldl_append])
  exact ⟨lr, passes, last, passes.flatten ++ part, done, ws, l.st.selfW, rfl, hlr, p1, hall,
    fun j hj => by rw [k2 j hj], fun hj => by rw [k3 hj], e7, d1, d2, d3, d4, d5, rfl, d6, d7, d8, d9⟩

/-- **C144, the last entry of `objective_curve_`** after an interrupt is the latent objective of the returned weights, if
the loss of a label agrees with that of its completions (C82). -/
theorem C144_objective_partial (L : SLModel X Y H) (outputs : X → Set H) (completions : X → Y → Set H)
    (hLA : (problemOf L.m outputs).ExactLossAug (fun x y w => L.m.lossAug x y w true)) (hr : L.m.rescaleC = false)
    (samples : List (X × Y)) (hlab : (problemOf L.m outputs).LabelOnly completions samples)
    (hlat : (problemOf L.m outputs).ExactCompletion completions L.latent samples)
    (hloss : ∀ s ∈ samples, ∀ h ∈ completions s.1 s.2, ∀ g ∈ outputs s.1, L.lossLabel s.2 g = L.m.lossOf h g)
    (jobs : Jobs) (w0 : W) (o : Subgradient.Obj) (warm : Bool) (stop : ℕ) (place : Place)
    (r : Trained Subgradient.Obj) (h : latFit L jobs w0 (onlyAt stop place) o samples warm = .ok r) :
    ∃ w obj, r.obj.w = some w ∧ r.obj.curves.objective.getLast? = some obj ∧
      (problemOf L.m outputs).IsLatentObjective completions o.cfg.C samples w obj := by
  obtain ⟨lr, curve, l, obj, hs, hl, ho, rfl⟩ := latFit_hit h
  exact ⟨_, obj, rfl, by simp,
    C82_objective_partial L outputs completions hLA hr samples hlab hlat hloss o.cfg.C _ obj ho⟩

/-- **C144, curves.** After an interrupt in iteration `stop` of a training without warm start, `objective_curve_` has an
entry for each of the `stop` complete iterations, one for the interrupted one if all its steps were made, and the final
one. There is one timestamp for every entry if the training loss was interrupted. -/
theorem C144_curves_partial (L : SLModel X Y H) (jobs : Jobs) (w0 : W) (o : Subgradient.Obj) (samples : List (X × Y))
    (stop : ℕ) (place : Place) (r : Trained Subgradient.Obj)
    (h : latFit L jobs w0 (onlyAt stop place) o samples false = .ok r) (hit : r.hit = true) :
    stop < o.cfg.maxIter ∧ (∀ j, place = .step j → r.obj.curves.objective.length = stop + 1) ∧
    (place = .loss → r.obj.curves.objective.length = stop + 2 ∧ r.stamps = stop + 2) := by
  obtain ⟨lr, curve, l, obj, hs, hl, ho, rfl⟩ := latFit_hit h
  obtain ⟨e0, st1, c1, e1, e2, e3, e4, e5, e6, e7⟩ :=
    (latLoop_eq L o.cfg jobs lr samples stop place _ _ _ _ _ _ (Nat.zero_le _) hl).2 hit
  have hc : curve = [] := by
    unfold Subgradient.setup at hs
    rw [if_neg (by simp)] at hs
    simp only [Except.ok.injEq, Prod.mk.injEq] at hs
    exact hs.2.symm
  rw [hc] at e2
  simp only [Nat.sub_zero, List.length_nil, Nat.zero_add] at e0 e2 e3
  refine ⟨e3, ?_, ?_⟩
  · intro j hj
    obtain ⟨-, a2⟩ := e5 j hj
    simp only [a2, List.length_append, List.length_singleton, e2]
  · intro hj
    obtain ⟨pos, ob, -, e, a2⟩ := e6 hj
    simp only [a2, List.length_append, List.length_singleton, e2, e0, and_self]

/-- **C144 does not hold for the timestamps of an interrupt while a step is prepared.** The timestamp of an iteration is
added when it starts, so that there is one timestamp more than there are entries of `objective_curve_`. -/
theorem C144_violated_timestamp (L : SLModel X Y H) (jobs : Jobs) (w0 : W) (o : Subgradient.Obj)
    (samples : List (X × Y)) (stop j : ℕ) (r : Trained Subgradient.Obj)
    (h : latFit L jobs w0 (onlyAt stop (.step j)) o samples false = .ok r) (hit : r.hit = true) :
    r.stamps = r.obj.curves.objective.length + 1 := by
  rw [(C144_curves_partial L jobs w0 o samples stop (.step j) r h hit).2.1 j rfl]
  obtain ⟨lr, curve, l, obj, hs, hl, ho, rfl⟩ := latFit_hit h
  obtain ⟨e0, -⟩ := (latLoop_eq L o.cfg jobs lr samples stop (.step j) _ _ _ _ _ _ (Nat.zero_le _) hl).2 hit
  simp only [e0]
  omega

/-! ### an interrupt at the start of an iteration -/

theorem latLoop_iters (L : SLModel X Y H) (cfg : Subgradient.Config) (q : ℕ) (jobs : Jobs) (lr : ℚ)
    (samples : List (X × Y)) : ∀ n it st c,
      SubgradientLatent.loop L { cfg with maxIter := q } jobs lr samples n it st c =
        SubgradientLatent.loop L cfg jobs lr samples n it st c := by
  intro n
  induction n with
  | zero => intros; rfl
  | succ n ih =>
    intro it st c
    have e : ∀ st, SubgradientLatent.pass L { cfg with maxIter := q } jobs lr samples st =
        SubgradientLatent.pass L cfg jobs lr samples st := fun _ => rfl
    unfold SubgradientLatent.loop
    simp only [e, ih]

open Resume in
/-- **C144, an interrupt at the start of iteration `stop`** gives exactly the learner that a training with
`max_iter = stop` gives: weights, counter, learning rate and curves. -/
theorem C144_start_of_iteration (L : SLModel X Y H) (jobs : Jobs) (w0 : W) (o : Subgradient.Obj)
    (samples : List (X × Y)) (warm : Bool) (stop : ℕ) (r : Trained Subgradient.Obj)
    (h : latFit L jobs w0 (onlyAt stop (.step 0)) o samples warm = .ok r) (hit : r.hit = true) :
    SubgradientLatent.fit L jobs w0 (withIters o stop) samples warm = .ok (withIters r.obj stop) := by
  obtain ⟨lr, curve, l, obj, hs, hl, ho, rfl⟩ := latFit_hit h
  obtain ⟨-, st1, c1, e1, -, -, e4, e5, -, -⟩ :=
    (latLoop_eq L o.cfg jobs lr samples stop (.step 0) _ _ _ _ _ _ (Nat.zero_le _) hl).2 hit
  rw [Nat.sub_zero] at e1
  obtain ⟨a1, a2⟩ := e5 0 rfl
  obtain ⟨bs, -, hst⟩ := latSteps_blocks L o.cfg jobs lr samples 0 st1 l.st a1
  rw [List.take_zero, List.foldl_nil] at hst
  have hset : Subgradient.setup (withIters o stop) samples.length warm = Subgradient.setup o samples.length warm := rfl
  unfold SubgradientLatent.fit
  rw [hset, hs]
  simp only [withIters, latLoop_iters]
  rw [e1]
  simp only
  rw [← hst, ho]
  simp only [e4, a2]

/-- The learner of C58 interrupted in its second iteration before the step, after it, and while the loss is computed:
the step counter, the lengths of the curves, and whether `fit` was interrupted. -/
example : ([Place.step 0, .step 1, .loss].map fun p =>
    (latFit hiddenSL .one (fun _ => 0) (onlyAt 1 p) hiddenObj [((), 0)] false).toOption.map fun r =>
      (r.obj.t, r.obj.curves.objective.length, r.stamps, r.hit)) =
    [some (1, 2, 3, true), some (2, 2, 3, true), some (2, 3, 3, true)] := by
  decide +kernel

end Verif.Props
