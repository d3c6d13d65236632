import Verif.Model.Interrupt
import Verif.Props.C48
import Verif.Props.C120
import Verif.Props.C122

/-!
# C142: interrupting subgradient training
-/

namespace Verif.Props

open Finset Verif.Spec Verif.Learner Verif.Subgradient Verif.Interrupt

variable {X Y : Type}

/-- One interrupt, in iteration `stop`. -/
def onlyAt (stop : ℕ) (place : Place) : ℕ → Option Place := fun it => if it = stop then some place else none

/-- the steps of a part of a pass. -/
theorem subSteps_blocks (m : SModel X Y) (cfg : Config) (lr : ℚ) (data : List (X × Y)) (j : ℕ) (st st' : St)
    (h : subSteps m cfg lr data j st = .ok st') :
    ∃ bs, blocksOf cfg data = .ok bs ∧ st' = (bs.take j).foldl (blockStep m cfg lr data.length) st ∧
      (usesBatches cfg = true → bs.take j ≠ [] → m.rescaleC = false) := by
  unfold subSteps at h
  unfold blocksOf
  by_cases hj : cfg.nJobs = 1
  · rw [if_pos hj] at h ⊢
    have online : ∀ (hu : usesBatches cfg = false),
        ((data.take j).foldl (onlineStep m cfg lr data.length) (st, 0)).1 =
          ((data.map fun s => [s]).take j).foldl (blockStep m cfg lr data.length) st := by
      intro hu
      rw [← List.map_take, List.foldl_map]
      refine foldl_fst _ _ (data.take j) ?_ _
      intro p s _
      unfold onlineStep blockStep blockDelta
      rw [hu, if_neg (by simp), if_pos hj]
      change solveSubgradient _ _ _ _ _ = solveSubgradient _ _ _ _ _
      congr 1
      funext k
      simp
    cases hb : cfg.batchSize with
    | none =>
      rw [hb] at h
      have hu : usesBatches cfg = false := by simp [usesBatches, hb]
      simp only [Except.ok.injEq] at h
      refine ⟨_, rfl, ?_, by simp [hu]⟩
      rw [← online hu, h]
    | some b =>
      rw [hb] at h
      simp only at h ⊢
      by_cases hb1 : b = 1
      · have hu : usesBatches cfg = false := by simp [usesBatches, hb, hb1]
        rw [if_pos hb1] at h ⊢
        rw [Except.ok.injEq] at h
        refine ⟨_, rfl, ?_, by simp [hu]⟩
        rw [← online hu, h]
      · have hu : usesBatches cfg = true := by simp [usesBatches, hb, hb1, hj]
        rw [if_neg hb1] at h ⊢
        cases hm : miniBatches data b with
        | error err => rw [hm] at h; cases h
        | ok bs =>
          rw [hm] at h
          simp only at h
          split_ifs at h with hr
          rw [Except.ok.injEq] at h
          refine ⟨bs, rfl, ?_, ?_⟩
          · have := foldl_fst (batchStep m cfg lr data.length b) (blockStep m cfg lr data.length) (bs.take j)
              (fun p c _ => by
                unfold batchStep blockStep blockDelta
                rw [hu, if_pos rfl]) (st, 0)
            rw [h] at this
            exact this
          · intro _ hne
            by_contra hc
            refine hr ⟨by simpa using hc, ?_⟩
            intro h0
            rw [h0] at hne
            simp at hne
  · rw [if_neg hj] at h ⊢
    have hu : usesBatches cfg = false := by simp [usesBatches, hj]
    split_ifs at h with h1 h2
    cases hs : evenSlices data.length (ceilDiv data.length cfg.nJobs) with
    | error err => rw [hs] at h; cases h
    | ok sl =>
      rw [hs] at h
      simp only [Except.ok.injEq] at h
      refine ⟨_, rfl, ?_, by simp [hu]⟩
      have := foldl_fst (parallelStep m cfg lr data.length) (blockStep m cfg lr data.length) ((cut data sl).take j)
        (fun p c _ => by
          unfold parallelStep blockStep blockDelta
          rw [hu, if_neg (by simp), if_neg hj]) (st, 0)
      rw [h] at this
      exact this

/-- where the loop stands when the interrupt in iteration `stop` has been caught: `data`, `st`, `c` are from the end of
the last complete iteration. -/
def StoppedAt (m : SModel X Y) (cfg : Config) (lr : ℚ) (order : ℕ → List (X × Y)) (stop : ℕ) (place : Place)
    (data : List (X × Y)) (st : St) (c : Curves) (k : ℕ) (r : Left (List (X × Y))) : Prop :=
  r.data = (if cfg.shuffle then order stop else data) ∧ r.curves.loss = c.loss ∧
  (∀ j, place = .step j → subSteps m cfg lr r.data j st = .ok r.st ∧ r.curves.objective = c.objective ∧ r.stamps = k) ∧
  (place = .objective → (∃ p, learn m cfg lr r.data st = .ok (r.st, p)) ∧ r.curves.objective = c.objective ∧
    r.stamps = k + 1) ∧
  (place = .loss → (∃ p, learn m cfg lr r.data st = .ok (r.st, p)) ∧ r.stamps = k + 1 ∧
    ∃ obj, objectivePrimal m r.st.selfW r.data cfg.C true = .ok obj ∧ r.curves.objective = c.objective ++ [obj])

theorem subLoop_eq (m : SModel X Y) (cfg : Config) (lr : ℚ) (order : ℕ → List (X × Y)) (stop : ℕ) (place : Place) :
    ∀ n it data st c k r, it ≤ stop → subLoop m cfg lr order (onlyAt stop place) n it data st c k = .ok r →
      (r.hit = false → Subgradient.loop m cfg lr order n it data st c = .ok (r.data, r.st, r.curves)) ∧
      (r.hit = true → ∃ data1 st1 c1, Subgradient.loop m cfg lr order (stop - it) it data st c = .ok (data1, st1, c1) ∧
        c1.objective.length = c.objective.length + (stop - it) ∧ stop < it + n ∧
        StoppedAt m cfg lr order stop place data1 st1 c1 (k + (stop - it)) r) := by
  intro n
  induction n with
  | zero =>
    intro it data st c k r _ h
    simp only [subLoop, Except.ok.injEq] at h
    subst h
    exact ⟨fun _ => rfl, fun h => by cases h⟩
  | succ n ih =>
    intro it data st c k r hit h
    unfold subLoop at h
    simp only at h
    by_cases he : it = stop
    · subst he
      have hi : onlyAt it place it = some place := by simp [onlyAt]
      rw [hi] at h
      have hzero : Subgradient.loop m cfg lr order (it - it) it data st c = .ok (data, st, c) := by
        rw [Nat.sub_self]; rfl
      rw [Nat.sub_self] at hzero ⊢
      cases place with
      | step j =>
        simp only [inSteps] at h
        cases hs : subSteps m cfg lr (if cfg.shuffle = true then order it else data) j st with
        | error err => rw [hs] at h; cases h
        | ok st' =>
          rw [hs] at h
          simp only [Except.ok.injEq] at h
          subst h
          refine ⟨fun h => (by cases h), fun _ => ⟨data, st, c, hzero, rfl, by omega, rfl, rfl, ?_, ?_, ?_⟩⟩
          · intro j' hj'
            cases hj'
            exact ⟨hs, rfl, rfl⟩
          · intro h; cases h
          · intro h; cases h
      | objective =>
        simp only [inSteps] at h
        cases hs : learn m cfg lr (if cfg.shuffle = true then order it else data) st with
        | error err => rw [hs] at h; cases h
        | ok q =>
          obtain ⟨st', pos⟩ := q
          rw [hs] at h
          simp only at h
          by_cases hbr : pos = 0 ∧ cfg.breakOnNoConstraints = true
          · rw [if_pos hbr] at h
            simp only [Except.ok.injEq] at h
            subst h
            refine ⟨fun _ => ?_, fun h => by cases h⟩
            unfold Subgradient.loop
            simp only
            rw [hs]
            simp only
            rw [if_pos hbr]
          · rw [if_neg hbr] at h
            simp only [Except.ok.injEq] at h
            subst h
            refine ⟨fun h => (by cases h), fun _ => ⟨data, st, c, hzero, rfl, by omega, rfl, rfl, ?_, ?_, ?_⟩⟩
            · intro j' h; cases h
            · intro _; exact ⟨⟨pos, hs⟩, rfl, rfl⟩
            · intro h; cases h
      | loss =>
        simp only [inSteps] at h
        cases hs : learn m cfg lr (if cfg.shuffle = true then order it else data) st with
        | error err => rw [hs] at h; cases h
        | ok q =>
          obtain ⟨st', pos⟩ := q
          rw [hs] at h
          simp only at h
          by_cases hbr : pos = 0 ∧ cfg.breakOnNoConstraints = true
          · rw [if_pos hbr] at h
            simp only [Except.ok.injEq] at h
            subst h
            refine ⟨fun _ => ?_, fun h => by cases h⟩
            unfold Subgradient.loop
            simp only
            rw [hs]
            simp only
            rw [if_pos hbr]
          · rw [if_neg hbr] at h
            cases ho : objectivePrimal m st'.selfW (if cfg.shuffle = true then order it else data) cfg.C true with
            | error err => rw [ho] at h; cases h
            | ok obj =>
              rw [ho] at h
              simp only [Except.ok.injEq] at h
              subst h
              refine ⟨fun h => (by cases h), fun _ => ⟨data, st, c, hzero, rfl, by omega, rfl, rfl, ?_, ?_, ?_⟩⟩
              · intro j' h; cases h
              · intro h; cases h
              · intro _; exact ⟨⟨pos, hs⟩, rfl, obj, ho, rfl⟩
    · have hi : onlyAt stop place it = none := by simp [onlyAt, he]
      rw [hi] at h
      simp only [inSteps] at h
      have hsub : stop - it = (stop - (it + 1)) + 1 := by omega
      rw [hsub]
      unfold Subgradient.loop
      simp only
      cases hs : learn m cfg lr (if cfg.shuffle = true then order it else data) st with
      | error err => rw [hs] at h; cases h
      | ok q =>
        obtain ⟨st', pos⟩ := q
        rw [hs] at h
        simp only at h ⊢
        by_cases hbr : pos = 0 ∧ cfg.breakOnNoConstraints = true
        · rw [if_pos hbr] at h ⊢
          rw [if_pos hbr]
          simp only [Except.ok.injEq] at h
          subst h
          exact ⟨fun _ => rfl, fun h => by cases h⟩
        · rw [if_neg hbr] at h ⊢
          rw [if_neg hbr]
          cases ho : objectivePrimal m st'.selfW (if cfg.shuffle = true then order it else data) cfg.C true with
          | error err => rw [ho] at h; cases h
          | ok obj =>
            rw [ho] at h
            simp only at h ⊢
            obtain ⟨i1, i2⟩ := ih (it + 1) _ _ _ _ r (by omega) h
            refine ⟨i1, fun hh => ?_⟩
            obtain ⟨data1, st1, c1, e1, e2, e3, e4⟩ := i2 hh
            refine ⟨data1, st1, c1, e1, ?_, by omega, ?_⟩
            · rw [e2]; simp only [List.length_append, List.length_singleton]; omega
            · rw [show k + (stop - (it + 1) + 1) = k + 1 + (stop - (it + 1)) by omega]
              exact e4

/-- every iteration of a loop that is not left early makes a pass. -/
theorem loop_run_full (m : SModel X Y) (cfg : Config) (lr : ℚ) (order : ℕ → List (X × Y))
    (samples : List (X × Y)) (hne : samples ≠ []) (hord : ∀ it, (order it).Perm samples) :
    ∀ n it data st c data' st' c', data.Perm samples →
      Subgradient.loop m cfg lr order n it data st c = .ok (data', st', c') →
      c'.objective.length = c.objective.length + n →
      data'.Perm samples ∧ ∃ passes : List (List (List (X × Y))), passes.length = n ∧
        (∀ p ∈ passes, p.flatten.Perm samples ∧ (∀ b ∈ p, BlockSize cfg samples.length b) ∧
          (p.length : ℤ) = blockCount cfg samples.length ∧ (usesBatches cfg = true → m.rescaleC = false)) ∧
        st' = passes.flatten.foldl (blockStep m cfg lr samples.length) st := by
  intro n
  induction n with
  | zero =>
    intro it data st c data' st' c' hd h _
    unfold Subgradient.loop at h
    simp only [Except.ok.injEq, Prod.mk.injEq] at h
    obtain ⟨rfl, rfl, rfl⟩ := h
    exact ⟨hd, [], rfl, by simp, rfl⟩
  | succ n ih =>
    intro it data st c data' st' c' hd h hlen
    unfold Subgradient.loop at h
    simp only at h
    set dat := if cfg.shuffle = true then order it else data with hdat
    have hdp : dat.Perm samples := by
      rw [hdat]; split_ifs
      · exact hord it
      · exact hd
    have hdne : dat ≠ [] := by
      intro h0
      rw [h0] at hdp
      exact hne (List.Perm.nil_eq hdp).symm
    cases hl : learn m cfg lr dat st with
    | error err => rw [hl] at h; cases h
    | ok r =>
      obtain ⟨st1, pos⟩ := r
      rw [hl] at h
      simp only at h
      obtain ⟨bs, hb, hst, hr⟩ := learn_blocks m cfg lr dat st st1 pos hl
      obtain ⟨hf, hsz⟩ := blocks_partition cfg dat hdne bs hb
      have hbne : bs ≠ [] := by
        intro h0; rw [h0] at hf; exact hdne hf.symm
      have hcnt := blocks_count cfg dat bs hb
      rw [hdp.length_eq] at hst hsz hcnt
      split_ifs at h with hbr
      · simp only [Except.ok.injEq, Prod.mk.injEq] at h
        rw [h.2.2] at hlen; omega
      · cases ho : objectivePrimal m st1.selfW dat cfg.C true with
        | error err => rw [ho] at h; cases h
        | ok obj =>
          rw [ho] at h
          simp only at h
          obtain ⟨h1, passes, h2, h3, h4⟩ := ih _ _ _ _ _ _ _ hdp h
            (by rw [hlen]; simp only [List.length_append, List.length_singleton]; omega)
          refine ⟨h1, bs :: passes, by simpa using h2, ?_, ?_⟩
          · intro p hp
            rcases List.mem_cons.mp hp with rfl | hp
            · exact ⟨hf ▸ hdp, hsz, hcnt, fun hu => hr hu hbne⟩
            · exact h3 p hp
          · rw [List.flatten_cons, List.foldl_append, ← hst]
            exact h4

/-- the parts of an interrupted training. -/
theorem subFit_hit {m : SModel X Y} {order : ℕ → List (X × Y)} {stop : ℕ} {place : Place} {o : Subgradient.Obj}
    {samples : List (X × Y)} {warm : Bool} {r : Trained Subgradient.Obj}
    (h : subFit m order (onlyAt stop place) o samples warm = .ok r) (hit : r.hit = true) :
    ∃ lr curve data1 st1 c1 l obj, setup o samples.length warm = .ok (lr, curve) ∧ stop < o.cfg.maxIter ∧
      Subgradient.loop m o.cfg lr order stop 0 samples ⟨o.w.getD (fun _ => 0), fun _ => 0, o.w.getD (fun _ => 0), o.t⟩
        ⟨curve, o.curves.loss⟩ = .ok (data1, st1, c1) ∧
      c1.objective.length = curve.length + stop ∧ StoppedAt m o.cfg lr order stop place data1 st1 c1 stop l ∧
      objectivePrimal m l.st.selfW l.data o.cfg.C true = .ok obj ∧
      r.obj = ⟨o.cfg, some l.st.selfW, l.st.t, some lr, ⟨l.curves.objective ++ [obj], l.curves.loss⟩⟩ ∧
      r.stamps = l.stamps + 1 := by
  unfold subFit at h
  simp only at h
  cases hs : setup o samples.length warm with
  | error err => rw [hs] at h; cases h
  | ok q =>
    obtain ⟨lr, curve⟩ := q
    rw [hs] at h
    simp only at h
    cases hl : subLoop m o.cfg lr order (onlyAt stop place) o.cfg.maxIter 0 samples
        ⟨o.w.getD (fun _ => 0), fun _ => 0, o.w.getD (fun _ => 0), o.t⟩ ⟨curve, o.curves.loss⟩ 0 with
    | error err => rw [hl] at h; cases h
    | ok l =>
      rw [hl] at h
      simp only at h
      cases ho : objectivePrimal m l.st.selfW l.data o.cfg.C true with
      | error err => rw [ho] at h; cases h
      | ok obj =>
        rw [ho] at h
        simp only [Except.ok.injEq] at h
        subst h
        obtain ⟨data1, st1, c1, e1, e2, e3, e4⟩ := (subLoop_eq m o.cfg lr order stop place _ _ _ _ _ _ _ (Nat.zero_le _) hl).2 hit
        rw [Nat.sub_zero] at e1 e2 e4
        rw [Nat.zero_add] at e3 e4
        exact ⟨lr, curve, data1, st1, c1, l, obj, rfl, e3, e1, e2, e4, ho, rfl, rfl⟩

/-- **C142, without interrupt.** If training ends before the interrupt, the result is that of `fit`. -/
theorem C142_no_interrupt (m : SModel X Y) (order : ℕ → List (X × Y)) (stop : ℕ) (place : Place) (o : Subgradient.Obj)
    (samples : List (X × Y)) (warm : Bool) (r : Trained Subgradient.Obj)
    (h : subFit m order (onlyAt stop place) o samples warm = .ok r) (hit : r.hit = false) :
    Subgradient.fit m order o samples warm = .ok r.obj := by
  unfold subFit at h
  unfold Subgradient.fit
  simp only at h ⊢
  cases hs : setup o samples.length warm with
  | error err => rw [hs] at h; cases h
  | ok q =>
    obtain ⟨lr, curve⟩ := q
    rw [hs] at h
    simp only at h ⊢
    cases hl : subLoop m o.cfg lr order (onlyAt stop place) o.cfg.maxIter 0 samples
        ⟨o.w.getD (fun _ => 0), fun _ => 0, o.w.getD (fun _ => 0), o.t⟩ ⟨curve, o.curves.loss⟩ 0 with
    | error err => rw [hl] at h; cases h
    | ok l =>
      rw [hl] at h
      simp only at h
      cases ho : objectivePrimal m l.st.selfW l.data o.cfg.C true with
      | error err => rw [ho] at h; cases h
      | ok obj =>
        rw [ho] at h
        simp only [Except.ok.injEq] at h
        subst h
        rw [(subLoop_eq m o.cfg lr order stop place _ _ _ _ _ _ _ (Nat.zero_le _) hl).1 hit]
        simp only
        rw [ho]

/-- the steps that training has made when it is interrupted: `part` is the beginning of the interrupted pass. -/
theorem stoppedAt_blocks (m : SModel X Y) (cfg : Config) (lr : ℚ) (order : ℕ → List (X × Y)) (samples : List (X × Y))
    (hne : samples ≠ []) (hord : ∀ it, (order it).Perm samples) (stop : ℕ) (place : Place) (data : List (X × Y))
    (hd : data.Perm samples) (st : St) (c : Curves) (k : ℕ) (l : Left (List (X × Y)))
    (h : StoppedAt m cfg lr order stop place data st c k l) :
    l.data.Perm samples ∧ ∃ bs : List (List (X × Y)), bs.flatten.Perm samples ∧ (∀ b ∈ bs, BlockSize cfg samples.length b) ∧
      (bs.length : ℤ) = blockCount cfg samples.length ∧
      ∃ part, part = (match place with
          | .step j => bs.take j
          | _ => bs) ∧
        (usesBatches cfg = true → part ≠ [] → m.rescaleC = false) ∧
        l.st = part.foldl (blockStep m cfg lr samples.length) st := by
  obtain ⟨h1, -, h3, h4, h5⟩ := h
  have hdp : l.data.Perm samples := by
    rw [h1]; split_ifs
    · exact hord stop
    · exact hd
  have hdne : l.data ≠ [] := by
    intro h0
    rw [h0] at hdp
    exact hne (List.Perm.nil_eq hdp).symm
  refine ⟨hdp, ?_⟩
  have full : (∃ p, learn m cfg lr l.data st = .ok (l.st, p)) → ∃ bs : List (List (X × Y)), bs.flatten.Perm samples ∧
      (∀ b ∈ bs, BlockSize cfg samples.length b) ∧ (bs.length : ℤ) = blockCount cfg samples.length ∧
      (usesBatches cfg = true → bs ≠ [] → m.rescaleC = false) ∧
      l.st = bs.foldl (blockStep m cfg lr samples.length) st := by
    rintro ⟨p, hp⟩
    obtain ⟨bs, hb, hst, hr⟩ := learn_blocks m cfg lr l.data st l.st p hp
    obtain ⟨hf, hsz⟩ := blocks_partition cfg l.data hdne bs hb
    have hcnt := blocks_count cfg l.data bs hb
    rw [hdp.length_eq] at hst hsz hcnt
    exact ⟨bs, hf ▸ hdp, hsz, hcnt, hr, hst⟩
  cases place with
  | step j =>
    obtain ⟨hs, -, -⟩ := h3 j rfl
    obtain ⟨bs, hb, hst, hr⟩ := subSteps_blocks m cfg lr l.data j st l.st hs
    obtain ⟨hf, hsz⟩ := blocks_partition cfg l.data hdne bs hb
    have hcnt := blocks_count cfg l.data bs hb
    rw [hdp.length_eq] at hst hsz hcnt
    exact ⟨bs, hf ▸ hdp, hsz, hcnt, _, rfl, hr, hst⟩
  | objective =>
    obtain ⟨bs, g1, g2, g3, g4, g5⟩ := full (h4 rfl).1
    exact ⟨bs, g1, g2, g3, bs, rfl, g4, g5⟩
  | loss =>
    obtain ⟨bs, g1, g2, g3, g4, g5⟩ := full (h5 rfl).1
    exact ⟨bs, g1, g2, g3, bs, rfl, g4, g5⟩

/-- **C142, an interrupted training is subgradient descent up to the interrupt.** Let training be interrupted in
iteration `stop`: while the constraints of step `j` are searched, or while the objective or the training loss is
computed. Then `fit` returns the weights of the descent of C48 after `stop` complete passes and the first `j` steps of
the interrupted pass (all its steps for the later interrupts): the last iterate without averaging, the weighted mean of
all iterates with linear or squared averaging for a learner that was not fitted before. The last entry of
`objective_curve_` is the objective of the returned weights. -/
theorem C142_descent (m : SModel X Y) (outputs : X → Set Y)
    (hLA : (problemOf m outputs).ExactLossAug (fun x y w => m.lossAug x y w true))
    (order : ℕ → List (X × Y)) (samples : List (X × Y)) (hne : samples ≠ [])
    (hl : (problemOf m outputs).Labelled samples) (hord : ∀ it, (order it).Perm samples)
    (o : Subgradient.Obj) (hC : 0 < o.cfg.C) (warm : Bool) (stop : ℕ) (place : Place) (r : Trained Subgradient.Obj)
    (h : subFit m order (onlyAt stop place) o samples warm = .ok r) (hit : r.hit = true) :
    ∃ (lr : ℚ) (passes : List (List (List (X × Y)))) (last : List (List (X × Y))) (ws : ℕ → W) (w : W) (T : ℕ),
      r.obj.lr = some lr ∧ (warm = false → lr = (o.cfg.learningRate.getD (o.cfg.C * samples.length))) ∧
      passes.length = stop ∧
      (∀ p ∈ last :: passes, p.flatten.Perm samples ∧ (p.length : ℤ) = blockCount o.cfg samples.length ∧
        ∀ b ∈ p, BlockSize o.cfg samples.length b) ∧
      (∀ j, place = .step j → T = passes.flatten.length + min j last.length) ∧
      (place = .objective ∨ place = .loss → T = passes.flatten.length + last.length) ∧
      ws 0 = o.w.getD (fun _ => 0) ∧
      (problemOf m outputs).IsDescent (fun b => o.cfg.C * samples.length * blockScale o.cfg b)
        o.cfg.momentum (fun t => lr / o.cfg.decay (o.t + t) / (o.cfg.C * samples.length))
        ((passes.flatten ++ last).take T) ws ∧
      r.obj.t = o.t + T ∧ r.obj.w = some w ∧
      (o.cfg.averaging = .none → w = ws T) ∧
      (o.cfg.averaging = .linear → o.t = 0 → 0 < T → ∀ k, w k = weightedMean (fun j => j) ws T k) ∧
      (o.cfg.averaging = .squared → o.t = 0 → 0 < T → ∀ k, w k = weightedMean (fun j => (j : ℚ) ^ 2) ws T k) ∧
      (T = 0 → w = o.w.getD (fun _ => 0)) ∧
      ∃ obj, r.obj.curves.objective.getLast? = some obj ∧ (problemOf m outputs).IsObjective o.cfg.C samples w obj := by
  obtain ⟨lr, curve, data1, st1, c1, l, obj, hs, -, hloop, hlen, hstop, ho, hr, -⟩ := subFit_hit h hit
  have hlr : warm = false → lr = (o.cfg.learningRate.getD (o.cfg.C * samples.length)) := by
    intro hw
    unfold Subgradient.setup at hs
    subst hw
    rw [if_neg (by simp)] at hs
    simp only [Except.ok.injEq, Prod.mk.injEq] at hs
    exact hs.1.symm
  obtain ⟨hd1, passes, hp1, hp2, hp3⟩ := loop_run_full m o.cfg lr order samples hne hord _ _ _ _ _ _ _ _ (List.Perm.refl _)
    hloop hlen
  obtain ⟨hdp, bs, hb1, hb2, hb3, part, hpart, hrs, hst⟩ :=
    stoppedAt_blocks m o.cfg lr order samples hne hord stop place data1 hd1 st1 c1 stop l hstop
  set w0 : W := o.w.getD (fun _ => 0) with hw0
  set st0 : St := ⟨w0, fun _ => 0, w0, o.t⟩ with hst0
  set blocks := passes.flatten ++ part with hblocks
  have hn : 0 < samples.length := List.length_pos_iff.mpr hne
  have hfull : l.st = stateAt m o.cfg lr samples.length blocks st0 blocks.length := by
    rw [hst, hp3, ← List.foldl_append]; unfold stateAt; rw [List.take_length]
  have hTb : (passes.flatten ++ bs).take blocks.length = blocks := by
    rw [hblocks, List.length_append, List.take_append]
    rw [List.take_of_length_le (by omega), Nat.add_sub_cancel_left]
    congr 1
    cases place with
    | step j => rw [hpart]; simp only [List.length_take]; rw [List.take_eq_take_min]; 
                rw [List.take_eq_take_min (l := bs) (i := j)]; simp
    | objective => rw [hpart]; simp
    | loss => rw [hpart]; simp
  have hpmem : ∀ b ∈ part, b ∈ bs := by
    intro b hb
    rw [hpart] at hb
    cases place with
    | step j => exact List.mem_of_mem_take hb
    | objective => exact hb
    | loss => exact hb
  refine ⟨lr, passes, bs, fun t => (stateAt m o.cfg lr samples.length blocks st0 t).w, l.st.selfW, blocks.length,
    by rw [hr], hlr, hp1, ?_, ?_, ?_, rfl, ?_, ?_, by rw [hr], ?_, ?_, ?_, ?_, obj, by rw [hr]; simp, ?_⟩
  · intro p hp
    rcases List.mem_cons.mp hp with rfl | hp
    · exact ⟨hb1, hb3, hb2⟩
    · exact ⟨(hp2 p hp).1, (hp2 p hp).2.2.1, (hp2 p hp).2.1⟩
  · intro j hj
    subst hj
    rw [hblocks, List.length_append, hpart]
    simp only [List.length_take]
  · intro hj
    rw [hblocks, List.length_append, hpart]
    rcases hj with rfl | rfl <;> rfl
  · rw [hTb]
    refine stateAt_descent m outputs hLA o.cfg lr samples.length hC hn blocks ?_ st0 (fun _ => rfl)
    intro b hb
    rcases List.mem_append.mp hb with hb | hb
    · obtain ⟨p, hp, hbp⟩ := List.mem_flatten.mp hb
      obtain ⟨g1, g2, -, g4⟩ := hp2 p hp
      refine ⟨(g2 b hbp).1, ?_, g4⟩
      intro s hs
      exact hl s (g1.mem_iff.mp (List.mem_flatten.mpr ⟨b, hbp, hs⟩))
    · refine ⟨(hb2 b (hpmem b hb)).1, ?_, fun hu => hrs hu (List.ne_nil_of_mem hb)⟩
      intro s hs
      exact hl s (hb1.mem_iff.mp (List.mem_flatten.mpr ⟨b, hpmem b hb, hs⟩))
  · rw [hr, hfull]
    simp only
    rw [stateAt_t _ _ _ _ _ _ _ le_rfl]
  · intro ha
    rw [hfull]
    cases hT : blocks.length with
    | zero => rfl
    | succ t =>
      have e : ∀ (S : St) b, (blockStep m o.cfg lr samples.length S b).selfW =
          (blockStep m o.cfg lr samples.length S b).w := by
        intro S b
        unfold blockStep solveSubgradient
        simp only [ha]
      simp only [stateAt_succ m o.cfg lr samples.length blocks _ t (by omega : t < _)]
      exact e _ _
  · intro ha ht hp k
    rw [hfull]
    exact (stateAt_average m o.cfg lr samples.length blocks _ ht hp).1 ha k
  · intro ha ht hp k
    rw [hfull]
    exact (stateAt_average m o.cfg lr samples.length blocks _ ht hp).2 ha k
  · intro hT
    rw [hfull, hT]
    rfl
  · have hne' : l.data ≠ [] := by
      intro h0; rw [h0] at hdp; exact hne (List.Perm.nil_eq hdp).symm
    have hpo := objectivePrimal_ok m l.st.selfW l.data o.cfg.C true hne'
    rw [ho, Except.ok.injEq] at hpo
    refine ⟨samples.map (sampleSlack m l.st.selfW), ?_, ?_⟩
    · rw [List.forall₂_map_right_iff, List.forall₂_same]
      intro s hs
      exact (C29_slack m outputs true hLA s.1 s.2 _ (hl s hs).1 (hl s hs).2).1
    · rw [hpo, (hdp.map (sampleSlack m l.st.selfW)).sum_eq]
      have : ∑ k ∈ range m.dim, l.st.selfW k ^ 2 = ∑ k ∈ range m.dim, l.st.selfW k * l.st.selfW k :=
        sum_congr rfl fun k _ => by ring
      rw [this]
      change _ = (∑ k ∈ range m.dim, l.st.selfW k * l.st.selfW k) / 2 + _
      ring

/-! ### `fit` returns -/

theorem subSteps_returns (m : SModel X Y) (cfg : Config) (lr : ℚ) {data : List (X × Y)} (hne : data ≠ []) (j : ℕ) (st : St)
    (hl : LegalJobs cfg m.rescaleC) : ∃ st', subSteps m cfg lr data j st = .ok st' := by
  unfold subSteps
  rcases hl with ⟨hj, hb⟩ | ⟨hj, hb⟩
  · rw [if_pos hj]
    rcases hb with hb | hb | ⟨b, hb, hb1, hr⟩
    · rw [hb]; exact ⟨_, rfl⟩
    · rw [hb]; exact ⟨_, rfl⟩
    · rw [hb]
      simp only
      by_cases h1 : b = 1
      · rw [if_pos h1]; exact ⟨_, rfl⟩
      · rw [if_neg h1]
        rcases miniBatches_returns hne b with ⟨⟨bs, hbs, -⟩, -⟩ | ⟨-, hn⟩
        · rw [hbs]
          simp only [hr]
          rw [if_neg (by simp)]
          exact ⟨_, rfl⟩
        · exact absurd hb1 hn
  · rw [if_neg (by omega), if_neg (by simp [hb]), if_neg (by omega)]
    obtain ⟨sl, hsl⟩ := (even_slices (cfg.nJobs : ℤ) data).2.mpr ⟨hne, by omega⟩
    rw [hsl]
    exact ⟨_, rfl⟩

theorem subLoop_returns (m : SModel X Y) (cfg : Config) (lr : ℚ) (order : ℕ → List (X × Y)) (intr : ℕ → Option Place)
    (hord : cfg.shuffle = true → ∀ it, order it ≠ []) (hj : LegalJobs cfg m.rescaleC) :
    ∀ n it data st c k, data ≠ [] → ∃ r, subLoop m cfg lr order intr n it data st c k = .ok r ∧ r.data ≠ [] := by
  intro n
  induction n with
  | zero => intro it data st c k hne; exact ⟨_, rfl, hne⟩
  | succ n ih =>
    intro it data st c k hne
    have hd : (if cfg.shuffle then order it else data) ≠ [] := by
      split
      · exact hord ‹_› it
      · exact hne
    unfold subLoop
    simp only
    generalize (if cfg.shuffle then order it else data) = d at hd ⊢
    cases hi : inSteps (intr it) with
    | some j =>
      obtain ⟨st', hs⟩ := subSteps_returns m cfg lr hd j st hj
      simp only [hs]
      exact ⟨_, rfl, hd⟩
    | none =>
      obtain ⟨⟨st1, p⟩, hl⟩ := (learn_returns m cfg lr hd st).mpr hj
      simp only [hl]
      by_cases hp : p = 0 ∧ cfg.breakOnNoConstraints = true
      · rw [if_pos hp]
        exact ⟨_, rfl, hd⟩
      · rw [if_neg hp, objectivePrimal_ok m st1.selfW d cfg.C true hd]
        cases hp : intr it with
        | none => exact ih _ _ _ _ _ hd
        | some pl =>
          cases pl with
          | step j => rw [hp] at hi; cases hi
          | objective => exact ⟨_, rfl, hd⟩
          | loss => exact ⟨_, rfl, hd⟩

/-- **C142, an interrupted `fit` returns.** If `fit` returns when it is not interrupted, it returns however it is
interrupted. -/
theorem C142_returns (m : SModel X Y) (order : ℕ → List (X × Y)) (intr : ℕ → Option Place) (o o' : Subgradient.Obj)
    (samples : List (X × Y)) (hne : samples ≠ []) (hord : o.cfg.shuffle = true → ∀ it, (order it).Perm samples)
    (warm : Bool) (h : Subgradient.fit m order o samples warm = .ok o') :
    ∃ r, subFit m order intr o samples warm = .ok r := by
  obtain ⟨hj, hw⟩ := (C120_subgradient m order o samples hne hord warm).mp ⟨o', h⟩
  have hord' : o.cfg.shuffle = true → ∀ it, order it ≠ [] := by
    intro hs it h0
    have := hord hs it
    rw [h0] at this
    exact hne this.nil_eq.symm
  unfold subFit
  simp only
  rcases setup_returns o samples.length warm with ⟨⟨lr, curve, hs⟩, -⟩ | ⟨-, hw', hn⟩
  · rw [hs]
    simp only
    have key : ∃ r, subLoop m o.cfg lr order intr o.cfg.maxIter 0 samples
        ⟨o.w.getD fun _ => 0, fun _ => 0, o.w.getD fun _ => 0, o.t⟩ ⟨curve, o.curves.loss⟩ 0 = .ok r ∧ r.data ≠ [] := by
      rcases hj with h0 | hj
      · rw [h0]; exact ⟨_, rfl, hne⟩
      · exact subLoop_returns m o.cfg lr order intr hord' hj _ _ _ _ _ _ hne
    obtain ⟨r, hr, hd⟩ := key
    rw [hr]
    simp only
    rw [objectivePrimal_ok m r.st.selfW r.data o.cfg.C true hd]
    exact ⟨_, rfl⟩
  · exact absurd hn (hw hw')

/-! ### curves and timestamps -/

/-- **C142, curves.** After an interrupt in iteration `stop` of a training without warm start, `objective_curve_` has
an entry for each of the `stop` complete iterations, one for the interrupted one if its objective was computed, and the
final one. There is one timestamp for every entry, unless the interrupt came while the objective was computed. -/
theorem C142_curves_partial (m : SModel X Y) (order : ℕ → List (X × Y)) (o : Subgradient.Obj) (samples : List (X × Y))
    (stop : ℕ) (place : Place) (r : Trained Subgradient.Obj)
    (h : subFit m order (onlyAt stop place) o samples false = .ok r) (hit : r.hit = true) :
    stop < o.cfg.maxIter ∧
    (∀ j, place = .step j → r.obj.curves.objective.length = stop + 1 ∧ r.stamps = stop + 1) ∧
    (place = .loss → r.obj.curves.objective.length = stop + 2 ∧ r.stamps = stop + 2) := by
  obtain ⟨lr, curve, data1, st1, c1, l, obj, hs, hmax, hloop, hlen, ⟨s1, s2, s3, s4, s5⟩, ho, hr, hst⟩ := subFit_hit h hit
  have hc : curve = [] := by
    unfold Subgradient.setup at hs
    rw [if_neg (by simp)] at hs
    simp only [Except.ok.injEq, Prod.mk.injEq] at hs
    exact hs.2.symm
  rw [hc, List.length_nil, Nat.zero_add] at hlen
  refine ⟨hmax, ?_, ?_⟩
  · intro j hj
    obtain ⟨-, e1, e2⟩ := s3 j hj
    rw [hr, hst, e2]
    simp only [e1, List.length_append, List.length_singleton, hlen, and_self]
  · intro hj
    obtain ⟨-, e1, obj', -, e2⟩ := s5 hj
    rw [hr, hst, e1]
    simp only [e2, List.length_append, List.length_singleton, hlen, and_self]

/-- **C142 does not hold for the timestamps of an interrupt while the objective is computed.** There is one timestamp
more than there are entries of `objective_curve_`. -/
theorem C142_violated_timestamp (m : SModel X Y) (order : ℕ → List (X × Y)) (o : Subgradient.Obj) (samples : List (X × Y))
    (stop : ℕ) (r : Trained Subgradient.Obj) (h : subFit m order (onlyAt stop .objective) o samples false = .ok r)
    (hit : r.hit = true) : r.stamps = r.obj.curves.objective.length + 1 := by
  obtain ⟨lr, curve, data1, st1, c1, l, obj, hs, hmax, hloop, hlen, ⟨s1, s2, s3, s4, s5⟩, ho, hr, hst⟩ := subFit_hit h hit
  have hc : curve = [] := by
    unfold Subgradient.setup at hs
    rw [if_neg (by simp)] at hs
    simp only [Except.ok.injEq, Prod.mk.injEq] at hs
    exact hs.2.symm
  rw [hc, List.length_nil, Nat.zero_add] at hlen
  obtain ⟨-, e1, e2⟩ := s4 rfl
  rw [hr, hst, e2]
  simp only [e1, List.length_append, List.length_singleton, hlen]

/-! ### an interrupt at the start of an iteration -/

theorem subSteps_zero (m : SModel X Y) (cfg : Config) (lr : ℚ) (data : List (X × Y)) (st st' : St)
    (h : subSteps m cfg lr data 0 st = .ok st') : st' = st := by
  obtain ⟨bs, -, h2, -⟩ := subSteps_blocks m cfg lr data 0 st st' h
  rw [h2]; rfl

theorem objectiveReordered (m : SModel X Y) (w : W) {d d' : List (X × Y)} (h : d.Perm d') (C : ℚ) :
    objectivePrimal m w d C true = objectivePrimal m w d' C true := by
  by_cases hd : d = []
  · subst hd
    rw [h.nil_eq]
  · have hd' : d' ≠ [] := by
      intro h0
      rw [h0] at h
      exact hd h.eq_nil
    rw [objectivePrimal_ok m w d C true hd, objectivePrimal_ok m w d' C true hd', (h.map (sampleSlack m w)).sum_eq]

theorem subLoop_cfg (m : SModel X Y) (cfg : Config) (lr : ℚ) (order : ℕ → List (X × Y)) (k : ℕ) :
    ∀ n it data st c, Subgradient.loop m { cfg with maxIter := k } lr order n it data st c =
      Subgradient.loop m cfg lr order n it data st c := by
  intro n
  induction n with
  | zero => intro it data st c; rfl
  | succ n ih =>
    intro it data st c
    unfold Subgradient.loop
    simp only [ih]
    rfl

open Resume in
/-- **C142, an interrupt at the start of iteration `stop`** gives exactly the learner that a training with
`max_iter = stop` gives: weights, counter, learning rate and curves. -/
theorem C142_start_of_iteration (m : SModel X Y) (order : ℕ → List (X × Y)) (o : Subgradient.Obj)
    (samples : List (X × Y)) (hne : samples ≠ []) (hord : ∀ it, (order it).Perm samples) (warm : Bool) (stop : ℕ)
    (r : Trained Subgradient.Obj) (h : subFit m order (onlyAt stop (.step 0)) o samples warm = .ok r)
    (hit : r.hit = true) :
    Subgradient.fit m order (withIters o stop) samples warm = .ok (withIters r.obj stop) := by
  obtain ⟨lr, curve, data1, st1, c1, l, obj, hs, hmax, hloop, hlen, hstop, ho, hr, hst⟩ := subFit_hit h hit
  obtain ⟨hd1, -⟩ := loop_run_full m o.cfg lr order samples hne hord _ _ _ _ _ _ _ _ (List.Perm.refl _) hloop hlen
  obtain ⟨hdp, -⟩ := stoppedAt_blocks m o.cfg lr order samples hne hord stop (.step 0) data1 hd1 st1 c1 stop l hstop
  obtain ⟨s1, s2, s3, -, -⟩ := hstop
  obtain ⟨g1, g2, -⟩ := s3 0 rfl
  have hls := subSteps_zero _ _ _ _ _ _ g1
  have hset : setup (withIters o stop) samples.length warm = setup o samples.length warm := rfl
  unfold Subgradient.fit
  simp only
  rw [hset, hs]
  simp only [withIters, subLoop_cfg]
  rw [hloop]
  simp only
  rw [← hls, objectiveReordered m l.st.selfW (hd1.trans hdp.symm), ho]
  simp only [Except.ok.injEq]
  rw [hr]
  simp only [g2, s2]

open Resume in
/-- **C142, an interrupt and a warm start.** Without momentum and averaging, a training that is interrupted at the start
of iteration `a` and resumed with `warm_start=True` for `b` iterations ends exactly as a training with `a + b`
iterations, under the conditions of C122. -/
theorem C142_resume_partial (m : SModel X Y) (order : ℕ → List (X × Y)) (o : Subgradient.Obj) (samples : List (X × Y))
    (hne : samples ≠ []) (hord : ∀ it, (order it).Perm samples) (a b : ℕ) (hm : o.cfg.momentum = 0)
    (ha : o.cfg.averaging = .none) (hs : o.cfg.showLossEvery = 0 ∨ o.cfg.showLossEvery ∣ a)
    (hb : o.cfg.shuffle = false ∨ 0 < b) (r : Trained Subgradient.Obj)
    (h : subFit m order (onlyAt a (.step 0)) o samples false = .ok r) (hit : r.hit = true) :
    ∃ extra, r.obj.curves.objective.getLast? = some extra ∧
      SameTraining a extra (Subgradient.fit m order (withIters o (a + b)) samples false)
        (Subgradient.fit m (fun i => order (a + i)) (withIters r.obj b) samples true) := by
  have h1 := C142_start_of_iteration m order o samples hne hord false a r h hit
  have h2 := ((C142_curves_partial m order o samples a (.step 0) r h hit).2.1 0 rfl).1
  exact C122_subgradient_partial m order o (withIters r.obj a) samples a b hm ha hs hb h1 h2

/-! ### non-vacuity -/

/-- Interrupts in the second of three iterations, for a learner without averaging on one sample: before the step, after
it, while the objective and while the training loss is computed. -/
example :
    ([Place.step 0, .step 1, .objective, .loss].map fun p =>
      (subFit (multiClassModel exampleClf) (fun _ => sgA) (onlyAt 1 p) (exampleSG 3 1 none .none) sgA false).toOption.map
        fun r => (r.obj.t, r.obj.curves.objective.length, r.stamps, r.hit)) =
      [some (1, 2, 2, true), some (2, 2, 2, true), some (2, 2, 3, true), some (2, 3, 3, true)] := by
  decide +kernel

end Verif.Props
