import Verif.Props.C144

/-!
# C145: a warm start of `SubgradientLatentSSVM` resumes training where it was left
-/

namespace Verif.Props

open Finset Verif.Learner Verif.LatentSSVM Verif.SubgradientLatent Verif.Interrupt

namespace Resume

variable {X Y H : Type}

/-- A fold whose steps keep states alike and the other values equal does so as a whole. -/
theorem foldl_alike_with {α β : Type} (f : Subgradient.St × β → α → Subgradient.St × β)
    (hf : ∀ p p' : Subgradient.St × β, ∀ a, Alike p.1 p'.1 → p.2 = p'.2 →
      Alike (f p a).1 (f p' a).1 ∧ (f p a).2 = (f p' a).2) :
    ∀ (l : List α) (p p' : Subgradient.St × β), Alike p.1 p'.1 → p.2 = p'.2 →
      Alike (l.foldl f p).1 (l.foldl f p').1 ∧ (l.foldl f p).2 = (l.foldl f p').2
  | [], _, _, h, h2 => ⟨h, h2⟩
  | a :: l, p, p', h, h2 => foldl_alike_with f hf l _ _ (hf p p' a h h2).1 (hf p p' a h h2).2

/-- Two outcomes of a pass of the latent learner that agree up to `grad_old`. -/
inductive LatAgree : Except PyErr (Subgradient.St × ℤ × ℚ) → Except PyErr (Subgradient.St × ℤ × ℚ) → Prop
  | error (e : PyErr) : LatAgree (.error e) (.error e)
  | ok (st st' : Subgradient.St) (p : ℤ × ℚ) : Alike st st' → LatAgree (.ok (st, p)) (.ok (st', p))

theorem latAgree_fold (p p' : Subgradient.St × ℤ × ℚ) (h : Alike p.1 p'.1 ∧ p.2 = p'.2) :
    LatAgree (.ok p) (.ok p') := by
  obtain ⟨st, n⟩ := p
  obtain ⟨st', n'⟩ := p'
  obtain ⟨h1, h2⟩ := h
  simp only at h2
  subst h2
  exact .ok st st' n h1

/-- A pass keeps states alike. -/
theorem pass_alike (L : SLModel X Y H) (cfg : Subgradient.Config) (hm : cfg.momentum = 0) (ha : cfg.averaging = .none)
    (jobs : Jobs) (lr : ℚ) (data : List (X × Y)) (st st' : Subgradient.St) (h : Alike st st') :
    LatAgree (SubgradientLatent.pass L cfg jobs lr data st) (SubgradientLatent.pass L cfg jobs lr data st') := by
  unfold SubgradientLatent.pass
  cases jobs with
  | other => exact .error _
  | one =>
    refine latAgree_fold _ _ (foldl_alike_with _ ?_ data _ _ h rfl)
    intro p p' s h h2
    unfold SubgradientLatent.onlineStep
    simp only [h.1, h2]
    exact ⟨solve_alike cfg hm ha lr data.length _ _ h _, trivial⟩
  | allCpus n =>
    simp only
    by_cases hn : n = 0
    · rw [if_pos hn, if_pos hn]; exact .error _
    · rw [if_neg hn, if_neg hn]
      cases Subgradient.evenSlices data.length (Subgradient.ceilDiv data.length n) with
      | error e => exact .error e
      | ok sl =>
        refine latAgree_fold _ _ (foldl_alike_with _ ?_ _ _ _ h rfl)
        intro p p' s h h2
        unfold SubgradientLatent.parallelStep
        simp only [h.1, h2]
        exact ⟨solve_alike cfg hm ha lr data.length _ _ h _, trivial⟩

theorem latentLoss_shift (L : SLModel X Y H) (e a it : ℕ) (h : e = 0 ∨ e ∣ a) (w : W) (data : List (X × Y))
    (curve : List ℚ) :
    SubgradientLatent.trainingLoss L e w data (a + it) curve = SubgradientLatent.trainingLoss L e w data it curve := by
  unfold SubgradientLatent.trainingLoss
  rcases h with h | ⟨k, rfl⟩
  · subst h; rfl
  · have : (e * k + it) % e = it % e := by rw [Nat.add_comm]; exact Nat.add_mul_mod_self_left it e k
    rw [this]

/-- Two ends of a loop: states alike, same entries after the given prefixes of the objective curve, same loss
curve. -/
inductive LatEnds (pre pre' : List ℚ) : Except PyErr (Subgradient.St × Subgradient.Curves) →
    Except PyErr (Subgradient.St × Subgradient.Curves) → Prop
  | error (e : PyErr) : LatEnds pre pre' (.error e) (.error e)
  | ok (st st' : Subgradient.St) (new loss : List ℚ) : Alike st st' →
      LatEnds pre pre' (.ok (st, ⟨pre ++ new, loss⟩)) (.ok (st', ⟨pre' ++ new, loss⟩))

/-- Two loops that start alike end alike. -/
theorem latent_loop_alike (L : SLModel X Y H) (cfg : Subgradient.Config) (hm : cfg.momentum = 0)
    (ha : cfg.averaging = .none) (jobs : Jobs) (lr : ℚ) (samples : List (X × Y)) (a : ℕ)
    (hs : cfg.showLossEvery = 0 ∨ cfg.showLossEvery ∣ a) (pre pre' : List ℚ) :
    ∀ (n it : ℕ) (st st' : Subgradient.St) (new loss : List ℚ), Alike st st' →
      LatEnds pre pre' (SubgradientLatent.loop L cfg jobs lr samples n (a + it) st ⟨pre ++ new, loss⟩)
        (SubgradientLatent.loop L cfg jobs lr samples n it st' ⟨pre' ++ new, loss⟩)
  | 0, it, st, st', new, loss, h => .ok st st' new loss h
  | n + 1, it, st, st', new, loss, h => by
    unfold SubgradientLatent.loop
    have hag := pass_alike L cfg hm ha jobs lr samples st st' h
    revert hag
    generalize SubgradientLatent.pass L cfg jobs lr samples st = r
    generalize SubgradientLatent.pass L cfg jobs lr samples st' = r'
    intro hag
    cases hag with
    | error e => exact .error e
    | ok s s' p hss =>
      obtain ⟨pos, obj⟩ := p
      by_cases hp : pos = 0 ∧ cfg.breakOnNoConstraints = true
      · simp only [if_pos hp]
        exact .ok s s' new loss hss
      · simp only [if_neg hp]
        have hself : s'.selfW = s.selfW := by rw [hss.2.2.2, hss.2.2.1, hss.1]
        rw [hself, latentLoss_shift L _ a it hs]
        simp only [List.append_assoc]
        exact latent_loop_alike L cfg hm ha jobs lr samples a hs pre pre' n (it + 1) s s' (new ++ [_]) _ hss

/-- A loop that was not left early can be split. -/
theorem latent_loop_split (L : SLModel X Y H) (cfg : Subgradient.Config) (jobs : Jobs) (lr : ℚ)
    (samples : List (X × Y)) (b : ℕ) :
    ∀ (a it : ℕ) (st : Subgradient.St) (c : Subgradient.Curves) (st' : Subgradient.St) (c' : Subgradient.Curves),
      SubgradientLatent.loop L cfg jobs lr samples a it st c = .ok (st', c') →
      c'.objective.length = c.objective.length + a →
      SubgradientLatent.loop L cfg jobs lr samples (a + b) it st c =
        SubgradientLatent.loop L cfg jobs lr samples b (it + a) st' c'
  | 0, it, st, c, st', c', h, _ => by
    simp only [SubgradientLatent.loop, Except.ok.injEq, Prod.mk.injEq] at h
    rw [h.1, h.2, Nat.zero_add, Nat.add_zero]
  | a + 1, it, st, c, st', c', h, hlen => by
    rw [show a + 1 + b = (a + b) + 1 from by omega]
    unfold SubgradientLatent.loop at h
    rw [SubgradientLatent.loop]
    cases hl : SubgradientLatent.pass L cfg jobs lr samples st with
    | error e => rw [hl] at h; cases h
    | ok sp =>
      obtain ⟨s, p, ob⟩ := sp
      rw [hl] at h
      simp only at h ⊢
      by_cases hp : p = 0 ∧ cfg.breakOnNoConstraints = true
      · rw [if_pos hp] at h
        simp only [Except.ok.injEq, Prod.mk.injEq] at h
        rw [h.2] at hlen; omega
      · rw [if_neg hp] at h ⊢
        have := latent_loop_split L cfg jobs lr samples b a _ _ _ _ _ h (by
          rw [hlen]; simp only [List.length_append, List.length_singleton]; omega)
        rw [this, show it + 1 + a = it + (a + 1) from by omega]

/-- Without averaging `self.w` and `w` are the same at the end of the loop. -/
theorem latent_loop_selfW (L : SLModel X Y H) (cfg : Subgradient.Config) (hm : cfg.momentum = 0)
    (ha : cfg.averaging = .none) (jobs : Jobs) (lr : ℚ) (samples : List (X × Y)) (n it : ℕ) (st : Subgradient.St)
    (c : Subgradient.Curves) (h0 : st.selfW = st.w) (st' : Subgradient.St) (c' : Subgradient.Curves)
    (h : SubgradientLatent.loop L cfg jobs lr samples n it st c = .ok (st', c')) : st'.selfW = st'.w := by
  have e := latent_loop_alike L cfg hm ha jobs lr samples 0 (.inr (dvd_zero _)) [] [] n it st st c.objective c.loss
    ⟨rfl, rfl, h0, h0⟩
  simp only [Nat.zero_add, List.nil_append] at e
  have hc : (⟨c.objective, c.loss⟩ : Subgradient.Curves) = c := rfl
  rw [hc, h] at e
  cases e with
  | ok _ _ _ _ hal => exact hal.2.2.1

end Resume

variable {X Y H : Type}

open Resume in
/-- **C145.** Without momentum and averaging, `fit` with `max_iter = a` followed by `fit(warm_start=True)` with
`max_iter = b` ends exactly as `fit` with `max_iter = a + b`, provided the first training was not left early (its
objective curve has `a + 1` entries) and `show_loss_every` divides `a`: same weights, same step counter, same learning
rate, same loss curve, same exceptions. The objective curve has one entry more. -/
theorem C145_warm_start_partial (L : SLModel X Y H) (jobs : Jobs) (w0 w0' : W) (o o1 : Subgradient.Obj)
    (samples : List (X × Y)) (a b : ℕ) (hm : o.cfg.momentum = 0) (ha : o.cfg.averaging = .none)
    (hs : o.cfg.showLossEvery = 0 ∨ o.cfg.showLossEvery ∣ a)
    (h1 : SubgradientLatent.fit L jobs w0 (withIters o a) samples false = .ok o1)
    (hlen : o1.curves.objective.length = a + 1) :
    ∃ extra, o1.curves.objective.getLast? = some extra ∧
      SameTraining a extra (SubgradientLatent.fit L jobs w0 (withIters o (a + b)) samples false)
        (SubgradientLatent.fit L jobs w0' (withIters o1 b) samples true) := by
  unfold SubgradientLatent.fit Subgradient.setup at h1
  simp only [withIters, Bool.false_eq_true, if_false, latLoop_iters] at h1
  generalize hlr : o.cfg.learningRate.getD (o.cfg.C * samples.length) = lr at h1
  cases hl : SubgradientLatent.loop L o.cfg jobs lr samples a 0 ⟨o.w.getD w0, fun _ => 0, o.w.getD w0, o.t⟩
      ⟨[], o.curves.loss⟩ with
  | error e => rw [hl] at h1; cases h1
  | ok r =>
    obtain ⟨st1, c1⟩ := r
    rw [hl] at h1
    simp only at h1
    cases ho : SubgradientLatent.objective L o.cfg.C st1.selfW samples with
    | error e => rw [ho] at h1; cases h1
    | ok obj =>
      rw [ho] at h1
      simp only [Except.ok.injEq] at h1
      subst h1
      simp only [List.length_append, List.length_singleton, Nat.add_right_cancel_iff] at hlen
      refine ⟨obj, by simp, ?_⟩
      have hself : st1.selfW = st1.w := latent_loop_selfW L o.cfg hm ha jobs lr samples a 0 _ _ rfl _ _ hl
      have hsplit := latent_loop_split L o.cfg jobs lr samples b a 0 _ _ _ _ hl
        (by simp only [hlen, List.length_nil, Nat.zero_add])
      have hends := latent_loop_alike L o.cfg hm ha jobs lr samples a hs c1.objective (c1.objective ++ [obj]) b 0 st1
        ⟨st1.selfW, fun _ => 0, st1.selfW, st1.t⟩ [] c1.loss ⟨hself.symm, rfl, hself, rfl⟩
      unfold SubgradientLatent.fit Subgradient.setup
      simp only [withIters, Bool.false_eq_true, if_false, if_true, hlr, latLoop_iters, hsplit, Option.getD_some]
      simp only [Nat.add_zero, List.append_nil] at hends
      rw [Nat.zero_add]
      have hc1 : (⟨c1.objective, c1.loss⟩ : Subgradient.Curves) = c1 := rfl
      rw [hc1] at hends
      revert hends
      generalize SubgradientLatent.loop L o.cfg jobs lr samples b a st1 c1 = r
      generalize SubgradientLatent.loop L o.cfg jobs lr samples b 0
        ⟨st1.selfW, fun _ => 0, st1.selfW, st1.t⟩ ⟨c1.objective ++ [obj], c1.loss⟩ = r'
      intro hends
      cases hends with
      | error e => exact .error e
      | ok st st' new loss hal =>
        have hst : st'.selfW = st.selfW := by rw [hal.2.2.2, hal.2.2.1, hal.1]
        simp only [hst]
        cases SubgradientLatent.objective L o.cfg.C st.selfW samples with
        | error e => exact .error e
        | ok fin =>
          refine .ok _ _ rfl hal.2.1.symm rfl rfl ?_
          simp only [List.append_assoc]
          rw [← hlen, List.take_left, List.drop_left]
          rfl

open Resume in
/-- **C145, after an interrupt.** The same for a training that is interrupted at the start of iteration `a`. -/
theorem C145_interrupt_partial (L : SLModel X Y H) (jobs : Jobs) (w0 w0' : W) (o : Subgradient.Obj)
    (samples : List (X × Y)) (a b : ℕ) (hm : o.cfg.momentum = 0) (ha : o.cfg.averaging = .none)
    (hs : o.cfg.showLossEvery = 0 ∨ o.cfg.showLossEvery ∣ a) (r : Trained Subgradient.Obj)
    (h : latFit L jobs w0 (onlyAt a (.step 0)) o samples false = .ok r) (hit : r.hit = true) :
    ∃ extra, r.obj.curves.objective.getLast? = some extra ∧
      SameTraining a extra (SubgradientLatent.fit L jobs w0 (withIters o (a + b)) samples false)
        (SubgradientLatent.fit L jobs w0' (withIters r.obj b) samples true) := by
  have h1 := C144_start_of_iteration L jobs w0 o samples false a r h hit
  have h2 := (C144_curves_partial L jobs w0 o samples a (.step 0) r h hit).2.1 0 rfl
  exact C145_warm_start_partial L jobs w0 w0' o (withIters r.obj a) samples a b hm ha hs h1 h2

/-! ### violations and non-vacuity -/

/-- a learner with `max_iter = n`, momentum `mu` and averaging `av`. -/
def hiddenResume (n : ℕ) (mu : ℚ) (av : Subgradient.Averaging) : Subgradient.Obj :=
  ⟨⟨n, 1, mu, some (1 / 4), fun _ => 1, false, none, av, false, 1, 0⟩, none, 0, none, ⟨[], []⟩⟩

/-- the weights after `n` iterations and a warm start for `n` more, the weights after `2 * n` iterations, and whether
the first training ran all its iterations. -/
def resumedAndFull (n : ℕ) (mu : ℚ) (av : Subgradient.Averaging) : Option (Option ℚ × Option ℚ × Bool) :=
  (SubgradientLatent.fit hiddenSL .one (fun _ => 0) (hiddenResume n mu av) [((), 0)] false).toOption.bind fun o =>
    (SubgradientLatent.fit hiddenSL .one (fun _ => 0) o [((), 0)] true).toOption.bind fun o2 =>
      (SubgradientLatent.fit hiddenSL .one (fun _ => 0) (hiddenResume (2 * n) mu av) [((), 0)] false).toOption.map
        fun o3 => (o2.w.map (· 0), o3.w.map (· 0), decide (o.curves.objective.length = n + 1))

/-- **C145 does not hold with momentum or averaging**: the accumulated gradient is forgotten, and the averaged weights
are taken for the last iterate. -/
theorem C145_violated_momentum_averaging :
    resumedAndFull 1 (1 / 2) .none = some (some (23 / 128), some (27 / 128), true) ∧
    resumedAndFull 2 0 .linear = some (some (29 / 64), some (311 / 640), true) ∧
    resumedAndFull 2 0 .squared = some (some (619 / 1200), some (2069 / 3840), true) := by
  decide +kernel

/-- Hypotheses of C145 hold for a training whose weights move, and the weights agree. -/
example : resumedAndFull 2 0 .none = some (some (323 / 512), some (323 / 512), true) := by
  decide +kernel

/-- The same for a training that is interrupted at the start of its second iteration. -/
example : ((latFit hiddenSL .one (fun _ => 0) (onlyAt 1 (.step 0)) (hiddenResume 3 0 .none) [((), 0)] false).toOption.bind
    fun r => (SubgradientLatent.fit hiddenSL .one (fun _ => 0) (Resume.withIters r.obj 3) [((), 0)] true).toOption.map
      fun o => (r.hit, o.w.map (· 0))) = some (true, some (323 / 512)) := by
  decide +kernel

end Verif.Props
