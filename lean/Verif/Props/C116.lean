import Verif.Lemmas.Trace
import Verif.Lemmas.NSlackLoop
import Verif.Lemmas.OneSlack
import Verif.Spec.Curve
import Verif.Props.C101
import Verif.Props.C58
import Verif.Props.C70

/-!
# C116: what the training curves contain
-/

namespace Verif.Props

open Finset Verif.Common Verif.Spec Verif.Learner Verif.Lemmas Verif.Unstructured

variable {X Y H : Type}

/-- the loss that a model records for weights. -/
theorem one_sub_score (m : SModel X Y) (w : W) (samples : List (X × Y)) :
    1 - Learner.score m (samples.map Prod.snd) (Learner.predict m w (samples.map Prod.fst)) =
      relativeLoss m.loss m.maxLoss (fun x => m.inference x w) samples := by
  have h : (((samples.map Prod.snd).zip (Learner.predict m w (samples.map Prod.fst))).map fun p => m.loss p.1 p.2) =
      samples.map fun s => m.loss s.2 (m.inference s.1 w) := by
    unfold Learner.predict
    induction samples with
    | nil => rfl
    | cons s l ih =>
      simp only [List.map_cons, List.zip_cons_cons]
      rw [ih]
  unfold Learner.score relativeLoss
  rw [h, List.map_map]
  simp only [sub_sub_cancel]
  rfl

theorem relativeLoss_perm (loss : Y → H → ℚ) (maxLoss : Y → ℚ) (f : X → H) {l l' : List (X × Y)} (h : l.Perm l') :
    relativeLoss loss maxLoss f l = relativeLoss loss maxLoss f l' := by
  unfold relativeLoss
  rw [(h.map _).sum_eq, (h.map fun s => maxLoss s.2).sum_eq]

theorem computeTrainingLoss_eq (m : SModel X Y) (every : ℕ) (w : W) (data samples : List (X × Y)) (hp : data.Perm samples)
    (it : ℕ) (curve : List ℚ) :
    computeTrainingLoss m every w data it curve = if decide (every ≠ 0 ∧ every ∣ it) = true then
      curve ++ [relativeLoss m.loss m.maxLoss (fun x => m.inference x w) samples] else curve := by
  unfold computeTrainingLoss
  rw [one_sub_score, relativeLoss_perm _ _ _ hp]
  simp only [decide_eq_true_eq, Nat.dvd_iff_mod_eq_zero]

theorem objectivePrimal_perm (m : SModel X Y) (w : W) (C : ℚ) (v : Bool) {l l' : List (X × Y)} (h : l.Perm l')
    (hne : l' ≠ []) : objectivePrimal m w l C v = objectivePrimal m w l' C v := by
  have h1 : l ≠ [] := fun h0 => hne (by rw [h0] at h; exact (List.Perm.nil_eq h).symm)
  rw [objectivePrimal_ok m w l C v h1, objectivePrimal_ok m w l' C v hne, (h.map _).sum_eq]

/-! ### SubgradientSSVM -/

/-- One iteration of the subgradient learner. -/
def subStep (m : SModel X Y) (cfg : Subgradient.Config) (lr : ℚ) (order : ℕ → List (X × Y)) (it : ℕ)
    (s : List (X × Y) × Subgradient.St × Subgradient.Curves) :
    Except PyErr ((List (X × Y) × Subgradient.St × Subgradient.Curves) × Bool) :=
  match Subgradient.learn m cfg lr (if cfg.shuffle then order it else s.1) s.2.1 with
  | .error err => .error err
  | .ok (st, positive) =>
    if positive = 0 ∧ cfg.breakOnNoConstraints = true then .ok ((if cfg.shuffle then order it else s.1, st, s.2.2), false)
    else
      match objectivePrimal m st.selfW (if cfg.shuffle then order it else s.1) cfg.C true with
      | .error err => .error err
      | .ok obj =>
        .ok ((if cfg.shuffle then order it else s.1, st, ⟨s.2.2.objective ++ [obj],
          computeTrainingLoss m cfg.showLossEvery st.selfW (if cfg.shuffle then order it else s.1) it s.2.2.loss⟩), true)

theorem sub_loop_iter (m : SModel X Y) (cfg : Subgradient.Config) (lr : ℚ) (order : ℕ → List (X × Y)) :
    ∀ n it data st c, Subgradient.loop m cfg lr order n it data st c = iter (subStep m cfg lr order) n it (data, st, c) := by
  intro n
  induction n with
  | zero => intro it data st c; rfl
  | succ n ih =>
    intro it data st c
    unfold Subgradient.loop iter subStep
    simp only
    generalize (if cfg.shuffle = true then order it else data) = dat
    cases hl : Subgradient.learn m cfg lr dat st with
    | error err => rfl
    | ok r =>
      obtain ⟨st1, p⟩ := r
      simp only
      by_cases hb : p = 0 ∧ cfg.breakOnNoConstraints = true
      · rw [if_pos hb, if_pos hb]
      · rw [if_neg hb, if_neg hb]
        cases ho : objectivePrimal m st1.selfW dat cfg.C true with
        | error err => rfl
        | ok obj => exact ih _ _ _ _

theorem subStep_maxIter (m : SModel X Y) (cfg : Subgradient.Config) (lr : ℚ) (order : ℕ → List (X × Y)) (N : ℕ) :
    subStep m { cfg with maxIter := N } lr order = subStep m cfg lr order := rfl

theorem subStep_ok {m : SModel X Y} {cfg : Subgradient.Config} {lr : ℚ} {order : ℕ → List (X × Y)} {it : ℕ}
    {s s' : List (X × Y) × Subgradient.St × Subgradient.Curves} {b : Bool}
    (samples : List (X × Y)) (hne : samples ≠ []) (hord : ∀ it, (order it).Perm samples) (hs : s.1.Perm samples)
    (h : subStep m cfg lr order it s = .ok (s', b)) :
    s'.1.Perm samples ∧ (b = false → s'.2.2 = s.2.2 ∧ cfg.breakOnNoConstraints = true) ∧
    (b = true → ∃ obj, objectivePrimal m s'.2.1.selfW samples cfg.C true = .ok obj ∧
      s'.2.2.objective = s.2.2.objective ++ [obj] ∧
      s'.2.2.loss = if decide (cfg.showLossEvery ≠ 0 ∧ cfg.showLossEvery ∣ it) = true then
        s.2.2.loss ++ [relativeLoss m.loss m.maxLoss (fun x => m.inference x s'.2.1.selfW) samples] else s.2.2.loss) := by
  unfold subStep at h
  have hd : (if cfg.shuffle = true then order it else s.1).Perm samples := by
    split_ifs
    · exact hord it
    · exact hs
  revert h hd
  generalize (if cfg.shuffle = true then order it else s.1) = dat
  intro h hd
  cases hl : Subgradient.learn m cfg lr dat s.2.1 with
  | error err => rw [hl] at h; cases h
  | ok r =>
    obtain ⟨st1, p⟩ := r
    rw [hl] at h
    simp only at h
    by_cases hb : p = 0 ∧ cfg.breakOnNoConstraints = true
    · rw [if_pos hb] at h
      simp only [Except.ok.injEq, Prod.mk.injEq] at h
      obtain ⟨rfl, rfl⟩ := h
      exact ⟨hd, fun _ => ⟨rfl, hb.2⟩, fun h => by cases h⟩
    · rw [if_neg hb] at h
      cases ho : objectivePrimal m st1.selfW dat cfg.C true with
      | error err => rw [ho] at h; cases h
      | ok obj =>
        rw [ho] at h
        simp only [Except.ok.injEq, Prod.mk.injEq] at h
        obtain ⟨rfl, rfl⟩ := h
        refine ⟨hd, fun h => (by cases h), fun _ => ⟨obj, ?_, rfl, ?_⟩⟩
        · rw [← objectivePrimal_perm m _ _ _ hd hne]
          exact ho
        · exact computeTrainingLoss_eq m _ _ _ _ hd _ _

/-- **C116, subgradient learner.** `fit` that returns performed some number `K` of complete iterations; the weights after
iteration `i` are those that `fit` with `max_iter = i + 1` returns. `loss_curve_` is continued by their relative training
loss for the iterations divisible by `show_loss_every`, and `objective_curve_` consists of the regularised risks of all of
them and of the final weights. -/
theorem C116_subgradient (m : SModel X Y) (outputs : X → Set Y)
    (hLA : (problemOf m outputs).ExactLossAug (fun x y w => m.lossAug x y w true))
    (order : ℕ → List (X × Y)) (samples : List (X × Y)) (hne : samples ≠ [])
    (hl : (problemOf m outputs).Labelled samples) (hord : ∀ it, (order it).Perm samples)
    (o o' : Subgradient.Obj) (warm : Bool) (h : Subgradient.fit m order o samples warm = .ok o') :
    ∃ K ≤ o.cfg.maxIter, (o.cfg.breakOnNoConstraints = false → K = o.cfg.maxIter) ∧ ∃ (ws : ℕ → W) (w : W),
      (∀ i < K, ∃ oi, Subgradient.fit m order (withMaxIter o (i + 1)) samples warm = .ok oi ∧ oi.w = some (ws i)) ∧
      o'.w = some w ∧ (0 < K → K = o.cfg.maxIter → w = ws (K - 1)) ∧
      o'.curves.loss = o.curves.loss ++ recorded o.cfg.showLossEvery K (fun i =>
        relativeLoss m.loss m.maxLoss (fun x => m.inference x (ws i)) samples) ∧
      ∃ (obj : ℕ → ℚ) (last : ℚ), (∀ i < K, (problemOf m outputs).IsObjective o.cfg.C samples (ws i) (obj i)) ∧
        (problemOf m outputs).IsObjective o.cfg.C samples w last ∧
        o'.curves.objective = (if warm then o.curves.objective else []) ++ (List.range K).map obj ++ [last] := by
  have hobj : ∀ w, ∃ v, objectivePrimal m w samples o.cfg.C true = .ok v ∧
      (problemOf m outputs).IsObjective o.cfg.C samples w v := fun w =>
    C30_objective m outputs hLA samples hl hne w o.cfg.C true
  unfold Subgradient.fit at h
  simp only at h
  cases hs : Subgradient.setup o samples.length warm with
  | error err => rw [hs] at h; cases h
  | ok r =>
    obtain ⟨lr, curve⟩ := r
    have hcurve : curve = if warm then o.curves.objective else [] := by
      unfold Subgradient.setup at hs
      cases warm with
      | false =>
        simp only [Bool.false_eq_true, if_false, Except.ok.injEq, Prod.mk.injEq] at hs ⊢
        exact hs.2.symm
      | true =>
        simp only [if_true] at hs ⊢
        cases ho : o.lr with
        | none => rw [ho] at hs; cases hs
        | some v =>
          rw [ho] at hs
          simp only [Except.ok.injEq, Prod.mk.injEq] at hs
          exact hs.2.symm
    rw [hs] at h
    simp only at h
    rw [sub_loop_iter] at h
    set s0 : List (X × Y) × Subgradient.St × Subgradient.Curves :=
      (samples, ⟨o.w.getD fun _ => 0, fun _ => 0, o.w.getD fun _ => 0, o.t⟩, ⟨curve, o.curves.loss⟩) with hs0
    cases hi : iter (subStep m o.cfg lr order) o.cfg.maxIter 0 s0 with
    | error err => rw [hi] at h; cases h
    | ok s' =>
      rw [hi] at h
      obtain ⟨K, tr, t0, t1, t2, t3⟩ := iter_trace _ _ _ _ _ hi
      have hperm : ∀ i ≤ K, (tr i).1.Perm samples := by
        intro i
        induction i with
        | zero => intro _; rw [t0]
        | succ i ih => intro hi; exact (subStep_ok samples hne hord (ih (by omega)) (t1 i (by omega))).1
      have hstep := fun i (hi : i < K) => (subStep_ok samples hne hord (hperm i hi.le) (t1 i hi)).2.2 rfl
      have hend : s'.1.Perm samples ∧ s'.2.2 = (tr K).2.2 ∧ (o.cfg.breakOnNoConstraints = false → K = o.cfg.maxIter) ∧
          (K = o.cfg.maxIter → s' = tr K) := by
        rcases t3 with ⟨a, b⟩ | ⟨a, b, -⟩
        · exact ⟨b ▸ hperm K le_rfl, by rw [b], fun _ => a, fun _ => b⟩
        · obtain ⟨c1, c2, -⟩ := subStep_ok samples hne hord (hperm K le_rfl) b
          exact ⟨c1, (c2 rfl).1, fun h0 => (by rw [(c2 rfl).2] at h0; cases h0), fun h0 => (by omega)⟩
      obtain ⟨e1, e2, e3, e4⟩ := hend
      obtain ⟨last, l1, l2⟩ := hobj s'.2.1.selfW
      rw [← objectivePrimal_perm m _ _ _ e1 hne] at l1
      simp only [l1, Except.ok.injEq] at h
      subst h
      choose obj ho1 ho2 using fun i => hobj (tr (i + 1)).2.1.selfW
      refine ⟨K, ?_, e3, fun i => (tr (i + 1)).2.1.selfW, s'.2.1.selfW, ?_, rfl, ?_, ?_, obj, last, fun i _ => ho2 i, l2, ?_⟩
      · rcases t3 with ⟨a, -⟩ | ⟨a, -, -⟩ <;> omega
      · intro i hi
        obtain ⟨v, v1, -⟩ := hobj (tr (i + 1)).2.1.selfW
        rw [← objectivePrimal_perm m _ _ _ (hperm (i + 1) hi) hne] at v1
        refine ⟨⟨{ o.cfg with maxIter := i + 1 }, some (tr (i + 1)).2.1.selfW, (tr (i + 1)).2.1.t, some lr,
            ⟨(tr (i + 1)).2.2.objective ++ [v], (tr (i + 1)).2.2.loss⟩⟩, ?_, rfl⟩
        unfold Subgradient.fit
        simp only
        have hs' : Subgradient.setup (withMaxIter o (i + 1)) samples.length warm = .ok (lr, curve) := hs
        have hl' : Subgradient.loop m (withMaxIter o (i + 1)).cfg lr order (withMaxIter o (i + 1)).cfg.maxIter 0 samples
            ⟨(withMaxIter o (i + 1)).w.getD fun _ => 0, fun _ => 0, (withMaxIter o (i + 1)).w.getD fun _ => 0,
              (withMaxIter o (i + 1)).t⟩ ⟨curve, (withMaxIter o (i + 1)).curves.loss⟩ = .ok (tr (i + 1)) := by
          rw [sub_loop_iter]
          exact t2 (i + 1) hi
        rw [hs']
        simp only
        rw [hl']
        simp only
        have v2 : objectivePrimal m (tr (i + 1)).2.1.selfW (tr (i + 1)).1 (withMaxIter o (i + 1)).cfg.C true = .ok v := v1
        rw [v2]
        rfl
      · intro h0 h1
        rw [e4 h1]
        simp only
        rw [show K - 1 + 1 = K by omega]
      · change s'.2.2.loss = _
        rw [e2]
        have := grown (fun i => (tr i).2.2.loss)
          (fun i => decide (o.cfg.showLossEvery ≠ 0 ∧ o.cfg.showLossEvery ∣ i))
          (fun i => relativeLoss m.loss m.maxLoss (fun x => m.inference x (tr (i + 1)).2.1.selfW) samples) K (by
            intro i hi
            obtain ⟨_, -, -, h3⟩ := hstep i hi
            rw [zero_add] at h3
            exact h3)
        rw [this, t0]
        rfl
      · change s'.2.2.objective ++ [last] = _
        rw [e2]
        have := grown (fun i => (tr i).2.2.objective) (fun _ => true) obj K (by
            intro i hi
            obtain ⟨v, h1, h2, -⟩ := hstep i hi
            rw [ho1 i, Except.ok.injEq] at h1
            rw [if_pos rfl, h1]
            exact h2)
        simp only [List.filter_true] at this
        rw [this, t0, ← hcurve]

/-! ### SubgradientLatentSSVM -/

/-- One iteration of the latent subgradient learner. -/
def latStep (L : SubgradientLatent.SLModel X Y H) (cfg : Subgradient.Config) (jobs : SubgradientLatent.Jobs) (lr : ℚ)
    (samples : List (X × Y)) (it : ℕ) (s : Subgradient.St × Subgradient.Curves) :
    Except PyErr ((Subgradient.St × Subgradient.Curves) × Bool) :=
  match SubgradientLatent.pass L cfg jobs lr samples s.1 with
  | .error err => .error err
  | .ok (st, positive, obj) =>
    if positive = 0 ∧ cfg.breakOnNoConstraints = true then .ok ((st, s.2), false)
    else .ok ((st, ⟨s.2.objective ++ [obj * cfg.C + (∑ k ∈ range L.m.dim, st.selfW k ^ 2) / 2],
      SubgradientLatent.trainingLoss L cfg.showLossEvery st.selfW samples it s.2.loss⟩), true)

theorem lat_loop_iter (L : SubgradientLatent.SLModel X Y H) (cfg : Subgradient.Config) (jobs : SubgradientLatent.Jobs)
    (lr : ℚ) (samples : List (X × Y)) : ∀ n it st c, SubgradientLatent.loop L cfg jobs lr samples n it st c =
      iter (latStep L cfg jobs lr samples) n it (st, c) := by
  intro n
  induction n with
  | zero => intro it st c; rfl
  | succ n ih =>
    intro it st c
    unfold SubgradientLatent.loop iter latStep
    simp only
    cases hl : SubgradientLatent.pass L cfg jobs lr samples st with
    | error err => rfl
    | ok r =>
      obtain ⟨st1, p, obj⟩ := r
      simp only
      by_cases hb : p = 0 ∧ cfg.breakOnNoConstraints = true
      · rw [if_pos hb, if_pos hb]
      · rw [if_neg hb, if_neg hb]
        exact ih _ _ _

theorem latStep_ok {L : SubgradientLatent.SLModel X Y H} {cfg : Subgradient.Config} {jobs : SubgradientLatent.Jobs}
    {lr : ℚ} {samples : List (X × Y)} {it : ℕ} {s s' : Subgradient.St × Subgradient.Curves} {b : Bool}
    (h : latStep L cfg jobs lr samples it s = .ok (s', b)) :
    (b = false → s'.2 = s.2 ∧ cfg.breakOnNoConstraints = true) ∧
    (b = true → s'.2.loss = if decide (cfg.showLossEvery ≠ 0 ∧ cfg.showLossEvery ∣ it) = true then
        s.2.loss ++ [relativeLoss L.lossLabel L.maxLoss (fun x => L.m.inference x s'.1.selfW) samples] else s.2.loss) ∧
    (b = true → s'.2.objective.length = s.2.objective.length + 1) := by
  unfold latStep at h
  cases hl : SubgradientLatent.pass L cfg jobs lr samples s.1 with
  | error err => rw [hl] at h; cases h
  | ok r =>
    obtain ⟨st1, p, obj⟩ := r
    rw [hl] at h
    simp only at h
    by_cases hb : p = 0 ∧ cfg.breakOnNoConstraints = true
    · rw [if_pos hb] at h
      simp only [Except.ok.injEq, Prod.mk.injEq] at h
      obtain ⟨rfl, rfl⟩ := h
      exact ⟨fun _ => ⟨rfl, hb.2⟩, fun h => (by cases h), fun h => (by cases h)⟩
    · rw [if_neg hb] at h
      simp only [Except.ok.injEq, Prod.mk.injEq] at h
      obtain ⟨rfl, rfl⟩ := h
      refine ⟨fun h => (by cases h), fun _ => ?_, fun _ => by simp⟩
      simp only
      unfold SubgradientLatent.trainingLoss SubgradientLatent.score relativeLoss
      simp only [sub_sub_cancel, decide_eq_true_eq, Nat.dvd_iff_mod_eq_zero]

/-- **C116, latent subgradient learner.** As for the subgradient learner: `loss_curve_` is continued by the relative loss
of the true labels against the predicted completions, for the iterations divisible by `show_loss_every`, and
`objective_curve_` gains an entry for every complete iteration and one for the final weights. -/
theorem C116_latent (L : SubgradientLatent.SLModel X Y H) (jobs : SubgradientLatent.Jobs) (w0 : W)
    (samples : List (X × Y)) (o o' : Subgradient.Obj) (warm : Bool)
    (h : SubgradientLatent.fit L jobs w0 o samples warm = .ok o') :
    ∃ K ≤ o.cfg.maxIter, (o.cfg.breakOnNoConstraints = false → K = o.cfg.maxIter) ∧ ∃ (ws : ℕ → W) (w : W),
      (∀ i < K, ∃ oi, SubgradientLatent.fit L jobs w0 (withMaxIter o (i + 1)) samples warm = .ok oi ∧
        oi.w = some (ws i)) ∧
      o'.w = some w ∧ (0 < K → K = o.cfg.maxIter → w = ws (K - 1)) ∧
      o'.curves.loss = o.curves.loss ++ recorded o.cfg.showLossEvery K (fun i =>
        relativeLoss L.lossLabel L.maxLoss (fun x => L.m.inference x (ws i)) samples) ∧
      o'.curves.objective.length = (if warm then o.curves.objective.length else 0) + K + 1 := by
  unfold SubgradientLatent.fit at h
  cases hs : Subgradient.setup o samples.length warm with
  | error err => rw [hs] at h; cases h
  | ok r =>
    obtain ⟨lr, curve⟩ := r
    have hcurve : curve.length = if warm then o.curves.objective.length else 0 := by
      unfold Subgradient.setup at hs
      cases warm with
      | false =>
        simp only [Bool.false_eq_true, if_false, Except.ok.injEq, Prod.mk.injEq] at hs ⊢
        rw [← hs.2]; rfl
      | true =>
        simp only [if_true] at hs ⊢
        cases ho : o.lr with
        | none => rw [ho] at hs; cases hs
        | some v =>
          rw [ho] at hs
          simp only [Except.ok.injEq, Prod.mk.injEq] at hs
          rw [← hs.2]
    rw [hs] at h
    simp only at h
    rw [lat_loop_iter] at h
    set s0 : Subgradient.St × Subgradient.Curves :=
      (⟨o.w.getD w0, fun _ => 0, o.w.getD w0, o.t⟩, ⟨curve, o.curves.loss⟩) with hs0
    cases hi : iter (latStep L o.cfg jobs lr samples) o.cfg.maxIter 0 s0 with
    | error err => rw [hi] at h; cases h
    | ok s' =>
      rw [hi] at h
      simp only at h
      have hne : samples.isEmpty = false := by
        cases samples with
        | nil => cases h
        | cons a l => rfl
      have hobj : ∀ C w, ∃ v, SubgradientLatent.objective L C w samples = .ok v := by
        intro C w
        unfold SubgradientLatent.objective
        rw [if_neg (by rw [hne]; decide)]
        exact ⟨_, rfl⟩
      obtain ⟨K, tr, t0, t1, t2, t3⟩ := iter_trace _ _ _ _ _ hi
      have hstep := fun i (hi : i < K) => (latStep_ok (t1 i hi)).2
      have hend : s'.2 = (tr K).2 ∧ (o.cfg.breakOnNoConstraints = false → K = o.cfg.maxIter) ∧
          (K = o.cfg.maxIter → s' = tr K) := by
        rcases t3 with ⟨a, b⟩ | ⟨a, b, -⟩
        · exact ⟨by rw [b], fun _ => a, fun _ => b⟩
        · obtain ⟨c2, -⟩ := latStep_ok b
          exact ⟨(c2 rfl).1, fun h0 => (by rw [(c2 rfl).2] at h0; cases h0), fun h0 => (by omega)⟩
      obtain ⟨e2, e3, e4⟩ := hend
      obtain ⟨last, l1⟩ := hobj o.cfg.C s'.1.selfW
      simp only [l1, Except.ok.injEq] at h
      subst h
      refine ⟨K, ?_, e3, fun i => (tr (i + 1)).1.selfW, s'.1.selfW, ?_, rfl, ?_, ?_, ?_⟩
      · rcases t3 with ⟨a, -⟩ | ⟨a, -, -⟩ <;> omega
      · intro i hi
        obtain ⟨v, v1⟩ := hobj o.cfg.C (tr (i + 1)).1.selfW
        refine ⟨⟨{ o.cfg with maxIter := i + 1 }, some (tr (i + 1)).1.selfW, (tr (i + 1)).1.t, some lr,
            ⟨(tr (i + 1)).2.objective ++ [v], (tr (i + 1)).2.loss⟩⟩, ?_, rfl⟩
        unfold SubgradientLatent.fit
        have hs' : Subgradient.setup (withMaxIter o (i + 1)) samples.length warm = .ok (lr, curve) := hs
        have hl' : SubgradientLatent.loop L (withMaxIter o (i + 1)).cfg jobs lr samples
            (withMaxIter o (i + 1)).cfg.maxIter 0
            ⟨(withMaxIter o (i + 1)).w.getD w0, fun _ => 0, (withMaxIter o (i + 1)).w.getD w0,
              (withMaxIter o (i + 1)).t⟩ ⟨curve, (withMaxIter o (i + 1)).curves.loss⟩ = .ok (tr (i + 1)) := by
          rw [lat_loop_iter]
          exact t2 (i + 1) hi
        rw [hs']
        simp only
        rw [hl']
        simp only
        have v2 : SubgradientLatent.objective L (withMaxIter o (i + 1)).cfg.C (tr (i + 1)).1.selfW samples = .ok v := v1
        rw [v2]
        rfl
      · intro h0 h1
        rw [e4 h1]
        simp only
        rw [show K - 1 + 1 = K by omega]
      · change s'.2.loss = _
        rw [e2]
        have := grown (fun i => (tr i).2.loss)
          (fun i => decide (o.cfg.showLossEvery ≠ 0 ∧ o.cfg.showLossEvery ∣ i))
          (fun i => relativeLoss L.lossLabel L.maxLoss (fun x => L.m.inference x (tr (i + 1)).1.selfW) samples) K (by
            intro i hi
            have h3 := (hstep i hi).1 rfl
            rw [zero_add] at h3
            exact h3)
        rw [this, t0]
        rfl
      · change (s'.2.objective ++ [last]).length = _
        rw [e2, List.length_append, List.length_singleton, ← hcurve]
        have hlen : ∀ i ≤ K, (tr i).2.objective.length = curve.length + i := by
          intro i
          induction i with
          | zero => intro _; rw [t0]; rfl
          | succ i ih => intro hi; rw [(hstep i (by omega)).2 rfl, ih (by omega)]; ring
        rw [hlen K le_rfl]

/-! ### OneSlackSSVM -/

/-- the loss curve after an iteration that adds a constraint. -/
theorem addConstraint_loss {qp : QP.Solver} {cfg : OneSlack.Config} {samples : List (X × Y)} {it : ℕ}
    {intr : Option OneSlack.Phase} {st st' : OneSlack.St X Y} {f : OneSlack.Found Y} {cached b : Bool}
    (h : OneSlack.addConstraint qp cfg samples it intr st f cached = .ok (st', b)) :
    st'.lossCurve = computeTrainingLoss st.model cfg.showLossEvery st.w samples it st.lossCurve := by
  unfold OneSlack.addConstraint at h
  simp only at h
  by_cases h1 : intr = some .qp
  · rw [if_pos h1] at h
    simp only [Except.ok.injEq, Prod.mk.injEq] at h
    rw [← h.1]
  · rw [if_neg h1] at h
    cases hs : OneSlack.solveQP qp st.model.dim cfg.negativity (cfg.C * samples.length)
        (st.constraints ++ [(f.dj, f.loss)]) with
    | error err => rw [hs] at h; cases h
    | ok sol =>
      rw [hs] at h
      simp only at h
      cases hp : OneSlack.prune cfg (st.constraints ++ [(f.dj, f.loss)]) st.alphas sol.x with
      | error err => rw [hp] at h; cases h
      | ok r =>
        obtain ⟨cs', al'⟩ := r
        rw [hp] at h
        simp only at h
        split_ifs at h with h2
        · simp only [Except.ok.injEq, Prod.mk.injEq] at h
          rw [← h.1]
        · cases hn : OneSlack.newLastSlack st.model.dim
              (OneSlack.weightsOf (st.constraints ++ [(f.dj, f.loss)]) sol.x) cs' with
          | error err => rw [hn] at h; cases h
          | ok s =>
            rw [hn] at h
            simp only [Except.ok.injEq, Prod.mk.injEq] at h
            rw [← h.1]

/-- the violation of a constraint that was found by inference is the mean of the violations of the outputs found. -/
theorem findNew_sum {cfg : OneSlack.Config} {st : OneSlack.St X Y} {samples : List (X × Y)} (outputs : X → Set Y)
    (hne : samples ≠ []) {f : OneSlack.Found Y}
    (h : OneSlack.findNew cfg st (OneSlack.jointFeatureGt st.model samples) samples = .ok (some f)) :
    samples.length * (-dot st.model.dim st.w f.dj + f.loss) = (samples.map fun s =>
      (problemOf st.model outputs).violation st.w s.1 s.2 (st.model.lossAug s.1 s.2 st.w true)).sum := by
  have hn : (samples.length : ℚ) ≠ 0 := by
    have := List.length_pos_iff.mpr hne
    positivity
  unfold OneSlack.findNew at h
  simp only at h
  split at h
  · cases h
  · simp at h
  · simp only [Except.ok.injEq, Option.some.injEq] at h
    subst h
    simp only [List.map_map]
    have e1 : dot st.model.dim st.w (fun k => (OneSlack.jointFeatureGt st.model samples k -
        (samples.map ((fun p : (X × Y) × Y => st.model.feat p.1.1 p.2 p.1.2 k) ∘
          fun s => (s, st.model.lossAug s.1 s.2 st.w true))).sum) / samples.length) * samples.length =
        (samples.map fun s => dot st.model.dim st.w fun k =>
          -st.model.feat s.1 (st.model.lossAug s.1 s.2 st.w true) s.2 k + st.model.feat s.1 s.2 s.2 k).sum := by
      unfold dot
      rw [Finset.sum_mul]
      have : ∀ l : List (X × Y), (l.map fun s => ∑ k ∈ range st.model.dim, st.w k *
          (-st.model.feat s.1 (st.model.lossAug s.1 s.2 st.w true) s.2 k + st.model.feat s.1 s.2 s.2 k)).sum =
          ∑ k ∈ range st.model.dim, st.w k * ((l.map fun s => st.model.feat s.1 s.2 s.2 k).sum -
            (l.map fun s => st.model.feat s.1 (st.model.lossAug s.1 s.2 st.w true) s.2 k).sum) := by
        intro l
        induction l with
        | nil => simp
        | cons s l ih =>
          simp only [List.map_cons, List.sum_cons]
          rw [ih, ← sum_add_distrib]
          exact sum_congr rfl fun k _ => by ring
      rw [this]
      refine sum_congr rfl fun k _ => ?_
      rw [mul_assoc, div_mul_cancel₀ _ hn]
      rfl
    rw [mul_add, mul_neg, mul_comm, e1, mul_div_cancel₀ _ hn]
    have e2 : ∀ l : List (X × Y), -(l.map fun s => dot st.model.dim st.w fun k =>
          -st.model.feat s.1 (st.model.lossAug s.1 s.2 st.w true) s.2 k + st.model.feat s.1 s.2 s.2 k).sum +
        (l.map ((fun p : (X × Y) × Y => st.model.lossOf p.1.2 p.2) ∘
          fun s => (s, st.model.lossAug s.1 s.2 st.w true))).sum =
        (l.map fun s => (problemOf st.model outputs).violation st.w s.1 s.2
          (st.model.lossAug s.1 s.2 st.w true)).sum := by
      intro l
      induction l with
      | nil => simp
      | cons s l ih =>
        simp only [List.map_cons, List.sum_cons, Function.comp] at ih ⊢
        rw [← ih, ← dot_delta st.model outputs st.w s.1 s.2]
        ring
    exact e2 samples

/-- The learner `o` with another `max_iter`. -/
def osWithMaxIter (o : OneSlack.Obj Y) (N : ℕ) : OneSlack.Obj Y := { o with cfg := { o.cfg with maxIter := N } }

theorem one_loop_iter (qp : QP.Solver) (eq : Y → Y → Except PyErr Bool)
    (alt : Option ((X → Y → W → Bool → Y) × (X → W → Y))) (cfg : OneSlack.Config) (samples : List (X × Y)) (gt : W)
    (intr : ℕ → Option OneSlack.Phase) : ∀ n it st, OneSlack.loop qp eq alt cfg samples gt intr n it st =
      iter (fun it st => OneSlack.iteration qp eq alt cfg samples gt it (intr it) st) n it st := by
  intro n
  induction n with
  | zero => intro it st; rfl
  | succ n ih =>
    intro it st
    unfold OneSlack.loop iter
    cases hi : OneSlack.iteration qp eq alt cfg samples gt it (intr it) st with
    | error err => rfl
    | ok r =>
      obtain ⟨st1, b⟩ := r
      cases b with
      | false => rfl
      | true => exact ih _ _

/-- what an iteration that goes on records. -/
theorem one_records {m : SModel X Y} {outputs : X → Set Y}
    (hLA : (problemOf m outputs).ExactLossAug (fun x y w => m.lossAug x y w true))
    {qp : QP.Solver} {eq : Y → Y → Except PyErr Bool} {cfg : OneSlack.Config}
    {samples : List (X × Y)} (hne : samples ≠ []) (hl : (problemOf m outputs).Labelled samples) {it : ℕ}
    {st st' : OneSlack.St X Y} (hm : st.model = m)
    (h : OneSlack.iteration qp eq none cfg samples (OneSlack.jointFeatureGt m samples) it none st = .ok (st', true)) :
    st'.model = m ∧ ∃ d p c, st'.objective = some d ∧ st'.objectiveCurve = st.objectiveCurve ++ [d] ∧
      st'.primalCurve = st.primalCurve ++ [p] ∧ st'.cachedFlags = st.cachedFlags ++ [c] ∧
      (c = false → (problemOf m outputs).IsObjective cfg.C samples st.w p) ∧
      st'.lossCurve = if decide (cfg.showLossEvery ≠ 0 ∧ cfg.showLossEvery ∣ it) = true then
        st.lossCurve ++ [relativeLoss m.loss m.maxLoss (fun x => m.inference x st.w) samples] else st.lossCurve := by
  rcases OneSlack.iteration_ok h with ⟨-, hb, -⟩ | ⟨la, inf, ha, -⟩ | ⟨-, f, cached, cache, hf, hadd⟩
  · cases hb
  · cases ha
  · have hloss := addConstraint_loss hadd
    obtain ⟨a1, -, -, a4, a5, a6⟩ := OneSlack.addConstraint_ok hadd
    rcases a6 with ⟨h1, -⟩ | ⟨-, sol, -, -, -, a7, a8⟩
    · cases h1
    rcases a8 with ⟨h1, -⟩ | ⟨-, -, a9, -⟩
    · cases h1
    simp only at a1 a4 a5 a9 hloss
    refine ⟨a1.trans hm, _, _, cached, a7, a9, a4, a5, ?_, ?_⟩
    · intro hc
      rcases hf with ⟨-, hc', -⟩ | ⟨hfn, -, -⟩
      · rw [hc] at hc'; cases hc'
      rw [← hm] at hfn hLA hl ⊢
      have hsum := findNew_sum outputs hne hfn
      have hslack : ∀ s ∈ samples, (problemOf st.model outputs).violation st.w s.1 s.2
          (st.model.lossAug s.1 s.2 st.w true) = sampleSlack st.model st.w s := fun s hs =>
        (C29_slack st.model outputs true hLA s.1 s.2 st.w (hl s hs).1 (hl s hs).2).2.2.2.1.symm
      rw [List.map_congr_left hslack] at hsum
      obtain ⟨v, v1, v2⟩ := C30_objective st.model outputs hLA samples hl hne st.w cfg.C true
      rw [objectivePrimal_ok _ _ _ _ _ hne, Except.ok.injEq] at v1
      have hpos : 0 < (samples.length : ℚ) := by exact_mod_cast List.length_pos_iff.mpr hne
      have hnn := list_sum_nonneg samples (sampleSlack st.model st.w) fun s _ => sampleSlack_nonneg _ _ _
      have hmax : max (-dot st.model.dim st.w f.dj + f.loss) 0 = -dot st.model.dim st.w f.dj + f.loss := by
        refine max_eq_left ?_
        rw [← hsum] at hnn
        exact nonneg_of_mul_nonneg_right hnn hpos
      rw [hmax, mul_assoc, hsum, mul_comm, v1]
      exact v2
    · rw [hloss, computeTrainingLoss_eq st.model _ _ _ _ (List.Perm.refl _), hm]

/-- **C116, one-slack learner.** Let `fit` from scratch return. Then there are a number `K` of iterations that added a
constraint and weights `ws`, starting with 0, such that `fit` with `max_iter = i` returns `ws i` for `0 < i ≤ K`, and the
result is the one for `max_iter = K`. For each of these learners: `objective_curve_` has an entry for every iteration and
repeats the last one; `primal_objective_curve_` has an entry for every iteration, which is the regularised risk of the
weights *before* the iteration if the constraint was not taken from the cache, and ends with the regularised risk of the
final weights; `loss_curve_` is continued by the relative training loss of the weights before the iterations divisible by
`show_loss_every`. -/
theorem C116_one_slack (m : SModel X Y) (outputs : X → Set Y)
    (hLA : (problemOf m outputs).ExactLossAug (fun x y w => m.lossAug x y w true))
    (qp : QP.Solver) (eq : Y → Y → Except PyErr Bool) (samples : List (X × Y)) (hne : samples ≠ [])
    (hl : (problemOf m outputs).Labelled samples) (o o' : OneSlack.Obj Y)
    (h : OneSlack.fit m qp eq none (fun _ => none) o samples .no = .ok o') :
    ∃ K ≤ o.cfg.maxIter, 0 < K ∧ ∃ (ws : ℕ → W) (d p : ℕ → ℚ) (cached : ℕ → Bool),
      ws 0 = (fun _ => 0) ∧
      (∀ i < K, cached i = false → (problemOf m outputs).IsObjective o.cfg.C samples (ws i) (p i)) ∧
      (∀ i, 0 < i → i ≤ K → ∃ oi a r,
        OneSlack.fit m qp eq none (fun _ => none) (osWithMaxIter o i) samples .no = .ok oi ∧
        oi.attrs = some a ∧ a.w = ws i ∧
        (problemOf m outputs).IsObjective o.cfg.C samples (ws i) r ∧
        a.objectiveCurve = (List.range i).map d ++ [d (i - 1)] ∧
        a.primalCurve = (List.range i).map p ++ [r] ∧
        a.cachedFlags = (List.range i).map cached ++ [false] ∧
        oi.lossCurve = o.lossCurve ++ recorded o.cfg.showLossEvery i (fun j =>
          relativeLoss m.loss m.maxLoss (fun x => m.inference x (ws j)) samples)) ∧
      ∃ oK, OneSlack.fit m qp eq none (fun _ => none) (osWithMaxIter o K) samples .no = .ok oK ∧
        o' = { oK with cfg := o.cfg } := by
  have hobj : ∀ w, ∃ v, objectivePrimal m w samples o.cfg.C false = .ok v ∧
      (problemOf m outputs).IsObjective o.cfg.C samples w v := fun w =>
    C30_objective m outputs hLA samples hl hne w o.cfg.C false
  unfold OneSlack.fit at h
  cases hs : OneSlack.start m o .no with
  | error err => rw [hs] at h; cases h
  | ok st0 =>
    rw [hs] at h
    simp only at h
    rw [one_loop_iter] at h
    have hst0 : st0.model = m ∧ st0.w = (fun _ => 0) ∧ st0.objectiveCurve = [] ∧ st0.primalCurve = [] ∧
        st0.cachedFlags = [] ∧ st0.lossCurve = o.lossCurve ∧ st0.objective = none := by
      unfold OneSlack.start at hs
      simp only [Except.ok.injEq] at hs
      subst hs
      exact ⟨rfl, rfl, rfl, rfl, rfl, rfl, rfl⟩
    obtain ⟨s1, s2, s3, s4, s5, s6, s7⟩ := hst0
    cases hi : iter (fun it st => OneSlack.iteration qp eq none o.cfg samples (OneSlack.jointFeatureGt m samples) it
        none st) o.cfg.maxIter 0 st0 with
    | error err => rw [hi] at h; cases h
    | ok s' =>
      rw [hi] at h
      simp only at h
      obtain ⟨K, tr, t0, t1, t2, t3⟩ := iter_trace _ _ _ _ _ hi
      simp only [zero_add] at t1 t3
      have hmod : ∀ i ≤ K, (tr i).model = m := by
        intro i
        induction i with
        | zero => intro _; rw [t0]; exact s1
        | succ i ih => intro hi; exact (one_records hLA hne hl (ih (by omega)) (t1 i (by omega))).1
      have hend : s' = tr K := by
        rcases t3 with ⟨-, b⟩ | ⟨-, b, -⟩
        · exact b
        · rcases OneSlack.iteration_ok b with ⟨b1, -⟩ | ⟨_, _, _, _, hb, -⟩ | ⟨-, f, cached, cache, -, hadd⟩
          · exact b1
          · cases hb
          · obtain ⟨-, -, -, -, -, a6⟩ := OneSlack.addConstraint_ok hadd
            rcases a6 with ⟨h1, -⟩ | ⟨-, sol, -, -, -, -, a8⟩
            · cases h1
            rcases a8 with ⟨h1, -⟩ | ⟨-, h1, -⟩ <;> cases h1
      have hstep : ∀ i, ∃ d p c, i < K → (tr (i + 1)).objective = some d ∧
          (tr (i + 1)).objectiveCurve = (tr i).objectiveCurve ++ [d] ∧
          (tr (i + 1)).primalCurve = (tr i).primalCurve ++ [p] ∧
          (tr (i + 1)).cachedFlags = (tr i).cachedFlags ++ [c] ∧
          (c = false → (problemOf m outputs).IsObjective o.cfg.C samples (tr i).w p) ∧
          (tr (i + 1)).lossCurve = if decide (o.cfg.showLossEvery ≠ 0 ∧ o.cfg.showLossEvery ∣ i) = true then
            (tr i).lossCurve ++ [relativeLoss m.loss m.maxLoss (fun x => m.inference x (tr i).w) samples]
            else (tr i).lossCurve := by
        intro i
        by_cases hi : i < K
        · obtain ⟨-, d, p, c, hd⟩ := one_records hLA hne hl (hmod i hi.le) (t1 i hi)
          exact ⟨d, p, c, fun _ => hd⟩
        · exact ⟨0, 0, true, fun h => absurd h hi⟩
      choose d p cached hdpc using hstep
      have hK : 0 < K := by
        rcases Nat.eq_zero_or_pos K with h0 | h0
        · rw [hend, h0, t0, s7] at h
          simp only at h
          cases hp : objectivePrimal st0.model st0.w samples o.cfg.C false with
          | error err => rw [hp] at h; cases h
          | ok v => rw [hp] at h; cases h
        · exact h0
      have hfit : ∀ i, 0 < i → i ≤ K → ∀ r, objectivePrimal m (tr i).w samples o.cfg.C false = .ok r → ∀ N,
          OneSlack.loop qp eq none (osWithMaxIter o N).cfg samples (OneSlack.jointFeatureGt m samples)
            (fun _ => none) N 0 st0 = .ok (tr i) →
          OneSlack.fit m qp eq none (fun _ => none) (osWithMaxIter o N) samples .no =
            .ok ⟨{ o.cfg with maxIter := N }, some ⟨(tr i).w,
              if (tr i).shared then some (tr i).constraints else o.attrs.bind (·.constraints), (tr i).alphas,
              (tr i).objectiveCurve ++ [d (i - 1)], (tr i).primalCurve ++ [r], (tr i).cachedFlags ++ [false],
              (tr i).cache⟩, (tr i).lossCurve⟩ := by
        intro i hi0 hi r hr N hloop
        unfold OneSlack.fit
        have hs' : OneSlack.start m (osWithMaxIter o N) .no = .ok st0 := hs
        rw [hs']
        simp only
        have hloop' : OneSlack.loop qp eq none (osWithMaxIter o N).cfg samples (OneSlack.jointFeatureGt m samples)
            (fun _ => none) (osWithMaxIter o N).cfg.maxIter 0 st0 = .ok (tr i) := hloop
        rw [hloop']
        simp only
        have hr' : objectivePrimal (tr i).model (tr i).w samples (osWithMaxIter o N).cfg.C false = .ok r := by
          rw [hmod i hi]; exact hr
        rw [hr']
        simp only
        have ho : (tr i).objective = some (d (i - 1)) := by
          have := (hdpc (i - 1) (by omega)).1
          rwa [show i - 1 + 1 = i by omega] at this
        rw [ho]
        rfl
      have hloop : ∀ i ≤ K, OneSlack.loop qp eq none (osWithMaxIter o i).cfg samples
          (OneSlack.jointFeatureGt m samples) (fun _ => none) i 0 st0 = .ok (tr i) := by
        intro i hi
        rw [one_loop_iter]
        exact t2 i hi
      refine ⟨K, by rcases t3 with ⟨a, -⟩ | ⟨a, -, -⟩ <;> omega, hK, fun i => (tr i).w, d, p, cached, ?_, ?_, ?_, ?_⟩
      · change (tr 0).w = _
        rw [t0, s2]
      · intro i hi
        exact (hdpc i hi).2.2.2.2.1
      · intro i hi0 hi
        obtain ⟨r, r1, r2⟩ := hobj (tr i).w
        refine ⟨_, _, r, hfit i hi0 hi r r1 i (hloop i hi), rfl, rfl, r2, ?_, ?_, ?_, ?_⟩
        · have := grown (fun i => (tr i).objectiveCurve) (fun _ => true) d i
            fun j hj => (if_pos rfl) ▸ (hdpc j (by omega)).2.1
          simp only [List.filter_true, t0, s3, List.nil_append] at this
          simp only [this]
        · have := grown (fun i => (tr i).primalCurve) (fun _ => true) p i
            fun j hj => (if_pos rfl) ▸ (hdpc j (by omega)).2.2.1
          simp only [List.filter_true, t0, s4, List.nil_append] at this
          simp only [this]
        · have := grown (fun i => (tr i).cachedFlags) (fun _ => true) cached i
            fun j hj => (if_pos rfl) ▸ (hdpc j (by omega)).2.2.2.1
          simp only [List.filter_true, t0, s5, List.nil_append] at this
          simp only [this]
        · have := grown (fun i => (tr i).lossCurve)
            (fun i => decide (o.cfg.showLossEvery ≠ 0 ∧ o.cfg.showLossEvery ∣ i)) _ i
            fun j hj => (hdpc j (by omega)).2.2.2.2.2
          simp only [t0, s6] at this
          exact this
      · obtain ⟨r, r1, -⟩ := hobj (tr K).w
        refine ⟨_, hfit K hK le_rfl r r1 K (hloop K le_rfl), ?_⟩
        rw [hend] at hi
        have := hfit K hK le_rfl r r1 o.cfg.maxIter (by rw [one_loop_iter]; exact hi)
        have h' : OneSlack.fit m qp eq none (fun _ => none) (osWithMaxIter o o.cfg.maxIter) samples .no = .ok o' := by
          unfold OneSlack.fit
          have hs' : OneSlack.start m (osWithMaxIter o o.cfg.maxIter) .no = .ok st0 := hs
          have hl' : OneSlack.loop qp eq none (osWithMaxIter o o.cfg.maxIter).cfg samples
              (OneSlack.jointFeatureGt m samples) (fun _ => none) (osWithMaxIter o o.cfg.maxIter).cfg.maxIter 0 st0 =
              .ok (tr K) := by rw [one_loop_iter]; exact hi
          rw [hs']
          simp only
          rw [hl']
          rw [hend] at h
          exact h
        rw [h', Except.ok.injEq] at this
        rw [this]

/-! ### NSlackSSVM -/

/-- The learner `o` with another `max_iter`. -/
def nsWithMaxIter (o : NSlack.Obj Y) (N : ℕ) : NSlack.Obj Y := { o with cfg := { o.cfg with maxIter := N } }

/-- One iteration of the n-slack learner. -/
def nStep (qp : QP.Solver) (eq : Y → Y → Bool) (cfg : NSlack.Config) (samples : List (X × Y)) (it : ℕ)
    (s : NSlack.St X Y × NSlack.Outcome) : Except PyErr ((NSlack.St X Y × NSlack.Outcome) × Bool) :=
  match NSlack.iteration qp eq none cfg samples it (fun _ => none) s.1 with
  | .error err => .error err
  | .ok (st, out) => .ok ((st, out), decide (out = .goOn))

theorem n_loop_iter (qp : QP.Solver) (eq : Y → Y → Bool) (cfg : NSlack.Config) (samples : List (X × Y)) :
    ∀ n it st, NSlack.loop qp eq none cfg samples (fun _ _ => none) n it st =
      iter (nStep qp eq cfg samples) n it (st, .goOn) := by
  intro n
  induction n with
  | zero => intro it st; rfl
  | succ n ih =>
    intro it st
    unfold NSlack.loop iter nStep
    cases hi : NSlack.iteration qp eq none cfg samples it (fun _ => none) st with
    | error err => rfl
    | ok r =>
      obtain ⟨st1, out⟩ := r
      cases out with
      | goOn => exact ih _ _
      | interrupted => rfl
      | stopped b => rfl

theorem addNew_maxIter (cfg : NSlack.Config) (N : ℕ) (eq : Y → Y → Bool) (m : SModel X Y) (w : W) :
    ∀ b acc, NSlack.addAll { cfg with maxIter := N } eq m w b acc = NSlack.addAll cfg eq m w b acc := by
  intro b
  induction b with
  | nil => intro acc; rfl
  | cons s b ih =>
    intro acc
    unfold NSlack.addAll
    have h : NSlack.addNew { cfg with maxIter := N } eq m w acc s = NSlack.addNew cfg eq m w acc s := rfl
    rw [h]
    cases NSlack.addNew cfg eq m w acc s with
    | error err => rfl
    | ok acc => exact ih acc

theorem runBatches_maxIter (qp : QP.Solver) (eq : Y → Y → Bool) (cfg : NSlack.Config) (N n : ℕ)
    (intr : ℕ → Option OneSlack.Phase) : ∀ (bs : List (List (ℕ × X × Y))) j acc,
      NSlack.runBatches qp eq { cfg with maxIter := N } n intr bs j acc = NSlack.runBatches qp eq cfg n intr bs j acc := by
  intro bs
  induction bs with
  | nil => intro j acc; rfl
  | cons b bs ih =>
    intro j acc
    unfold NSlack.runBatches
    have h : NSlack.runBatch qp eq { cfg with maxIter := N } n (intr j) b acc =
        NSlack.runBatch qp eq cfg n (intr j) b acc := by
      unfold NSlack.runBatch
      rw [addNew_maxIter]
      rfl
    rw [h]
    cases NSlack.runBatch qp eq cfg n (intr j) b acc with
    | error err => rfl
    | ok r =>
      obtain ⟨acc, fl⟩ := r
      cases fl with
      | true => rfl
      | false => exact ih _ acc

theorem nStep_maxIter (qp : QP.Solver) (eq : Y → Y → Bool) (cfg : NSlack.Config) (samples : List (X × Y)) (N : ℕ) :
    nStep qp eq { cfg with maxIter := N } samples = nStep qp eq cfg samples := by
  funext it s
  unfold nStep NSlack.iteration
  simp only [runBatches_maxIter]

theorem runBatches_finish {qp : QP.Solver} {eq : Y → Y → Bool} {cfg : NSlack.Config} {n : ℕ}
    {bs : List (List (ℕ × X × Y))} {j : ℕ} {acc acc' : NSlack.St X Y × ℚ × ℕ} {fl : Bool}
    (h : NSlack.runBatches qp eq cfg n (fun _ => none) bs j acc = .ok (acc', fl)) : fl = false := by
  induction bs generalizing j acc with
  | nil =>
    simp only [NSlack.runBatches, Except.ok.injEq, Prod.mk.injEq] at h
    exact h.2.symm
  | cons b bs ih =>
    unfold NSlack.runBatches at h
    cases hb : NSlack.runBatch qp eq cfg n none b acc with
    | error err => rw [hb] at h; cases h
    | ok r =>
      obtain ⟨⟨st1, s1, k1⟩, f1⟩ := r
      obtain ⟨st, s, k⟩ := acc
      rw [hb] at h
      rcases NSlack.runBatch_ok hb with ⟨hc, -⟩ | ⟨-, _, _, -, ⟨hc, -⟩ | ⟨-, -, -, -, hf⟩ | ⟨-, -, -, -, hf⟩⟩
      · cases hc
      · cases hc
      all_goals
        have hf' : f1 = false := hf
        subst hf'
        exact ih h

theorem runBatches_keep {qp : QP.Solver} {eq : Y → Y → Bool} {cfg : NSlack.Config} {n : ℕ}
    {intr : ℕ → Option OneSlack.Phase} {bs : List (List (ℕ × X × Y))} {j : ℕ} {st st' : NSlack.St X Y} {s s' : ℚ} {k k' : ℕ}
    {fl : Bool} (h : NSlack.runBatches qp eq cfg n intr bs j (st, s, k) = .ok ((st', s', k'), fl)) :
    st'.model = st.model ∧ st'.objectiveCurve = st.objectiveCurve ∧ st'.primalCurve = st.primalCurve ∧
      st'.lossCurve = st.lossCurve := by
  refine NSlack.runBatches_induct (fun st' _ => st'.model = st.model ∧ st'.objectiveCurve = st.objectiveCurve ∧
    st'.primalCurve = st.primalCurve ∧ st'.lossCurve = st.lossCurve) ?_ ⟨rfl, rfl, rfl, rfl⟩ h
  intro j b _ st1 s1 k1 st2 s2 k2 f hI hb
  rcases NSlack.runBatch_ok hb with ⟨-, rfl, -⟩ | ⟨-, _, _, -, ⟨-, rfl, -⟩ | ⟨-, -, rfl, -⟩ | ⟨-, -, hs, -⟩⟩
  · exact hI
  · exact hI
  · exact hI
  · obtain ⟨_, -, -, h3⟩ := NSlack.solve_ok hs
    rw [h3]
    exact hI

/-- with a batch size that is at least the number of samples there is one batch. -/
theorem one_batch {α : Type} {data : List α} {b : ℤ} (hb : b = -1 ∨ (data.length : ℤ) ≤ b) {bs : List (List α)}
    (h : NSlack.batches data b = .ok bs) : bs = [data] := by
  obtain ⟨-, hne, hsign, -⟩ := NSlack.batches_ok h
  have hpos : 0 < data.length := List.length_pos_iff.mpr hne
  have key : ∀ c : ℤ, (data.length : ℤ) ≤ c → Subgradient.ceilDiv data.length c = 1 := by
    intro c hc
    have hc0 : 0 < c := by omega
    have h1 := Subgradient.ceilDiv data.length c
    have hcq : (0 : ℚ) < c := by exact_mod_cast hc0
    have hle : (data.length : ℚ) ≤ c := by exact_mod_cast hc
    have hp : (0 : ℚ) < data.length := by exact_mod_cast hpos
    unfold Subgradient.ceilDiv
    rw [Int.ceil_eq_iff]
    constructor
    · simp only [Int.cast_one, sub_self]
      positivity
    · rw [div_le_iff₀ hcq]
      simpa using hle
  have hsl : Subgradient.evenSlices data.length 1 = .ok [(0, data.length)] := by
    unfold Subgradient.evenSlices
    rw [if_neg (by decide)]
    change Except.ok (Subgradient.genEvenSlices data.length 1 1 0 0) = _
    unfold Subgradient.genEvenSlices
    simp only [Nat.div_one, Nat.mod_one, lt_irrefl, if_false, add_zero, zero_add]
    rw [if_pos hpos]
    rfl
  unfold NSlack.batches at h
  simp only at h
  split_ifs at h with h1 h2 h3 h4
  · rw [key _ le_rfl, hsl] at h
    simp only [Except.ok.injEq] at h
    rw [← h]
    simp [Subgradient.cut]
  · rw [key b (by rcases hb with hb | hb <;> [exact absurd hb h2; exact hb]), hsl] at h
    simp only [Except.ok.injEq] at h
    rw [← h]
    simp [Subgradient.cut]

theorem indexed_map_snd (samples : List (X × Y)) (f : X × Y → ℚ) :
    ((NSlack.indexed samples).map fun p => f p.2) = samples.map f := by
  unfold NSlack.indexed
  rw [show (fun p : ℕ × X × Y => f p.2) = f ∘ Prod.snd from rfl, ← List.map_map, List.map_snd_zip (by simp)]

/-- what an iteration records. -/
theorem n_records {m : SModel X Y} {qp : QP.Solver} {eq : Y → Y → Bool} {cfg : NSlack.Config} {samples : List (X × Y)}
    {it : ℕ} {s s' : NSlack.St X Y × NSlack.Outcome} {b : Bool} (hm : s.1.model = m)
    (h : nStep qp eq cfg samples it s = .ok (s', b)) :
    s'.1.model = m ∧ s'.2 ≠ .interrupted ∧ b = decide (s'.2 = .goOn) ∧
      ∃ d slacks, s'.1.objective = some d ∧ s'.1.objectiveCurve = s.1.objectiveCurve ++ [d] ∧
      s'.1.primalCurve = s.1.primalCurve ++ [cfg.C * slacks + (∑ k ∈ range m.dim, s'.1.w k ^ 2) / 2] ∧
      (cfg.batchSize = -1 ∨ (samples.length : ℤ) ≤ cfg.batchSize →
        slacks = (samples.map (sampleSlack m s.1.w)).sum) ∧
      s'.1.lossCurve = if decide (cfg.showLossEvery ≠ 0 ∧ cfg.showLossEvery ∣ it) = true then
        s.1.lossCurve ++ [relativeLoss m.loss m.maxLoss (fun x => m.inference x s'.1.w) samples] else s.1.lossCurve := by
  unfold nStep at h
  cases hi : NSlack.iteration qp eq none cfg samples it (fun _ => none) s.1 with
  | error err => rw [hi] at h; cases h
  | ok r =>
    obtain ⟨st', out⟩ := r
    rw [hi] at h
    simp only [Except.ok.injEq, Prod.mk.injEq] at h
    obtain ⟨rfl, rfl⟩ := h
    unfold NSlack.iteration at hi
    cases hb : NSlack.batches (NSlack.indexed samples) cfg.batchSize with
    | error err => rw [hb] at hi; cases hi
    | ok bs =>
      rw [hb] at hi
      simp only at hi
      cases hr : NSlack.runBatches qp eq cfg samples.length (fun _ => none) bs 0 (s.1, 0, 0) with
      | error err => rw [hr] at hi; cases hi
      | ok r =>
        obtain ⟨⟨st1, sl, k⟩, fl⟩ := r
        have hfl := runBatches_finish hr
        subst hfl
        obtain ⟨k1, k2, k3, k4⟩ := runBatches_keep hr
        rw [hr] at hi
        simp only at hi
        cases ho : st1.objective with
        | none => rw [ho] at hi; cases hi
        | some obj =>
          rw [ho] at hi
          simp only at hi
          have hst : st' = { st1 with
              objectiveCurve := st1.objectiveCurve ++ [obj]
              lossCurve := computeTrainingLoss st1.model cfg.showLossEvery st1.w samples it st1.lossCurve
              primalCurve := st1.primalCurve ++ [cfg.C * sl + (∑ k ∈ range st1.model.dim, st1.w k ^ 2) / 2] } ∧
              out ≠ .interrupted := by
            split_ifs at hi with hstop
            · cases hsw : st1.switched <;> rw [hsw] at hi <;>
                simp only [Except.ok.injEq, Prod.mk.injEq] at hi <;>
                exact ⟨by rw [← hi.1, ho], by rw [← hi.2]; simp⟩
            · simp only [Except.ok.injEq, Prod.mk.injEq] at hi
              exact ⟨by rw [← hi.1, ho], by rw [← hi.2]; simp⟩
          obtain ⟨rfl, hni⟩ := hst
          refine ⟨k1.trans hm, hni, rfl, obj, sl, ho, by rw [k2], ?_, ?_, ?_⟩
          · rw [k3, ← hm, k1]
          · intro hone
            have hlen : (NSlack.indexed samples).length = samples.length := by simp [NSlack.indexed]
            have hbs := one_batch (by rw [hlen]; exact hone) hb
            subst hbs
            unfold NSlack.runBatches NSlack.runBatches at hr
            cases hrb : NSlack.runBatch qp eq cfg samples.length none (NSlack.indexed samples) (s.1, 0, 0) with
            | error err => rw [hrb] at hr; cases hr
            | ok r =>
              obtain ⟨⟨st2, s2, k2'⟩, f2⟩ := r
              have hs2 : s2 = sl := by
                rw [hrb] at hr
                cases f2 <;> simp only [Except.ok.injEq, Prod.mk.injEq] at hr <;> exact hr.1.2.1
              rcases NSlack.runBatch_ok hrb with ⟨hc, -⟩ | ⟨-, ws, new, hadd, -⟩
              · cases hc
              · have h3 := (NSlack.addAll_ok (NSlack.batches_good hb _ (by simp)).1 hadd).2.2.1
                simp only [zero_add] at h3
                rw [← hs2, h3, hm]
                exact congrArg List.sum (indexed_map_snd samples (sampleSlack m s.1.w))
          · rw [k1, hm, k4]
            exact computeTrainingLoss_eq m _ _ _ _ (List.Perm.refl _) _ _

/-- **C116, n-slack learner; C71 as far as it holds.** Let `fit` without given constraints return. Then there is a number
`K > 0` of iterations, and `fit` with `max_iter = i + 1` returns weights `ws i` for `i < K`; the result is that of the last
of these. For each of these learners: `objective_curve_` has an entry for every iteration and repeats the last one;
`loss_curve_` is continued by the relative training loss of the weights *after* the iterations divisible by
`show_loss_every`; `primal_objective_curve_` has an entry for every iteration and ends with the regularised risk of the
final weights. If all samples are in one batch, the entry of an iteration is the regularised risk of the weights before it,
with the norm replaced by that of the weights after it. -/
theorem C116_n_slack (m : SModel X Y) (outputs : X → Set Y)
    (hLA : (problemOf m outputs).ExactLossAug (fun x y w => m.lossAug x y w true))
    (qp : QP.Solver) (eq : Y → Y → Bool) (samples : List (X × Y)) (hne : samples ≠ [])
    (hl : (problemOf m outputs).Labelled samples) (o o' : NSlack.Obj Y) (out : NSlack.Outcome)
    (h : NSlack.fit m qp eq none (fun _ _ => none) o samples none = .ok (o', out)) :
    ∃ K ≤ o.cfg.maxIter, 0 < K ∧ (K < o.cfg.maxIter → ∃ b, out = .stopped b) ∧
      ∃ (ws : ℕ → W) (d p : ℕ → ℚ),
      (o.cfg.batchSize = -1 ∨ (samples.length : ℤ) ≤ o.cfg.batchSize → ∀ i < K, ∃ q,
        (problemOf m outputs).IsObjective o.cfg.C samples (if i = 0 then fun _ => 0 else ws (i - 1)) q ∧
        p i = q - (∑ k ∈ range m.dim, (if i = 0 then fun _ => 0 else ws (i - 1)) k ^ 2) / 2 +
          (∑ k ∈ range m.dim, ws i k ^ 2) / 2) ∧
      (∀ i < K, ∃ oi outi a r,
        NSlack.fit m qp eq none (fun _ _ => none) (nsWithMaxIter o (i + 1)) samples none = .ok (oi, outi) ∧
        oi.attrs = some a ∧ a.w = ws i ∧
        (problemOf m outputs).IsObjective o.cfg.C samples (ws i) r ∧
        a.objectiveCurve = (List.range (i + 1)).map d ++ [d i] ∧
        a.primalCurve = (List.range (i + 1)).map p ++ [r] ∧
        oi.lossCurve = o.lossCurve ++ recorded o.cfg.showLossEvery (i + 1) (fun j =>
          relativeLoss m.loss m.maxLoss (fun x => m.inference x (ws j)) samples)) ∧
      ∃ oK, NSlack.fit m qp eq none (fun _ _ => none) (nsWithMaxIter o K) samples none = .ok (oK, out) ∧
        o' = { oK with cfg := o.cfg } := by
  have hobj : ∀ w, ∃ v, objectivePrimal m w samples o.cfg.C true = .ok v ∧
      (problemOf m outputs).IsObjective o.cfg.C samples w v := fun w =>
    C30_objective m outputs hLA samples hl hne w o.cfg.C true
  obtain ⟨st0, st, obj, primal, f1, f2, f3, f4, f5, rfl⟩ := NSlack.fit_ok h
  have hst0 : st0.model = m ∧ st0.w = (fun _ => 0) ∧ st0.objectiveCurve = [] ∧ st0.primalCurve = [] ∧
      st0.lossCurve = o.lossCurve := by
    unfold NSlack.start at f1
    simp only [Except.ok.injEq] at f1
    subst f1
    exact ⟨rfl, rfl, rfl, rfl, rfl⟩
  obtain ⟨s1, s2, s3, s4, s5⟩ := hst0
  rw [n_loop_iter] at f2
  obtain ⟨K, tr, hK, hKm, t0, t1, t2, t3, t4⟩ : ∃ (K : ℕ) (tr : ℕ → NSlack.St X Y × NSlack.Outcome),
      0 < K ∧ K ≤ o.cfg.maxIter ∧ tr 0 = (st0, .goOn) ∧
      (∀ i < K, ∃ b, nStep qp eq o.cfg samples i (tr i) = .ok (tr (i + 1), b)) ∧
      (∀ i ≤ K, iter (nStep qp eq o.cfg samples) i 0 (st0, .goOn) = .ok (tr i)) ∧ tr K = (st, out) ∧
      (K < o.cfg.maxIter → nStep qp eq o.cfg samples (K - 1) (tr (K - 1)) = .ok (tr K, false)) := by
    obtain ⟨K, tr, t0, t1, t2, t3⟩ := iter_trace _ _ _ _ _ f2
    simp only [zero_add] at t1 t3
    rcases t3 with ⟨a, b⟩ | ⟨a, b, c⟩
    · exact ⟨K, tr, by omega, a.le, t0, fun i hi => ⟨true, t1 i hi⟩, t2, b.symm, fun h => absurd a h.ne⟩
    · refine ⟨K + 1, fun i => if i ≤ K then tr i else (st, out), by omega, a, ?_, ?_, ?_, ?_, ?_⟩
      · simpa using t0
      · intro i hi
        by_cases h1 : i < K
        · exact ⟨true, by simpa [h1.le, Nat.succ_le_of_lt h1] using t1 i h1⟩
        · have : i = K := by omega
          subst this
          exact ⟨false, by simpa using b⟩
      · intro i hi
        by_cases h1 : i ≤ K
        · simpa [h1] using t2 i h1
        · have : i = K + 1 := by omega
          subst this
          simpa using c
      · simp
      · intro _
        simpa using b
  have hmod : ∀ i ≤ K, (tr i).1.model = m := by
    intro i
    induction i with
    | zero => intro _; rw [t0]; exact s1
    | succ i ih =>
      intro hi
      obtain ⟨b, hb⟩ := t1 i (by omega)
      exact (n_records (ih (by omega)) hb).1
  have hstep : ∀ i, ∃ d slacks, i < K → (tr (i + 1)).1.objective = some d ∧
      (tr (i + 1)).1.objectiveCurve = (tr i).1.objectiveCurve ++ [d] ∧
      (tr (i + 1)).1.primalCurve = (tr i).1.primalCurve ++
        [o.cfg.C * slacks + (∑ k ∈ range m.dim, (tr (i + 1)).1.w k ^ 2) / 2] ∧
      (o.cfg.batchSize = -1 ∨ (samples.length : ℤ) ≤ o.cfg.batchSize →
        slacks = (samples.map (sampleSlack m (tr i).1.w)).sum) ∧
      (tr (i + 1)).1.lossCurve = if decide (o.cfg.showLossEvery ≠ 0 ∧ o.cfg.showLossEvery ∣ i) = true then
        (tr i).1.lossCurve ++ [relativeLoss m.loss m.maxLoss (fun x => m.inference x (tr (i + 1)).1.w) samples]
        else (tr i).1.lossCurve := by
    intro i
    by_cases hi : i < K
    · obtain ⟨b, hb⟩ := t1 i hi
      obtain ⟨-, -, -, d, sl, hd⟩ := n_records (hmod i hi.le) hb
      exact ⟨d, sl, fun _ => hd⟩
    · exact ⟨0, 0, fun h => absurd h hi⟩
  choose d sl hd using hstep
  have hfit : ∀ i < K, ∀ r, objectivePrimal m (tr (i + 1)).1.w samples o.cfg.C true = .ok r →
      NSlack.fit m qp eq none (fun _ _ => none) (nsWithMaxIter o (i + 1)) samples none =
        .ok (⟨{ o.cfg with maxIter := i + 1 }, some ⟨samples.length, (tr (i + 1)).1.w, (tr (i + 1)).1.ws,
          (tr (i + 1)).1.lastActive, (tr (i + 1)).1.objectiveCurve ++ [d i], (tr (i + 1)).1.primalCurve ++ [r]⟩,
          (tr (i + 1)).1.lossCurve⟩, (tr (i + 1)).2) := by
    intro i hi r hr
    unfold NSlack.fit
    have hs' : NSlack.start m qp (nsWithMaxIter o (i + 1)) samples.length none = .ok st0 := f1
    have hl' : NSlack.loop qp eq none (nsWithMaxIter o (i + 1)).cfg samples (fun _ _ => none)
        (nsWithMaxIter o (i + 1)).cfg.maxIter 0 st0 = .ok (tr (i + 1)) := by
      rw [n_loop_iter]
      have := nStep_maxIter qp eq o.cfg samples (i + 1)
      change iter (nStep qp eq { o.cfg with maxIter := i + 1 } samples) (i + 1) 0 _ = _
      rw [this]
      exact t2 (i + 1) hi
    rw [hs']
    simp only
    rw [hl']
    simp only
    have h0 : (nsWithMaxIter o (i + 1)).cfg.maxIter ≠ 0 := Nat.succ_ne_zero i
    rw [if_neg h0]
    have hr' : objectivePrimal (tr (i + 1)).1.model (tr (i + 1)).1.w samples (nsWithMaxIter o (i + 1)).cfg.C true =
        .ok r := by rw [hmod (i + 1) hi]; exact hr
    rw [hr']
    simp only
    rw [(hd i hi).1]
    rfl
  refine ⟨K, hKm, hK, ?_, fun i => (tr (i + 1)).1.w, d,
    fun i => o.cfg.C * sl i + (∑ k ∈ range m.dim, (tr (i + 1)).1.w k ^ 2) / 2, ?_, ?_, ?_⟩
  · intro hlt
    obtain ⟨-, n1, n2, -⟩ := n_records (hmod (K - 1) (by omega)) (t4 hlt)
    rw [t3] at n1 n2
    cases out with
    | goOn => simp at n2
    | interrupted => exact absurd rfl n1
    | stopped b => exact ⟨b, rfl⟩
  · intro hone i hi
    have hprev : (if i = 0 then fun _ => 0 else (tr (i - 1 + 1)).1.w) = (tr i).1.w := by
      by_cases h0 : i = 0
      · rw [if_pos h0, h0, t0, s2]
      · rw [if_neg h0, show i - 1 + 1 = i by omega]
    simp only [hprev]
    obtain ⟨q, q1, q2⟩ := hobj (tr i).1.w
    rw [objectivePrimal_ok _ _ _ _ _ hne, Except.ok.injEq] at q1
    refine ⟨q, q2, ?_⟩
    rw [(hd i hi).2.2.2.1 hone, ← q1]
    ring
  · intro i hi
    obtain ⟨r, r1, r2⟩ := hobj (tr (i + 1)).1.w
    refine ⟨_, _, _, r, hfit i hi r r1, rfl, rfl, r2, ?_, ?_, ?_⟩
    · have := grown (fun i => (tr i).1.objectiveCurve) (fun _ => true) d (i + 1)
        fun j hj => (if_pos rfl) ▸ (hd j (by omega)).2.1
      simp only [List.filter_true, t0, s3, List.nil_append] at this
      simp only [this]
    · have := grown (fun i => (tr i).1.primalCurve) (fun _ => true)
        (fun i => o.cfg.C * sl i + (∑ k ∈ range m.dim, (tr (i + 1)).1.w k ^ 2) / 2) (i + 1)
        fun j hj => (if_pos rfl) ▸ (hd j (by omega)).2.2.1
      simp only [List.filter_true, t0, s4, List.nil_append] at this
      simp only [this]
    · have := grown (fun i => (tr i).1.lossCurve)
        (fun i => decide (o.cfg.showLossEvery ≠ 0 ∧ o.cfg.showLossEvery ∣ i)) _ (i + 1)
        fun j hj => (hd j (by omega)).2.2.2.2
      simp only [t0, s5] at this
      exact this
  · have e : K - 1 + 1 = K := by omega
    have hmK := hmod K le_rfl
    rw [t3] at hmK
    simp only at hmK
    have h1 := hfit (K - 1) (by omega) primal (by rw [e, t3]; rw [hmK] at f4; exact f4)
    have h2 := (hd (K - 1) (by omega)).1
    rw [e, t3] at h1 h2
    simp only at h1 h2
    rw [f5, Option.some.injEq] at h2
    exact ⟨_, h1, by rw [h2]⟩

/-! ### Examples -/

/-- the outcome of a computation, for `decide`. -/
def isOkWith {α β : Type} [DecidableEq β] (e : Except PyErr α) (f : α → β) (b : β) : Bool :=
  match e with
  | .ok a => decide (f a = b)
  | .error _ => false

theorem isOkWith_iff {α β : Type} [DecidableEq β] {e : Except PyErr α} {f : α → β} {b : β} (h : isOkWith e f b = true) :
    ∃ a, e = .ok a ∧ f a = b := by
  cases e with
  | ok a => exact ⟨a, rfl, by simpa [isOkWith] using h⟩
  | error err => cases h

theorem example_labelled : (problemOf exampleTable (fun _ => {y | y < 2})).Labelled [((), 0), ((), 0)] := by
  intro s hs
  have hs' : s = ((), 0) := by simpa using hs
  subst hs'
  exact ⟨(by decide : 0 < 2), by decide +kernel⟩

/-- One class is learned in the first pass; `show_loss_every=2` records iterations 0 and 2 of three. -/
example : ∃ o', Subgradient.fit exampleTable (fun _ => [((), 0), ((), 0)])
    ⟨⟨3, 1, 0, some (1 / 2), fun _ => 1, false, none, .none, false, 1, 2⟩, none, 0, none, ⟨[], []⟩⟩
    [((), 0), ((), 0)] false = .ok o' ∧ o'.curves.loss.length = 2 ∧ o'.curves.objective.length = 4 := by
  obtain ⟨a, h1, h2⟩ := isOkWith_iff (e := Subgradient.fit exampleTable (fun _ => [((), 0), ((), 0)])
    ⟨⟨3, 1, 0, some (1 / 2), fun _ => 1, false, none, .none, false, 1, 2⟩, none, 0, none, ⟨[], []⟩⟩
    [((), 0), ((), 0)] false) (f := fun o => (o.curves.loss.length, o.curves.objective.length)) (b := (2, 4))
    (by decide +kernel)
  exact ⟨a, h1, (Prod.mk.inj h2).1, (Prod.mk.inj h2).2⟩

/-- `C116_subgradient` applies to it. -/
example : (problemOf exampleTable (fun _ => {y | y < 2})).ExactLossAug
      (fun x y w => exampleTable.lossAug x y w true) ∧
    (problemOf exampleTable (fun _ => {y | y < 2})).Labelled [((), 0), ((), 0)] :=
  ⟨tableModel_exact 1 2 (fun y => if y = 1 then vec2 2 0 else vec2 0 0) (fun _ => 1) true, example_labelled⟩

/-- A one-slack run that records its loss. -/
def curveOS : OneSlack.Obj ℕ := ⟨{ (exampleOS 10 1 0 50).cfg with showLossEvery := 1 }, none, []⟩

example : ∃ o', OneSlack.fit exampleTable exampleSolver natEq none (fun _ => none) curveOS [((), 0)] .no = .ok o' ∧
    o'.lossCurve.length = 1 := by
  obtain ⟨a, h1, h2⟩ := isOkWith_iff (e := OneSlack.fit exampleTable exampleSolver natEq none (fun _ => none) curveOS
    [((), 0)] .no) (f := fun o => o.lossCurve.length) (b := 1) (by decide +kernel)
  exact ⟨a, h1, h2⟩

/-- An n-slack run that records its loss; the batch size 100 puts all samples in one batch. -/
def curveNS : NSlack.Obj ℕ := ⟨{ (exampleNS 10 1 100 50).cfg with showLossEvery := 1 }, none, []⟩

example : ∃ o' b, NSlack.fit exampleTable exampleNSolver natBeq none (fun _ _ => none) curveNS [((), 0), ((), 0)] none =
    .ok (o', .stopped b) ∧ o'.lossCurve.length = 2 := by
  obtain ⟨a, h1, h2⟩ := isOkWith_iff (e := NSlack.fit exampleTable exampleNSolver natBeq none (fun _ _ => none) curveNS
    [((), 0), ((), 0)] none) (f := fun r => (r.2, r.1.lossCurve.length)) (b := (.stopped true, 2)) (by decide +kernel)
  obtain ⟨o, out⟩ := a
  simp only [Prod.mk.injEq] at h2
  exact ⟨o, true, by rw [h1, h2.1], h2.2⟩

/-- A latent run that records its loss: every output is its own completion. -/
example : ∃ o', SubgradientLatent.fit (X := Unit) (Y := ℕ) (H := ℕ)
    ⟨⟨exampleTable, fun l => l.map Prod.snd, fun _ y _ => y, id, fun _ _ => 0, fun _ => 1⟩, fun y h => if y = h then 0 else 1⟩ .one
    (fun _ => 0) ⟨⟨3, 1, 0, some (1 / 2), fun _ => 1, false, none, .none, false, 1, 2⟩, none, 0, none, ⟨[], []⟩⟩
    [((), 0), ((), 0)] false = .ok o' ∧ o'.curves.loss.length = 2 := by
  obtain ⟨a, h1, h2⟩ := isOkWith_iff (e := SubgradientLatent.fit (X := Unit) (Y := ℕ) (H := ℕ)
    ⟨⟨exampleTable, fun l => l.map Prod.snd, fun _ y _ => y, id, fun _ _ => 0, fun _ => 1⟩, fun y h => if y = h then 0 else 1⟩ .one
    (fun _ => 0) ⟨⟨3, 1, 0, some (1 / 2), fun _ => 1, false, none, .none, false, 1, 2⟩, none, 0, none, ⟨[], []⟩⟩
    [((), 0), ((), 0)] false) (f := fun o => o.curves.loss.length) (b := 2) (by decide +kernel)
  exact ⟨a, h1, h2⟩

end Verif.Props
