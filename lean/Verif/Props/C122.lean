import Verif.Model.Subgradient
import Verif.Props.C40

/-!
# C122: a warm start resumes training where it was left

Training for `a` iterations and then, with `warm_start=True`, for `b` further ones is compared with training for
`a + b` iterations in one go.
-/

namespace Verif.Props

open Finset Verif.Learner

namespace Resume

open Verif.Subgradient

variable {X Y : Type}

/-- The state after a pass does not depend on `grad_old` if there is no momentum. -/
theorem solve_forget (cfg : Config) (hm : cfg.momentum = 0) (ha : cfg.averaging = .none) (lr : ℚ) (n : ℕ)
    (st st' : St) (hw : st.w = st'.w) (ht : st.t = st'.t) (dj : W) :
    solveSubgradient cfg lr n st dj = solveSubgradient cfg lr n st' dj := by
  unfold solveSubgradient
  simp only [hm, ha, hw, ht, zero_mul, add_zero]

/-- Two states with the same weights and the same counter, each with `self.w` and `w` the same. -/
def Alike (st st' : St) : Prop := st.w = st'.w ∧ st.t = st'.t ∧ st.selfW = st.w ∧ st'.selfW = st'.w

theorem solve_selfW (cfg : Config) (ha : cfg.averaging = .none) (lr : ℚ) (n : ℕ) (st : St) (dj : W) :
    (solveSubgradient cfg lr n st dj).selfW = (solveSubgradient cfg lr n st dj).w := by
  unfold solveSubgradient
  simp only [ha]

theorem solve_alike (cfg : Config) (hm : cfg.momentum = 0) (ha : cfg.averaging = .none) (lr : ℚ) (n : ℕ)
    (st st' : St) (h : Alike st st') (dj : W) :
    Alike (solveSubgradient cfg lr n st dj) (solveSubgradient cfg lr n st' dj) := by
  rw [solve_forget cfg hm ha lr n st st' h.1 h.2.1 dj]
  exact ⟨rfl, rfl, solve_selfW cfg ha .., solve_selfW cfg ha ..⟩

/-- A fold whose steps keep states alike and counters equal does so as a whole. -/
theorem foldl_alike {α : Type} (f : St × ℤ → α → St × ℤ)
    (hf : ∀ p p' : St × ℤ, ∀ a, Alike p.1 p'.1 → p.2 = p'.2 → Alike (f p a).1 (f p' a).1 ∧ (f p a).2 = (f p' a).2) :
    ∀ (l : List α) (p p' : St × ℤ), Alike p.1 p'.1 → p.2 = p'.2 →
      Alike (l.foldl f p).1 (l.foldl f p').1 ∧ (l.foldl f p).2 = (l.foldl f p').2
  | [], _, _, h, h2 => ⟨h, h2⟩
  | a :: l, p, p', h, h2 => foldl_alike f hf l _ _ (hf p p' a h h2).1 (hf p p' a h h2).2

/-- Two outcomes of a pass that agree up to `grad_old`. -/
inductive Agree : Except PyErr (St × ℤ) → Except PyErr (St × ℤ) → Prop
  | error (e : PyErr) : Agree (.error e) (.error e)
  | ok (st st' : St) (p : ℤ) : Alike st st' → Agree (.ok (st, p)) (.ok (st', p))

theorem Agree.of_fold (p p' : St × ℤ) (h : Alike p.1 p'.1 ∧ p.2 = p'.2) : Agree (.ok p) (.ok p') := by
  obtain ⟨st, n⟩ := p
  obtain ⟨st', n'⟩ := p'
  obtain ⟨h1, h2⟩ := h
  simp only at h2
  subst h2
  exact .ok st st' n h1

theorem online_alike (m : SModel X Y) (cfg : Config) (hm : cfg.momentum = 0) (ha : cfg.averaging = .none) (lr : ℚ)
    (n : ℕ) (p p' : St × ℤ) (s : X × Y) (h : Alike p.1 p'.1) (h2 : p.2 = p'.2) :
    Alike (onlineStep m cfg lr n p s).1 (onlineStep m cfg lr n p' s).1 ∧
      (onlineStep m cfg lr n p s).2 = (onlineStep m cfg lr n p' s).2 := by
  unfold onlineStep
  simp only [h.1, h2]
  exact ⟨solve_alike cfg hm ha lr n _ _ h _, trivial⟩

theorem batch_alike (m : SModel X Y) (cfg : Config) (hm : cfg.momentum = 0) (ha : cfg.averaging = .none) (lr : ℚ)
    (n : ℕ) (bs : ℤ) (p p' : St × ℤ) (s : List (X × Y)) (h : Alike p.1 p'.1) (h2 : p.2 = p'.2) :
    Alike (batchStep m cfg lr n bs p s).1 (batchStep m cfg lr n bs p' s).1 ∧
      (batchStep m cfg lr n bs p s).2 = (batchStep m cfg lr n bs p' s).2 := by
  unfold batchStep
  simp only [h.1, h2]
  exact ⟨solve_alike cfg hm ha lr n _ _ h _, trivial⟩

theorem parallel_alike (m : SModel X Y) (cfg : Config) (hm : cfg.momentum = 0) (ha : cfg.averaging = .none) (lr : ℚ)
    (n : ℕ) (p p' : St × ℤ) (s : List (X × Y)) (h : Alike p.1 p'.1) (h2 : p.2 = p'.2) :
    Alike (parallelStep m cfg lr n p s).1 (parallelStep m cfg lr n p' s).1 ∧
      (parallelStep m cfg lr n p s).2 = (parallelStep m cfg lr n p' s).2 := by
  unfold parallelStep
  simp only [h.1, h2]
  exact ⟨solve_alike cfg hm ha lr n _ _ h _, trivial⟩

/-- A pass keeps states alike. -/
theorem learn_alike (m : SModel X Y) (cfg : Config) (hm : cfg.momentum = 0) (ha : cfg.averaging = .none) (lr : ℚ)
    (data : List (X × Y)) (st st' : St) (h : Alike st st') :
    Agree (learn m cfg lr data st) (learn m cfg lr data st') := by
  unfold learn
  by_cases hj : cfg.nJobs = 1
  · rw [if_pos hj, if_pos hj]
    unfold sequentialLearning
    cases cfg.batchSize with
    | none =>
      exact Agree.of_fold _ _ (foldl_alike _ (fun p p' a => online_alike m cfg hm ha lr data.length p p' a) data _ _ h rfl)
    | some b =>
      by_cases hb : b = 1
      · simp only [hb, if_true]
        exact Agree.of_fold _ _
          (foldl_alike _ (fun p p' a => online_alike m cfg hm ha lr data.length p p' a) data _ _ h rfl)
      · simp only [if_neg hb]
        cases miniBatches data b with
        | error e => exact .error e
        | ok bs =>
          by_cases hr : m.rescaleC ∧ bs ≠ []
          · simp only [if_pos hr]; exact .error _
          · simp only [if_neg hr]
            exact Agree.of_fold _ _
              (foldl_alike _ (fun p p' a => batch_alike m cfg hm ha lr data.length b p p' a) bs _ _ h rfl)
  · rw [if_neg hj, if_neg hj]
    unfold parallelLearning
    by_cases hb : cfg.batchSize ≠ none
    · rw [if_pos hb, if_pos hb]; exact .error _
    · rw [if_neg hb, if_neg hb]
      by_cases h0 : cfg.nJobs = 0
      · rw [if_pos h0, if_pos h0]; exact .error _
      · rw [if_neg h0, if_neg h0]
        cases evenSlices data.length (ceilDiv data.length cfg.nJobs) with
        | error e => exact .error e
        | ok sl =>
          exact Agree.of_fold _ _
            (foldl_alike _ (fun p p' a => parallel_alike m cfg hm ha lr data.length p p' a) (cut data sl) _ _ h rfl)

/-- `loss_curve_` gets its entries in the same iterations when the number of earlier iterations is a multiple of
`show_loss_every`. -/
theorem trainingLoss_shift (m : SModel X Y) (e a it : ℕ) (h : e = 0 ∨ e ∣ a) (w : W) (data : List (X × Y))
    (c : List ℚ) : computeTrainingLoss m e w data (a + it) c = computeTrainingLoss m e w data it c := by
  unfold computeTrainingLoss
  rcases h with h | ⟨k, rfl⟩
  · subst h; rfl
  · have : (e * k + it) % e = it % e := by rw [Nat.add_comm]; exact Nat.add_mul_mod_self_left it e k
    rw [this]

/-- Two ends of a loop: same data, states alike, same entries after the given prefixes of the objective curve,
same loss curve. -/
inductive Ends (pre pre' : List ℚ) :
    Except PyErr (List (X × Y) × St × Curves) → Except PyErr (List (X × Y) × St × Curves) → Prop
  | error (e : PyErr) : Ends pre pre' (.error e) (.error e)
  | ok (data : List (X × Y)) (st st' : St) (new loss : List ℚ) : Alike st st' →
      Ends pre pre' (.ok (data, st, ⟨pre ++ new, loss⟩)) (.ok (data, st', ⟨pre' ++ new, loss⟩))

/-- Two loops that start alike end alike. -/
theorem loop_alike (m : SModel X Y) (cfg cfg' : Config) (hcfg : cfg' = { cfg with maxIter := cfg'.maxIter })
    (hm : cfg.momentum = 0) (ha : cfg.averaging = .none) (lr : ℚ)
    (order : ℕ → List (X × Y)) (a : ℕ) (hs : cfg.showLossEvery = 0 ∨ cfg.showLossEvery ∣ a) (pre pre' : List ℚ) :
    ∀ (n it : ℕ) (data data' : List (X × Y)) (st st' : St) (new loss : List ℚ), Alike st st' →
      (data = data' ∨ cfg.shuffle = true ∧ 0 < n) →
      Ends pre pre' (loop m cfg lr order n (a + it) data st ⟨pre ++ new, loss⟩)
        (loop m cfg' lr (fun i => order (a + i)) n it data' st' ⟨pre' ++ new, loss⟩)
  | 0, it, data, data', st, st', new, loss, h, hd => by
    rcases hd with rfl | ⟨_, hd⟩
    · exact .ok data st st' new loss h
    · omega
  | n + 1, it, data, data', st, st', new, loss, h, hd => by
    have hlearn : ∀ d s, learn m cfg' lr d s = learn m cfg lr d s := by rw [hcfg]; exact fun _ _ => rfl
    have e1 : cfg'.shuffle = cfg.shuffle := by rw [hcfg]
    have e2 : cfg'.breakOnNoConstraints = cfg.breakOnNoConstraints := by rw [hcfg]
    have e3 : cfg'.C = cfg.C := by rw [hcfg]
    have e4 : cfg'.showLossEvery = cfg.showLossEvery := by rw [hcfg]
    unfold loop
    simp only [hlearn, e1, e2, e3, e4]
    have hdata : (if cfg.shuffle = true then order (a + it) else data) =
        (if cfg.shuffle = true then order (a + it) else data') := by
      rcases hd with rfl | ⟨hd, _⟩
      · rfl
      · rw [if_pos hd, if_pos hd]
    rw [← hdata]
    generalize (if cfg.shuffle = true then order (a + it) else data) = d
    have hag := learn_alike m cfg hm ha lr d st st' h
    revert hag
    generalize learn m cfg lr d st = r
    generalize learn m cfg lr d st' = r'
    intro hag
    cases hag with
    | error e => exact .error e
    | ok s s' p hss =>
      by_cases hp : p = 0 ∧ cfg.breakOnNoConstraints = true
      · simp only [if_pos hp]
        exact .ok d s s' new loss hss
      · simp only [if_neg hp]
        have hself : s'.selfW = s.selfW := by rw [hss.2.2.2, hss.2.2.1, hss.1]
        rw [hself]
        cases objectivePrimal m s.selfW d cfg.C true with
        | error e => exact .error e
        | ok obj =>
          simp only [List.append_assoc]
          rw [trainingLoss_shift m _ a it hs]
          exact loop_alike m cfg cfg' hcfg hm ha lr order a hs pre pre' n (it + 1) d d s s' (new ++ [obj]) _ hss (.inl rfl)

/-- A loop adds at most one entry per iteration. -/
theorem loop_length (m : SModel X Y) (cfg : Config) (lr : ℚ) (order : ℕ → List (X × Y)) :
    ∀ (n it : ℕ) (data : List (X × Y)) (st : St) (c : Curves) (d' : List (X × Y)) (st' : St) (c' : Curves),
      loop m cfg lr order n it data st c = .ok (d', st', c') → c'.objective.length ≤ c.objective.length + n
  | 0, it, data, st, c, d', st', c', h => by
    simp only [loop, Except.ok.injEq, Prod.mk.injEq] at h
    rw [h.2.2]; omega
  | n + 1, it, data, st, c, d', st', c', h => by
    unfold loop at h
    simp only at h
    cases hl : learn m cfg lr (if cfg.shuffle = true then order it else data) st with
    | error e => rw [hl] at h; cases h
    | ok sp =>
      obtain ⟨s, p⟩ := sp
      rw [hl] at h
      simp only at h
      by_cases hp : p = 0 ∧ cfg.breakOnNoConstraints = true
      · rw [if_pos hp] at h
        simp only [Except.ok.injEq, Prod.mk.injEq] at h
        rw [h.2.2]; omega
      · rw [if_neg hp] at h
        cases ho : objectivePrimal m s.selfW (if cfg.shuffle = true then order it else data) cfg.C true with
        | error e => rw [ho] at h; cases h
        | ok obj =>
          rw [ho] at h
          have := loop_length m cfg lr order n _ _ _ _ _ _ _ h
          simp only [List.length_append, List.length_singleton] at this
          omega

/-- A loop that was not left early can be split. -/
theorem loop_split (m : SModel X Y) (cfg cfg' : Config) (hcfg : cfg' = { cfg with maxIter := cfg'.maxIter }) (lr : ℚ)
    (order : ℕ → List (X × Y)) (b : ℕ) :
    ∀ (a it : ℕ) (data : List (X × Y)) (st : St) (c : Curves) (d' : List (X × Y)) (st' : St) (c' : Curves),
      loop m cfg lr order a it data st c = .ok (d', st', c') → c'.objective.length = c.objective.length + a →
      loop m cfg' lr order (a + b) it data st c = loop m cfg' lr order b (it + a) d' st' c'
  | 0, it, data, st, c, d', st', c', h, _ => by
    simp only [loop, Except.ok.injEq, Prod.mk.injEq] at h
    rw [h.1, h.2.1, h.2.2, Nat.zero_add, Nat.add_zero]
  | a + 1, it, data, st, c, d', st', c', h, hlen => by
    have hlearn : ∀ d s, learn m cfg' lr d s = learn m cfg lr d s := by rw [hcfg]; exact fun _ _ => rfl
    have e1 : cfg'.shuffle = cfg.shuffle := by rw [hcfg]
    have e2 : cfg'.breakOnNoConstraints = cfg.breakOnNoConstraints := by rw [hcfg]
    have e3 : cfg'.C = cfg.C := by rw [hcfg]
    have e4 : cfg'.showLossEvery = cfg.showLossEvery := by rw [hcfg]
    rw [show a + 1 + b = (a + b) + 1 from by omega]
    unfold loop at h
    rw [loop]
    simp only at h ⊢
    rw [hlearn, e1, e2, e3, e4]
    cases hl : learn m cfg lr (if cfg.shuffle = true then order it else data) st with
    | error e => rw [hl] at h; cases h
    | ok sp =>
      obtain ⟨s, p⟩ := sp
      rw [hl] at h
      simp only at h ⊢
      by_cases hp : p = 0 ∧ cfg.breakOnNoConstraints = true
      · rw [if_pos hp] at h
        simp only [Except.ok.injEq, Prod.mk.injEq] at h
        rw [h.2.2] at hlen; omega
      · rw [if_neg hp] at h ⊢
        cases ho : objectivePrimal m s.selfW (if cfg.shuffle = true then order it else data) cfg.C true with
        | error e => rw [ho] at h; cases h
        | ok obj =>
          rw [ho] at h
          simp only at h ⊢
          have := loop_split m cfg cfg' hcfg lr order b a _ _ _ _ _ _ _ h (by
            rw [hlen]; simp only [List.length_append, List.length_singleton]; omega)
          rw [this, show it + 1 + a = it + (a + 1) from by omega]

/-- Without averaging `self.w` and `w` are the same at the end of the loop. -/
theorem loop_selfW (m : SModel X Y) (cfg : Config) (hm : cfg.momentum = 0) (ha : cfg.averaging = .none) (lr : ℚ)
    (order : ℕ → List (X × Y)) (n it : ℕ) (data : List (X × Y)) (st : St) (c : Curves) (h0 : st.selfW = st.w)
    (d' : List (X × Y)) (st' : St) (c' : Curves) (h : loop m cfg lr order n it data st c = .ok (d', st', c')) :
    st'.selfW = st'.w := by
  have e := loop_alike m cfg cfg rfl hm ha lr order 0 (.inr (dvd_zero _)) [] [] n it data data st st c.objective
    c.loss ⟨rfl, rfl, h0, h0⟩ (.inl rfl)
  simp only [Nat.zero_add, List.nil_append] at e
  have hc : (⟨c.objective, c.loss⟩ : Curves) = c := rfl
  rw [hc, h] at e
  cases e with
  | ok _ _ _ _ _ hal => exact hal.2.2.1

/-- Without shuffling the data stays as it is. -/
theorem loop_data (m : SModel X Y) (cfg : Config) (lr : ℚ) (order : ℕ → List (X × Y)) (hs : cfg.shuffle = false) :
    ∀ (n it : ℕ) (data : List (X × Y)) (st : St) (c : Curves) (d' : List (X × Y)) (st' : St) (c' : Curves),
      loop m cfg lr order n it data st c = .ok (d', st', c') → d' = data
  | 0, it, data, st, c, d', st', c', h => by
    simp only [loop, Except.ok.injEq, Prod.mk.injEq] at h
    exact h.1.symm
  | n + 1, it, data, st, c, d', st', c', h => by
    unfold loop at h
    simp only [hs, Bool.false_eq_true, if_false] at h
    cases hl : learn m cfg lr data st with
    | error e => rw [hl] at h; cases h
    | ok sp =>
      obtain ⟨s, p⟩ := sp
      rw [hl] at h
      simp only at h
      by_cases hp : p = 0 ∧ cfg.breakOnNoConstraints = true
      · rw [if_pos hp] at h
        simp only [Except.ok.injEq, Prod.mk.injEq] at h
        exact h.1.symm
      · rw [if_neg hp] at h
        cases ho : objectivePrimal m s.selfW data cfg.C true with
        | error e => rw [ho] at h; cases h
        | ok obj =>
          rw [ho] at h
          exact loop_data m cfg lr order hs n _ _ _ _ _ _ _ h

/-- The object with another number of iterations. -/
def withIters (o : Obj) (n : ℕ) : Obj := { o with cfg := { o.cfg with maxIter := n } }

/-- What is observed of two ways of training: equal weights, counters, learning rates, loss curves; the objective
curve of the second has one entry more, at position `a`, namely the objective of the weights at the interruption. -/
inductive SameTraining (a : ℕ) (extra : ℚ) : Except PyErr Obj → Except PyErr Obj → Prop
  | error (e : PyErr) : SameTraining a extra (.error e) (.error e)
  | ok (o o' : Obj) : o'.w = o.w → o'.t = o.t → o'.lr = o.lr → o'.curves.loss = o.curves.loss →
      o'.curves.objective = o.curves.objective.take a ++ extra :: o.curves.objective.drop a →
      SameTraining a extra (.ok o) (.ok o')

end Resume

open Resume in
/-- **C122**, `SubgradientSSVM`. Without momentum and averaging, `fit` with `max_iter = a` followed by
`fit(warm_start=True)` with `max_iter = b` ends exactly as `fit` with `max_iter = a + b`, provided the first
training was not left early (its objective curve has `a + 1` entries), the data is shuffled in the same way, and
`show_loss_every` divides `a`: same weights, same step counter, same learning rate, same loss curve, same exceptions.
The objective curve has one entry more. -/
theorem C122_subgradient_partial {X Y : Type} (m : SModel X Y) (order : ℕ → List (X × Y)) (o o1 : Subgradient.Obj)
    (samples : List (X × Y)) (a b : ℕ) (hm : o.cfg.momentum = 0) (ha : o.cfg.averaging = .none)
    (hs : o.cfg.showLossEvery = 0 ∨ o.cfg.showLossEvery ∣ a) (hb : o.cfg.shuffle = false ∨ 0 < b)
    (h1 : Subgradient.fit m order (withIters o a) samples false = .ok o1)
    (hlen : o1.curves.objective.length = a + 1) :
    ∃ extra, o1.curves.objective.getLast? = some extra ∧
      SameTraining a extra (Subgradient.fit m order (withIters o (a + b)) samples false)
        (Subgradient.fit m (fun i => order (a + i)) (withIters o1 b) samples true) := by
  unfold Subgradient.fit Subgradient.setup at h1
  simp only [withIters, Bool.false_eq_true, if_false] at h1
  generalize hlr : o.cfg.learningRate.getD (o.cfg.C * samples.length) = lr at h1
  generalize hcA : { o.cfg with maxIter := a } = cA at h1
  generalize hw0 : o.w.getD (fun _ => 0) = w0 at h1
  cases hl : Subgradient.loop m cA lr order a 0 samples ⟨w0, fun _ => 0, w0, o.t⟩ ⟨[], o.curves.loss⟩ with
  | error e => rw [hl] at h1; cases h1
  | ok r =>
    obtain ⟨d1, st1, c1⟩ := r
    rw [hl] at h1
    simp only at h1
    cases ho : objectivePrimal m st1.selfW d1 o.cfg.C true with
    | error e => rw [ho] at h1; cases h1
    | ok obj =>
      rw [ho] at h1
      simp only [Except.ok.injEq] at h1
      subst h1
      simp only [List.length_append, List.length_singleton, Nat.add_right_cancel_iff] at hlen
      refine ⟨obj, by simp, ?_⟩
      have hmA : cA.momentum = 0 := by rw [← hcA]; exact hm
      have haA : cA.averaging = .none := by rw [← hcA]; exact ha
      have hself : st1.selfW = st1.w := loop_selfW m cA hmA haA lr order a 0 samples _ _ rfl _ _ _ hl
      have hsplit := loop_split m cA { o.cfg with maxIter := a + b } (by rw [← hcA]) lr order b a 0 samples _ _ _ _ _ hl
        (by simp only [hlen, List.length_nil, Nat.zero_add])
      have hdata : d1 = samples ∨ o.cfg.shuffle = true ∧ 0 < b := by
        cases hsh : o.cfg.shuffle with
        | false => exact .inl (loop_data m cA lr order (by rw [← hcA]; exact hsh) a 0 samples _ _ _ _ _ hl)
        | true =>
          rcases hb with hb | hb
          · rw [hb] at hsh; cases hsh
          · exact .inr ⟨rfl, hb⟩
      have hends := loop_alike m { o.cfg with maxIter := a + b } { cA with maxIter := b } (by rw [← hcA]) hm ha lr order a
        hs c1.objective (c1.objective ++ [obj]) b 0 d1 samples st1 ⟨st1.selfW, fun _ => 0, st1.selfW, st1.t⟩ [] c1.loss
        ⟨hself.symm, rfl, hself, rfl⟩ hdata
      unfold Subgradient.fit Subgradient.setup
      simp only [withIters, Bool.false_eq_true, if_false, if_true, hlr, hw0, hsplit, Option.getD_some]
      simp only [Nat.add_zero, List.append_nil] at hends
      rw [Nat.zero_add]
      have hc1 : (⟨c1.objective, c1.loss⟩ : Subgradient.Curves) = c1 := rfl
      rw [hc1] at hends
      revert hends
      generalize Subgradient.loop m { o.cfg with maxIter := a + b } lr order b a d1 st1 c1 = r
      generalize Subgradient.loop m { cA with maxIter := b } lr (fun i => order (a + i)) b 0 samples
        ⟨st1.selfW, fun _ => 0, st1.selfW, st1.t⟩ ⟨c1.objective ++ [obj], c1.loss⟩ = r'
      intro hends
      cases hends with
      | error e => exact .error e
      | ok d st st' new loss hal =>
        have hst : st'.selfW = st.selfW := by rw [hal.2.2.2, hal.2.2.1, hal.1]
        have hC : cA.C = o.cfg.C := by rw [← hcA]
        simp only [hst, hC]
        cases objectivePrimal m st.selfW d o.cfg.C true with
        | error e => exact .error e
        | ok fin =>
          refine .ok _ _ rfl hal.2.1.symm rfl rfl ?_
          simp only [List.append_assoc]
          rw [← hlen, List.take_left, List.drop_left]
          rfl

end Verif.Props
