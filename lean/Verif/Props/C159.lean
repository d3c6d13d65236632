import Verif.Spec.NoLatent

/-!
# C159: latent learners on models without latent states
-/

namespace Verif.Props

open Finset Verif.Spec Verif.Learner Verif.SubgradientLatent

variable {X Y H Z : Type}

/-- the samples as the model without latent states sees them. -/
def plainSamples (emb : Y → Z) (data : List (X × Y)) : List (X × Z) := data.map fun s => (s.1, emb s.2)

theorem noLatent_delta {L : SLModel X Y H} {m : SModel X Z} {emb : Y → Z} {data : List (X × Y)}
    (h : NoLatent L m emb data) {s : X × Y} (hs : s ∈ data) (w : W) :
    (findConstraint m s.1 (emb s.2) w none true true).delta = fun k =>
      L.m.jointFeature s.1 (L.latent s.1 s.2 w) k -
        L.m.jointFeature s.1 (L.m.lossAug s.1 (L.latent s.1 s.2 w) w true) k := by
  funext k
  rw [h.delta s hs]
  unfold findConstraint SModel.feat
  simp only [h.plain, Bool.false_eq_true, if_false, if_true]
  ring

theorem noLatent_slack {L : SLModel X Y H} {m : SModel X Z} {emb : Y → Z} {data : List (X × Y)}
    (h : NoLatent L m emb data) {s : X × Y} (hs : s ∈ data) (w : W) :
    (findConstraint m s.1 (emb s.2) w none true true).slack =
      max (m.lossOf (emb s.2) (m.lossAug s.1 (emb s.2) w true) - dot L.m.dim w (fun k =>
      L.m.jointFeature s.1 (L.latent s.1 s.2 w) k -
        L.m.jointFeature s.1 (L.m.lossAug s.1 (L.latent s.1 s.2 w) w true) k)) 0 := by
  rw [← noLatent_delta h hs w, h.dim]
  rfl

theorem noLatent_step {L : SLModel X Y H} {m : SModel X Z} {emb : Y → Z} {data : List (X × Y)}
    (h : NoLatent L m emb data) (cfg : Subgradient.Config) (lr : ℚ) (n : ℕ) {s : X × Y} (hs : s ∈ data)
    (a : Subgradient.St × ℤ × ℚ) (b : Subgradient.St × ℤ) (hab : a.1 = b.1 ∧ a.2.1 = b.2) :
    (onlineStep L cfg lr n a s).1 = (Subgradient.onlineStep m cfg lr n b (s.1, emb s.2)).1 ∧
    (onlineStep L cfg lr n a s).2.1 = (Subgradient.onlineStep m cfg lr n b (s.1, emb s.2)).2 := by
  obtain ⟨h1, h2⟩ := hab
  unfold onlineStep Subgradient.onlineStep
  simp only
  rw [noLatent_delta h hs, noLatent_slack h hs, h1, h2, h.loss s hs]
  refine ⟨rfl, ?_⟩
  rw [dot_comm _ _ b.1.w]
  simp only [lt_max_iff, lt_irrefl, or_false, neg_add_eq_sub]

theorem noLatent_fold {L : SLModel X Y H} {m : SModel X Z} {emb : Y → Z} {data : List (X × Y)}
    (h : NoLatent L m emb data) (cfg : Subgradient.Config) (lr : ℚ) (n : ℕ) (l : List (X × Y))
    (hl : ∀ s ∈ l, s ∈ data) (a : Subgradient.St × ℤ × ℚ) (b : Subgradient.St × ℤ)
    (hab : a.1 = b.1 ∧ a.2.1 = b.2) :
    (l.foldl (onlineStep L cfg lr n) a).1 =
      ((plainSamples emb l).foldl (Subgradient.onlineStep m cfg lr n) b).1 ∧
    (l.foldl (onlineStep L cfg lr n) a).2.1 =
      ((plainSamples emb l).foldl (Subgradient.onlineStep m cfg lr n) b).2 := by
  induction l generalizing a b with
  | nil => exact hab
  | cons s l ih =>
    exact ih (fun t ht => hl t (List.mem_cons_of_mem _ ht)) _ _
      (noLatent_step h cfg lr n (hl s List.mem_cons_self) a b hab)

theorem noLatent_objective {L : SLModel X Y H} {m : SModel X Z} {emb : Y → Z} {data : List (X × Y)}
    (h : NoLatent L m emb data) (C : ℚ) (w : W) :
    SubgradientLatent.objective L C w data = objectivePrimal m w (plainSamples emb data) C true := by
  unfold SubgradientLatent.objective objectivePrimal plainSamples
  rw [List.isEmpty_map]
  split
  · rfl
  · simp only [if_true, List.map_map]
    have e : data.map (fun s => max (findConstraintLatent L s.1 s.2 w).slack 0) =
        data.map ((fun s => max s 0) ∘ (fun s : X × Z => (findConstraint m s.1 s.2 w none true true).slack) ∘
          fun s => (s.1, emb s.2)) := by
      apply List.map_congr_left
      intro s hs
      simp only [Function.comp]
      rw [noLatent_slack h hs]
      unfold findConstraintLatent
      simp only
      rw [h.lossLabel s hs]
    rw [e, h.dim, max_eq_left]
    apply List.sum_nonneg
    intro q hq
    obtain ⟨s, -, rfl⟩ := List.mem_map.mp hq
    exact le_max_right _ _

theorem noLatent_trainingLoss {L : SLModel X Y H} {m : SModel X Z} {emb : Y → Z} {data : List (X × Y)}
    (h : NoLatent L m emb data) (every : ℕ) (w : W) (it : ℕ) (c : List ℚ) :
    trainingLoss L every w data it c = computeTrainingLoss m every w (plainSamples emb data) it c := by
  unfold trainingLoss computeTrainingLoss
  have e : SubgradientLatent.score L w data = Learner.score m ((plainSamples emb data).map Prod.snd)
      (Learner.predict m w ((plainSamples emb data).map Prod.fst)) := by
    unfold SubgradientLatent.score Learner.score Learner.predict plainSamples
    simp only [List.map_map]
    have e1 : data.map (fun s => L.lossLabel s.2 (L.m.inference s.1 w)) =
        ((data.map (Prod.snd ∘ fun s => (s.1, emb s.2))).zip
          (data.map ((fun x => m.inference x w) ∘ Prod.fst ∘ fun s => (s.1, emb s.2)))).map
            fun p => m.loss p.1 p.2 := by
      rw [List.zip_map', List.map_map]
      apply List.map_congr_left
      intro s hs
      exact h.predicted s hs w
    have e2 : data.map (fun s => L.maxLoss s.2) = data.map (m.maxLoss ∘ Prod.snd ∘ fun s => (s.1, emb s.2)) := by
      apply List.map_congr_left
      intro s hs
      exact h.maxLoss s hs
    rw [e1, e2]
  rw [e]

/-- the loops walk the same path. -/
theorem noLatent_loop {L : SLModel X Y H} {m : SModel X Z} {emb : Y → Z} {data : List (X × Y)}
    (h : NoLatent L m emb data) (hne : data ≠ []) (cfg : Subgradient.Config) (hj : cfg.nJobs = 1)
    (hb : cfg.batchSize = none ∨ cfg.batchSize = some 1) (hsh : cfg.shuffle = false) (lr : ℚ)
    (order : ℕ → List (X × Z)) (n it : ℕ) (st : Subgradient.St) (c c' : Subgradient.Curves)
    (hc : c.objective.length = c'.objective.length ∧ c.loss = c'.loss) :
    ∃ st' d d', loop L cfg .one lr data n it st c = .ok (st', d) ∧
      Subgradient.loop m cfg lr order n it (plainSamples emb data) st c' =
        .ok (plainSamples emb data, st', d') ∧
      d.objective.length = d'.objective.length ∧ d.loss = d'.loss := by
  induction n generalizing it st c c' with
  | zero => exact ⟨st, c, c', rfl, rfl, hc⟩
  | succ n ih =>
    have hp := noLatent_fold h cfg lr data.length data (fun s hs => hs) (st, 0, 0) (st, 0) ⟨rfl, rfl⟩
    have hlen : (plainSamples emb data).length = data.length := by simp [plainSamples]
    have hlearn : Subgradient.learn m cfg lr (plainSamples emb data) st =
        .ok ((plainSamples emb data).foldl (Subgradient.onlineStep m cfg lr data.length) (st, 0)) := by
      unfold Subgradient.learn Subgradient.sequentialLearning
      rw [if_pos hj, hlen]
      rcases hb with hb | hb <;> rw [hb]
      simp
    have hpass : pass L cfg .one lr data st = .ok (data.foldl (onlineStep L cfg lr data.length) (st, 0, 0)) := rfl
    generalize (data.foldl (onlineStep L cfg lr data.length) (st, 0, 0)) = A at hp hpass
    generalize ((plainSamples emb data).foldl (Subgradient.onlineStep m cfg lr data.length) (st, 0)) = B at hp hlearn
    obtain ⟨stA, pA, oA⟩ := A
    obtain ⟨stB, pB⟩ := B
    obtain ⟨e1, e2⟩ := hp
    simp only at e1 e2
    subst e1 e2
    unfold loop Subgradient.loop
    rw [hpass]
    simp only [hsh, Bool.false_eq_true, if_false]
    rw [hlearn]
    simp only
    by_cases hbr : pA = 0 ∧ cfg.breakOnNoConstraints = true
    · rw [if_pos hbr, if_pos hbr]
      exact ⟨stA, c, c', rfl, rfl, hc⟩
    · rw [if_neg hbr, if_neg hbr]
      have hobj : ∃ q, objectivePrimal m stA.selfW (plainSamples emb data) cfg.C true = .ok q := by
        unfold objectivePrimal
        rw [if_neg (by simp [plainSamples, hne])]
        exact ⟨_, rfl⟩
      obtain ⟨q, hq⟩ := hobj
      rw [hq]
      simp only
      apply ih
      constructor
      · simp [hc.1]
      · rw [noLatent_trainingLoss h, hc.2]

/-- **C159 (SubgradientLatentSSVM).** On a model without latent states `SubgradientLatentSSVM` with one job and
`SubgradientSSVM` with the same parameters, started from the same weights, end with the same weights, counters
and rates; they record the same training losses, equally many objective values, and the same final objective. -/
theorem C159_subgradient (L : SLModel X Y H) (m : SModel X Z) (emb : Y → Z) (data : List (X × Y))
    (h : NoLatent L m emb data) (hne : data ≠ []) (o : Subgradient.Obj) (hj : o.cfg.nJobs = 1)
    (hb : o.cfg.batchSize = none ∨ o.cfg.batchSize = some 1) (hsh : o.cfg.shuffle = false)
    (order : ℕ → List (X × Z)) (w0 : W) (hw : o.w = none → w0 = fun _ => 0) (warm : Bool)
    (hwarm : warm = true → o.lr ≠ none) :
    ∃ a b, SubgradientLatent.fit L .one w0 o data warm = .ok a ∧
      Subgradient.fit m order o (data.map fun s => (s.1, emb s.2)) warm = .ok b ∧
      a.w = b.w ∧ a.t = b.t ∧ a.lr = b.lr ∧ a.cfg = b.cfg ∧ a.curves.loss = b.curves.loss ∧
      a.curves.objective.length = b.curves.objective.length ∧
      a.curves.objective.getLast? = b.curves.objective.getLast? ∧ a.curves.objective.getLast? ≠ none := by
  have hlen : (data.map fun s => (s.1, emb s.2)).length = data.length := by simp
  have hset : ∃ lr curve, Subgradient.setup o data.length warm = .ok (lr, curve) := by
    unfold Subgradient.setup
    cases warm with
    | false => exact ⟨_, _, rfl⟩
    | true =>
      have := hwarm rfl
      cases hl : o.lr with
      | none => exact absurd hl this
      | some lr => exact ⟨_, _, rfl⟩
  obtain ⟨lr, curve, hset⟩ := hset
  have hw' : o.w.getD w0 = o.w.getD (fun _ => 0) := by
    cases hw1 : o.w with
    | none => simp [hw hw1]
    | some v => rfl
  obtain ⟨st, d, d', h1, h2, h3, h4⟩ := noLatent_loop h hne o.cfg hj hb hsh lr order o.cfg.maxIter 0
    ⟨o.w.getD w0, fun _ => 0, o.w.getD w0, o.t⟩ ⟨curve, o.curves.loss⟩ ⟨curve, o.curves.loss⟩ ⟨rfl, rfl⟩
  have hobj : ∃ q, objectivePrimal m st.selfW (plainSamples emb data) o.cfg.C true = .ok q := by
    unfold objectivePrimal
    rw [if_neg (by simp [plainSamples, hne])]
    exact ⟨_, rfl⟩
  obtain ⟨q, hq⟩ := hobj
  have hq' := hq
  rw [← noLatent_objective h] at hq'
  refine ⟨⟨o.cfg, some st.selfW, st.t, some lr, ⟨d.objective ++ [q], d.loss⟩⟩,
    ⟨o.cfg, some st.selfW, st.t, some lr, ⟨d'.objective ++ [q], d'.loss⟩⟩, ?_, ?_, rfl, rfl, rfl, rfl, h4, ?_, ?_, ?_⟩
  · unfold SubgradientLatent.fit
    rw [hset]
    simp only
    rw [h1]
    simp only
    rw [hq']
  · unfold Subgradient.fit
    simp only
    rw [hlen, hset]
    simp only
    rw [hw'] at h2
    change (match Subgradient.loop m o.cfg lr order o.cfg.maxIter 0 (plainSamples emb data) _ _ with
      | .error err => _
      | .ok (data, st, c) => _) = _
    rw [h2]
    simp only
    rw [hq]
  · simp [h3]
  · simp
  · simp

/-- **C159 (LatentSSVM).** If completions are always the given ones, `LatentSSVM.fit` with at least one iteration
calls its base learner exactly once, with the labels as completions and as a fresh start, and ends (by itself if
two iterations are allowed) in the state the base learner is in. -/
theorem C159_latent_ssvm {σ : Type} (L : LatentSSVM.LModel X Y H) (B : LatentSSVM.Base σ X H)
    (same : H → H → Bool) (n : ℕ) (base b : σ) (data : List (X × Y)) (hInit : Option (List H)) (hs : List H)
    (hinit : hInit.getD (L.initLatent data) = hs)
    (hsame : ∀ w, (((data.map fun s => L.latent s.1 s.2 w).zip hs).all fun p => same p.1 p.2) = true)
    (hfit : B.fit base ((data.map Prod.fst).zip hs) none false = .ok b) :
    LatentSSVM.fit L B same (n + 1) base data hInit =
      .ok (⟨b, B.w b, hs, [(hs, b)]⟩, decide (n ≠ 0)) := by
  unfold LatentSSVM.fit
  rw [hinit]
  unfold LatentSSVM.loop LatentSSVM.iteration LatentSSVM.refit
  simp only [if_true]
  rw [hfit]
  simp only [List.nil_append]
  cases n with
  | zero => rfl
  | succ n =>
    unfold LatentSSVM.loop LatentSSVM.iteration
    rw [if_neg (by omega)]
    have := hsame (B.w b)
    unfold LatentSSVM.completions
    rw [if_pos this]
    simp

end Verif.Props
