import Verif.Props.C40

/-!
# C41, C42, C51, C61, C67, C68 for OneSlackSSVM
-/

namespace Verif.Props

open Finset Verif.Spec Verif.Learner Verif.OneSlack

variable {X Y : Type}

/-! ### C41: the cache -/

/-- `ŷ` was returned by loss-augmented inference for some weights: of the model, or after switching. -/
def FromInference (m : SModel X Y) (alt : Option ((X → Y → W → Bool → Y) × (X → W → Y))) (x : X) (y ŷ : Y) :
    Prop :=
  ∃ w, ŷ = m.lossAug x y w true ∨ ∃ p, alt = some p ∧ ŷ = p.1 x y w true

/-- The caches are fine: sizes, no duplicates, entries from inference. -/
def CacheSound (m : SModel X Y) (alt : Option ((X → Y → W → Bool → Y) × (X → W → Y)))
    (eq : Y → Y → Except PyErr Bool) (size : ℕ) (samples : List (X × Y))
    (cache : Option (List (List (Cached Y)))) : Prop :=
  ∀ c, cache = some c → m.rescaleC = false ∧ (∀ l ∈ c, CacheOK eq size l) ∧
    Linked m (FromInference m alt) samples c

/-- every constraint is that of the true outputs, or the mean of constraints of outputs that
loss-augmented inference returned. -/
def FromOutputs (m : SModel X Y) (outputs : X → Set Y)
    (alt : Option ((X → Y → W → Bool → Y) × (X → W → Y))) (samples : List (X × Y)) (cs : List Con) : Prop :=
  ∀ c ∈ cs, c = (fun _ => 0, 0) ∨ (problemOf m outputs).IsMean (FromInference m alt) samples c.1 c.2

theorem iteration_cache {m : SModel X Y} {outputs : X → Set Y} {qp : QP.Solver} (hqp : QP.Sound qp)
    {eq : Y → Y → Except PyErr Bool}
    {alt : Option ((X → Y → W → Bool → Y) × (X → W → Y))} {cfg : Config} {samples : List (X × Y)}
    (hcr : cfg.inferenceCache = 0 ∨ m.rescaleC = false)
    {it : ℕ} {intr : Option Phase} {st st' : St X Y} {b : Bool}
    (hm : ∃ la inf, st.model = { m with lossAug := la, inference := inf } ∧
      ∀ x y w, FromInference m alt x y (la x y w true))
    (hc : CacheSound m alt eq cfg.inferenceCache samples st.cache)
    (hf : FromOutputs m outputs alt samples st.constraints)
    (h : iteration qp eq alt cfg samples (jointFeatureGt m samples) it intr st = .ok (st', b)) :
    (∃ la inf, st'.model = { m with lossAug := la, inference := inf } ∧
      ∀ x y w, FromInference m alt x y (la x y w true)) ∧
    CacheSound m alt eq cfg.inferenceCache samples st'.cache ∧
    FromOutputs m outputs alt samples st'.constraints := by
  rcases iteration_ok h with ⟨rfl, -, -⟩ | ⟨la, inf, ha, hs, -, -, rfl⟩ | ⟨-, f, cd, cache, hfind, hadd⟩
  · exact ⟨hm, hc, hf⟩
  · obtain ⟨la0, inf0, hm, -⟩ := hm
    exact ⟨⟨la, inf, by simp [hm], fun x y w => ⟨w, .inr ⟨_, ha, rfl⟩⟩⟩, hc, hf⟩
  · obtain ⟨la, inf, hm, hla⟩ := hm
    have hk : ∀ c, st.cache = some c → m.rescaleC = false ∧ Linked m (FromInference m alt) samples c :=
      fun c h => ⟨(hc c h).1, (hc c h).2.2⟩
    have hmean : (problemOf m outputs).IsMean (FromInference m alt) samples f.dj f.loss := by
      rcases hfind with ⟨hf, -, -⟩ | ⟨hf, -, -⟩
      · exact fromCache_mean hm hk hf
      · exact (findNew_mean hm (fun s _ w => hla _ _ w) hf).1
    have hcache : CacheSound m alt eq cfg.inferenceCache samples cache := by
      rcases hfind with ⟨-, -, rfl⟩ | ⟨hf, -, hu⟩
      · exact hc
      · have hy := (findNew_mean (outputs := outputs) hm (fun s _ w => hla s.1 s.2 w) hf).2
        have hfa : List.Forall₂ (fun s yh => FromInference m alt s.1 s.2 yh) samples f.yhat := by
          rw [hy, List.forall₂_map_right_iff, List.forall₂_same]
          exact fun s hs => hla _ _ _
        obtain ⟨u1, u2, u3⟩ := updateCache_ok hu
        have u3' := u3 (FromInference m alt) (fun c hc => by
          have := (hk c hc).2
          unfold Linked at this ⊢
          rw [hm]
          exact this) hfa
        intro c hc'
        refine ⟨?_, u1 (fun c hcc => (hc c hcc).2.1) c hc', ?_⟩
        · rcases hcr with h0 | h0
          · rw [u2 h0] at hc'; exact (hc c hc').1
          · exact h0
        · have := u3' c hc'
          unfold Linked at this ⊢
          rw [hm] at this
          exact this
    obtain ⟨a1, -, a3, -, -, a4⟩ := addConstraint_ok hadd
    simp only at a1 a3 a4
    have hcs : FromOutputs m outputs alt samples (st.constraints ++ [(f.dj, f.loss)]) := by
      intro c hc
      rcases List.mem_append.mp hc with hc | hc
      · exact hf c hc
      · rw [List.mem_singleton] at hc
        subst hc
        exact .inr hmean
    refine ⟨⟨la, inf, a1.trans hm, hla⟩, a3 ▸ hcache, ?_⟩
    rcases a4 with ⟨-, -, -, b1, -⟩ | ⟨-, sol, c1, c2, -⟩
    · rw [b1]; exact hcs
    · obtain ⟨eps, -, -, e2, -⟩ := solveQP_eps c1
      have hlen := ((feasible_qpOf _ _ _ _ _ _).mp (hqp _ _ e2).1).1
      obtain ⟨-, -, psub, -⟩ := prune_facts cfg _ _ _ hlen c2
      exact fun c hc => hcs c (psub.mem hc)

/-- **C41.** After a `fit` that started without a cache, or with a sound one: the cache of a sample holds at
most `inference_cache + 1` results (one more than documented, see `C41_violated`), no two of which are equal;
all are results of loss-augmented inference for that sample, stored with their joint feature and loss; and
every constraint in the working set, whether it was built from the cache or by inference, is either that of
the true outputs or the mean of constraints of such results. -/
theorem C41_partial (m : SModel X Y) (outputs : X → Set Y) (qp : QP.Solver)
    (hqp : QP.Sound qp) (eq : Y → Y → Except PyErr Bool)
    (alt : Option ((X → Y → W → Bool → Y) × (X → W → Y))) (intr : ℕ → Option Phase)
    (o o' : Obj Y) (samples : List (X × Y))
    (hcr : o.cfg.inferenceCache = 0 ∨ m.rescaleC = false) (warm : Warm)
    (hw : warm = .no ∧ (∀ it, intr it ≠ some .after) ∨ ∀ a, o.attrs = some a →
      CacheSound m alt eq o.cfg.inferenceCache samples a.cache ∧
      ∀ cs, a.constraints = some cs → FromOutputs m outputs alt samples cs)
    (h : OneSlack.fit m qp eq alt intr o samples warm = .ok o') :
    ∃ a, o'.attrs = some a ∧ CacheSound m alt eq o.cfg.inferenceCache samples a.cache ∧
      ∀ cs, a.constraints = some cs → FromOutputs m outputs alt samples cs := by
  unfold OneSlack.fit at h
  cases hs : start m o warm with
  | error err => rw [hs] at h; cases h
  | ok st =>
    rw [hs] at h
    simp only at h
    have hI : (∃ la inf, st.model = { m with lossAug := la, inference := inf } ∧
        ∀ x y w, FromInference m alt x y (la x y w true)) ∧
        CacheSound m alt eq o.cfg.inferenceCache samples st.cache ∧
        FromOutputs m outputs alt samples st.constraints ∧ st.objective = none := by
      have hm0 : ∃ la inf, m = { m with lossAug := la, inference := inf } ∧
          ∀ x y w, FromInference m alt x y (la x y w true) :=
        ⟨m.lossAug, m.inference, rfl, fun x y w => ⟨w, .inl rfl⟩⟩
      have h0 : FromOutputs m outputs alt samples [((fun _ => 0), 0)] := by
        intro c hc
        exact .inl (List.mem_singleton.mp hc)
      unfold start at hs
      simp only at hs
      split at hs
      · rw [Except.ok.injEq] at hs
        subst hs
        exact ⟨hm0, by intro c hc; simp at hc, h0, rfl⟩
      · rename_i a ha
        rw [Except.ok.injEq] at hs
        subst hs
        rcases hw with ⟨hw, -⟩ | hw
        · cases hw
        · exact ⟨hm0, (hw a ha).1, h0, rfl⟩
      · rename_i ha
        rw [Except.ok.injEq] at hs
        subst hs
        rcases hw with ⟨hw, -⟩ | hw
        · cases hw
        · exact ⟨hm0, (hw _ ha).1, (hw _ ha).2 _ rfl, rfl⟩
      · cases hs
    cases hl : loop qp eq alt o.cfg samples (jointFeatureGt m samples) intr o.cfg.maxIter 0 st with
    | error err => rw [hl] at h; cases h
    | ok st' =>
      rw [hl] at h
      simp only at h
      have hI' := loop_induct (I := fun s => (∃ la inf, s.model = { m with lossAug := la, inference := inf } ∧
        ∀ x y w, FromInference m alt x y (la x y w true)) ∧
        CacheSound m alt eq o.cfg.inferenceCache samples s.cache ∧
        FromOutputs m outputs alt samples s.constraints)
        (fun it s s' b hi hit => iteration_cache hqp hcr hi.1 hi.2.1 hi.2.2 hit) _ _ _ _
        ⟨hI.1, hI.2.1, hI.2.2.1⟩ hl
      have hshare : (∀ it, intr it ≠ some .after) → st'.objective ≠ none → st'.shared = true := by
        intro hint
        refine loop_induct (I := fun s => s.objective ≠ none → s.shared = true) ?_ _ _ _ _
          (fun h => absurd hI.2.2.2 h) hl
        intro it s s' b hi hit
        rcases iteration_ok hit with ⟨rfl, -, -⟩ | ⟨la, inf, ha, hs, -, -, rfl⟩ | ⟨-, f, cd, cache, hfind, hadd⟩
        · exact hi
        · exact hi
        · obtain ⟨-, -, -, -, -, a4⟩ := addConstraint_ok hadd
          rcases a4 with ⟨-, -, -, -, -, -, b3, b4, -⟩ | ⟨-, sol, -, -, -, -, c5⟩
          · rw [b3, b4]; exact hi
          · rcases c5 with ⟨d0, -⟩ | ⟨-, -, -, d2, -⟩
            · exact absurd d0 (hint it)
            · exact fun _ => d2
      cases hp : objectivePrimal st'.model st'.w samples o.cfg.C false with
      | error err => rw [hp] at h; cases h
      | ok primal =>
        rw [hp] at h
        simp only at h
        cases hob : st'.objective with
        | none => rw [hob] at h; cases h
        | some obj =>
          rw [hob] at h
          simp only [Except.ok.injEq] at h
          subst h
          refine ⟨_, rfl, hI'.2.1, ?_⟩
          intro cs hcs
          simp only at hcs
          split_ifs at hcs with hsh
          · rw [Option.some.injEq] at hcs
            exact hcs ▸ hI'.2.2
          · rcases hw with ⟨-, hint⟩ | hw
            · exact absurd (hshare hint (by rw [hob]; simp)) hsh
            · cases ha : o.attrs with
              | none => rw [ha] at hcs; simp at hcs
              | some a =>
                rw [ha] at hcs
                exact (hw a ha).2 cs hcs

/-- **C41, the documented bound is violated.** With `inference_cache=1`, the cache of a sample ends up with two
results. -/
theorem C41_violated :
    ∃ o a c, OneSlack.fit prunedTable prunedSolver natEq none (fun _ => none) (exampleOS 10 (1 / 2) 1 1)
        [((), 0)] .no = .ok o ∧ (exampleOS 10 (1 / 2) 1 1).cfg.inferenceCache = 1 ∧
      o.attrs = some a ∧ a.cache = some c ∧ c.map List.length = [2] := by
  have key : (do
      let o ← OneSlack.fit prunedTable prunedSolver natEq none (fun _ => none) (exampleOS 10 (1 / 2) 1 1)
        [((), 0)] .no
      match o.attrs with
      | none => .error .valueError
      | some a =>
        match a.cache with
        | none => .error .valueError
        | some c => pure (c.map List.length)) = .ok [2] := by decide +kernel
  obtain ⟨o, ho, h1⟩ := bind_eq_ok.mp key
  cases ha : o.attrs with
  | none => rw [ha] at h1; cases h1
  | some a =>
    rw [ha] at h1
    simp only at h1
    cases hc : a.cache with
    | none => rw [hc] at h1; cases h1
    | some c =>
      rw [hc] at h1
      simp only [pure, Except.pure, Except.ok.injEq] at h1
      exact ⟨o, a, c, ho, rfl, ha, hc, h1⟩

/-! ### C42: the working set and the dual history -/

/-- one history per constraint, and at least one constraint. -/
def Aligned (cs : List Con) (alphas : List (List ℚ)) : Prop := alphas.length = cs.length ∧ cs ≠ []

/-- the interrupts that leave the two lists aligned. -/
def Harmless (intr : Option Phase) : Prop := intr = none ∨ intr = some .search

theorem iteration_aligned {qp : QP.Solver} (hqp : QP.Sound qp) {eq : Y → Y → Except PyErr Bool}
    {alt : Option ((X → Y → W → Bool → Y) × (X → W → Y))} {cfg : Config} {samples : List (X × Y)}
    (hthr : cfg.inactiveThreshold ≤ 1) {gt : W}
    {it : ℕ} {intr : Option Phase} (hintr : Harmless intr) {st st' : St X Y} {b : Bool}
    (hI : Aligned st.constraints st.alphas)
    (h : iteration qp eq alt cfg samples gt it intr st = .ok (st', b)) :
    Aligned st'.constraints st'.alphas ∧ (st.shared = true → st'.shared = true) ∧
      ((st.objective ≠ none → st.shared = true) → st'.objective ≠ none → st'.shared = true) := by
  rcases iteration_ok h with ⟨rfl, -, -⟩ | ⟨la, inf, ha, hs, -, -, rfl⟩ | ⟨-, f, cd, cache, hfind, hadd⟩
  · exact ⟨hI, id, id⟩
  · exact ⟨hI, id, id⟩
  · obtain ⟨-, -, -, -, -, a4⟩ := addConstraint_ok hadd
    simp only at a4
    rcases a4 with ⟨h0, -⟩ | ⟨-, sol, c1, c2, -, -, c5⟩
    · rcases hintr with h1 | h1 <;> rw [h1] at h0 <;> cases h0
    · rcases c5 with ⟨h0, -⟩ | ⟨-, -, -, d2, -⟩
      · rcases hintr with h1 | h1 <;> rw [h1] at h0 <;> cases h0
      · obtain ⟨eps, -, -, e2, -⟩ := solveQP_eps c1
        obtain ⟨hlen, hpos, -⟩ := (feasible_qpOf _ _ _ _ _ _).mp (hqp _ _ e2).1
        obtain ⟨-, p1, -, -, p2⟩ := prune_facts cfg _ _ _ hlen c2
        refine ⟨⟨p1, p2 hthr ?_⟩, fun _ => d2, fun _ _ => d2⟩
        intro x hx
        obtain ⟨i, hi, rfl⟩ := List.getElem_of_mem hx
        have := hpos i (by omega)
        simpa [List.getD_eq_getElem?_getD, hi] using this

theorem checkBad_assert {cfg : Config} {dim : ℕ} {w : W} {ls v : ℚ} {dj : W} {loss : ℚ} {old : List Con}
    {brk : Bool} : checkBad cfg dim w ls v dj loss old brk ≠ .error .assertionError := by
  unfold checkBad
  simp only
  split_ifs <;> simp

theorem alreadyThere_assert {Y : Type} {eq : Y → Y → Except PyErr Bool}
    (heq : ∀ a b, eq a b ≠ .error .assertionError) {yhat : Y} (l : List (Cached Y)) :
    alreadyThere eq yhat l ≠ .error .assertionError := by
  induction l with
  | nil => simp [alreadyThere]
  | cons c cs ih =>
    unfold alreadyThere
    cases hc : eq yhat c.2.2 with
    | error err => exact fun h => heq yhat c.2.2 (by rw [hc]; simpa using h)
    | ok b =>
      simp only
      cases hs : alreadyThere eq yhat cs with
      | error err => exact fun h => ih (by rw [hs]; simpa using h)
      | ok b => simp

theorem cacheSamples_assert {m : SModel X Y} {eq : Y → Y → Except PyErr Bool}
    (heq : ∀ a b, eq a b ≠ .error .assertionError) {size : ℕ} :
    ∀ (cache : List (List (Cached Y))) (samples : List (X × Y)) (yhat : List Y),
    cacheSamples m eq size cache samples yhat ≠ .error .assertionError := by
  intro cache
  induction cache with
  | nil => intro samples yhat; simp [cacheSamples]
  | cons c cs ih =>
    intro samples yhat
    cases samples with
    | nil => simp [cacheSamples]
    | cons s samples =>
      cases yhat with
      | nil => simp [cacheSamples]
      | cons yh yhat =>
        unfold cacheSamples
        cases hc : cacheSample m eq size c s.1 s.2 yh with
        | error err =>
          intro h
          unfold cacheSample at hc
          cases ha : alreadyThere eq yh c with
          | error err' =>
            rw [ha] at hc
            simp only [Except.error.injEq] at hc h
            exact alreadyThere_assert heq c (by rw [ha, hc, h])
          | ok b => rw [ha] at hc; cases b <;> simp at hc
        | ok c' =>
          simp only
          cases hs : cacheSamples m eq size cs samples yhat with
          | error err => exact fun h => ih samples yhat (by rw [hs]; simpa using h)
          | ok cs' => simp

theorem strongestAll_assert {Y : Type} {dim : ℕ} {w : W} (cache : List (List (Cached Y))) :
    strongestAll dim w cache ≠ .error .assertionError := by
  induction cache with
  | nil => simp [strongestAll]
  | cons c cs ih =>
    unfold strongestAll
    cases hc : strongestCached dim w c with
    | error err =>
      unfold strongestCached at hc
      split at hc
      · simp only [Except.error.injEq] at hc
        simp [← hc]
      · cases hc
    | ok e =>
      simp only
      cases hs : strongestAll dim w cs with
      | error err => exact fun h => ih (by rw [hs]; simpa using h)
      | ok es => simp

theorem iteration_assert {qp : QP.Solver} {eq : Y → Y → Except PyErr Bool}
    (heq : ∀ a b, eq a b ≠ .error .assertionError)
    {alt : Option ((X → Y → W → Bool → Y) × (X → W → Y))} {cfg : Config} {samples : List (X × Y)} {gt : W}
    {it : ℕ} {intr : Option Phase} {st : St X Y} (hI : Aligned st.constraints st.alphas) :
    iteration qp eq alt cfg samples gt it intr st ≠ .error .assertionError := by
  have hadd : ∀ c f cached, addConstraint qp cfg samples it intr { st with cache := c } f cached ≠
      .error .assertionError := by
    intro c f cached
    unfold addConstraint
    simp only
    by_cases h1 : intr = some .qp
    · rw [if_pos h1]; simp
    · rw [if_neg h1]
      cases hs : solveQP qp st.model.dim cfg.negativity (cfg.C * samples.length)
          (st.constraints ++ [(f.dj, f.loss)]) with
      | error err =>
        unfold solveQP at hs
        split_ifs at hs with h2
        · simp only [Except.error.injEq] at hs; simp [← hs]
        · split at hs
          · cases hs
          · split at hs
            · cases hs
            · simp only [Except.error.injEq] at hs; simp [← hs]
      | ok sol =>
        simp only
        cases hp : prune cfg (st.constraints ++ [(f.dj, f.loss)]) st.alphas sol.x with
        | error err =>
          unfold prune at hp
          simp only at hp
          rw [if_neg (by simp [hI.1])] at hp
          split_ifs at hp
          simp only [Except.error.injEq] at hp
          simp [← hp]
        | ok r =>
          simp only
          split_ifs
          · simp
          · cases hn : newLastSlack st.model.dim (weightsOf (st.constraints ++ [(f.dj, f.loss)]) sol.x) r.1 with
            | error err =>
              unfold newLastSlack at hn
              split at hn
              · simp only [Except.error.injEq] at hn; simp [← hn]
              · cases hn
            | ok s => simp
  unfold iteration
  split_ifs
  · simp
  · cases hc : fromCache cfg st gt samples.length with
    | error err =>
      simp only
      intro h
      rw [Except.error.injEq] at h
      subst h
      unfold fromCache at hc
      split at hc
      · cases hc
      · cases hc
      · split at hc
        · rename_i c cs _ _ _ primal obj _ _
          by_cases hg : gapSmall cfg.cacheTol st.cacheTol (primal - obj) = true
          · rw [if_pos hg] at hc; cases hc
          · rw [if_neg hg] at hc
            cases hs : strongestAll st.model.dim st.w (c :: cs) with
            | error err =>
              rw [hs] at hc
              simp only [Except.error.injEq] at hc
              exact strongestAll_assert _ (hc ▸ hs)
            | ok es =>
              rw [hs] at hc
              simp only at hc
              split at hc
              · rename_i h0
                simp only [Except.error.injEq] at hc
                exact checkBad_assert (hc ▸ h0)
              · cases hc
              · cases hc
        · cases hc
    | ok r =>
      cases r with
      | some f => exact hadd st.cache f true
      | none =>
        simp only
        cases hf : findNew cfg st gt samples with
        | error err =>
          simp only
          intro h
          rw [Except.error.injEq] at h
          subst h
          unfold findNew at hf
          simp only at hf
          split at hf
          · rename_i h0
            simp only [Except.error.injEq] at hf
            exact checkBad_assert (hf ▸ h0)
          · cases hf
          · cases hf
        | ok r =>
          cases r with
          | some f =>
            simp only
            cases hu : updateCache st.model eq cfg st.cache samples f.yhat with
            | error err =>
              simp only
              intro h
              rw [Except.error.injEq] at h
              subst h
              unfold updateCache at hu
              split_ifs at hu
              split at hu
              · rename_i h0
                simp only [Except.error.injEq] at hu
                exact cacheSamples_assert heq _ _ _ (hu ▸ h0)
              · cases hu
            | ok cache => exact hadd cache f false
          | none =>
            simp only
            split <;> simp

/-- **C42.** Start from a fresh fit, a soft warm start, or a warm start with aligned attributes, let
interrupts arrive only while constraints are searched for. Then `fit` does not fail with `AssertionError`;
and if it succeeds, there is a history for every constraint of the working set, which is not empty, so that
the same holds for the following warm start. -/
theorem C42_partial (m : SModel X Y) (qp : QP.Solver) (hqp : QP.Sound qp)
    (eq : Y → Y → Except PyErr Bool) (heq : ∀ a b, eq a b ≠ .error .assertionError)
    (alt : Option ((X → Y → W → Bool → Y) × (X → W → Y))) (intr : ℕ → Option Phase)
    (hint : ∀ it, Harmless (intr it)) (o : Obj Y) (samples : List (X × Y))
    (hthr : o.cfg.inactiveThreshold ≤ 1) (warm : Warm)
    (hw : warm = .yes → ∀ a cs, o.attrs = some a → a.constraints = some cs → Aligned cs a.alphas) :
    OneSlack.fit m qp eq alt intr o samples warm ≠ .error .assertionError ∧
    ∀ o', OneSlack.fit m qp eq alt intr o samples warm = .ok o' →
      ∃ a cs, o'.attrs = some a ∧ a.constraints = some cs ∧ Aligned cs a.alphas := by
  have hI : ∀ st, start m o warm = .ok st → Aligned st.constraints st.alphas ∧
      (st.objective ≠ none → st.shared = true) := by
    intro st hs
    unfold start at hs
    simp only at hs
    split at hs
    · rw [Except.ok.injEq] at hs
      subst hs
      exact ⟨⟨rfl, by simp⟩, fun h => absurd rfl h⟩
    · rw [Except.ok.injEq] at hs
      subst hs
      exact ⟨⟨rfl, by simp⟩, fun h => absurd rfl h⟩
    · rename_i ha
      rw [Except.ok.injEq] at hs
      subst hs
      exact ⟨hw rfl _ _ ha rfl, fun h => absurd rfl h⟩
    · cases hs
  have hassert : ∀ fuel it st, Aligned st.constraints st.alphas →
      loop qp eq alt o.cfg samples (jointFeatureGt m samples) intr fuel it st ≠ .error .assertionError := by
    intro fuel
    induction fuel with
    | zero => intro it st _; simp [loop]
    | succ n ih =>
      intro it st hI
      unfold loop
      cases hi : iteration qp eq alt o.cfg samples (jointFeatureGt m samples) it (intr it) st with
      | error err =>
        simp only
        intro h
        rw [Except.error.injEq] at h
        exact iteration_assert heq hI (h ▸ hi)
      | ok r =>
        obtain ⟨st1, b⟩ := r
        cases b with
        | false => simp
        | true => exact ih _ _ (iteration_aligned hqp hthr (hint it) hI hi).1
  constructor
  · intro h
    unfold OneSlack.fit at h
    cases hs : start m o warm with
    | error err =>
      rw [hs] at h
      simp only [Except.error.injEq] at h
      subst h
      unfold start at hs
      simp only at hs
      split at hs <;> cases hs
    | ok st =>
      rw [hs] at h
      simp only at h
      cases hl : loop qp eq alt o.cfg samples (jointFeatureGt m samples) intr o.cfg.maxIter 0 st with
      | error err =>
        rw [hl] at h
        simp only [Except.error.injEq] at h
        exact hassert _ _ _ (hI st hs).1 (h ▸ hl)
      | ok st' =>
        rw [hl] at h
        simp only at h
        cases hp : objectivePrimal st'.model st'.w samples o.cfg.C false with
        | error err =>
          rw [hp] at h
          simp only [Except.error.injEq] at h
          subst h
          unfold objectivePrimal at hp
          split_ifs at hp
          cases hp
        | ok p =>
          rw [hp] at h
          simp only at h
          split at h <;> cases h
  · intro o' h
    unfold OneSlack.fit at h
    cases hs : start m o warm with
    | error err => rw [hs] at h; cases h
    | ok st =>
      rw [hs] at h
      simp only at h
      cases hl : loop qp eq alt o.cfg samples (jointFeatureGt m samples) intr o.cfg.maxIter 0 st with
      | error err => rw [hl] at h; cases h
      | ok st' =>
        rw [hl] at h
        simp only at h
        have hI' := loop_induct (I := fun s => Aligned s.constraints s.alphas ∧
          (s.objective ≠ none → s.shared = true))
          (fun it s s' b hi hit =>
            have h1 := iteration_aligned hqp hthr (hint it) hi.1 hit
            ⟨h1.1, h1.2.2 hi.2⟩) _ _ _ _ (hI st hs) hl
        cases hp : objectivePrimal st'.model st'.w samples o.cfg.C false with
        | error err => rw [hp] at h; cases h
        | ok primal =>
          rw [hp] at h
          simp only at h
          cases hob : st'.objective with
          | none => rw [hob] at h; cases h
          | some obj =>
            rw [hob] at h
            simp only [Except.ok.injEq] at h
            subst h
            refine ⟨_, st'.constraints, rfl, ?_, hI'.1⟩
            simp only
            rw [if_pos (hI'.2 (by rw [hob]; simp))]

/-- an interrupt in phase `p` of iteration `n`. -/
def interruptAt (n : ℕ) (p : Phase) : ℕ → Option Phase := fun it => if it = n then some p else none

/-- the pair of runs used below: an interrupted fit, and what a warm start makes of it. -/
def interrupted (cache : ℕ) (n : ℕ) (p : Phase) : Except PyErr (Option (Option ℕ × ℕ) × Option PyErr) := do
  let o ← OneSlack.fit prunedTable prunedSolver natEq none (interruptAt n p) (exampleOS 10 (1 / 2) cache 1)
    [((), 0)] .no
  pure (o.attrs.map fun a => (a.constraints.map List.length, a.alphas.length),
    match OneSlack.fit prunedTable prunedSolver natEq none (fun _ => none) o [((), 0)] .yes with
    | .ok _ => none
    | .error err => some err)

/-- **C42 is violated for interrupts while the QP is solved or right after.** An interrupt in the second
iteration while the QP is solved makes `fit` return with three constraints but two histories; continuing with
`warm_start=True` on the same data fails with `UnboundLocalError`. An interrupt in the first iteration
after the QP is solved makes `fit` return without an attribute `constraints_`, and continuing fails with
`AttributeError`. -/
theorem C42_violated :
    interrupted 0 1 .qp = .ok (some (some 3, 2), some .unboundLocalError) ∧
    interrupted 0 0 .after = .ok (some (none, 2), some .attributeError) := by
  constructor <;> decide +kernel

/-- Solver for the next theorem. -/
def continuedSolver : QP.Solver := tableSolver 2 (1 / 2)
  [([(vec2 0 0, 0), (vec2 2 5, 8)], [13 / 58, 8 / 29], 0),
   ([(vec2 0 0, 0), (vec2 2 5, 8), (vec2 (-2) 1, 2), (vec2 (-2) (-5), 2)], [0, 35 / 116, 0, 23 / 116], 5)]

/-- **C42, the assertion.** An interrupt in the second iteration while the QP is solved, then continuing
training with another sample: `AssertionError`, although the QPs are solved to optimality. -/
theorem C42_violated_assertion :
    QP.Exact continuedSolver ∧
    ∃ o, OneSlack.fit prunedTable continuedSolver natEq none (interruptAt 1 .qp)
        (exampleOS 10 (1 / 2) 0 50) [((), 0)] .no = .ok o ∧
      OneSlack.fit prunedTable continuedSolver natEq none (fun _ => none) o [((), 2)] .yes =
        .error .assertionError := by
  refine ⟨tableSolver_exact _ _ _ (by decide +kernel), ?_⟩
  have key : (do
      let o ← OneSlack.fit prunedTable continuedSolver natEq none (interruptAt 1 .qp)
        (exampleOS 10 (1 / 2) 0 50) [((), 0)] .no
      pure (match OneSlack.fit prunedTable continuedSolver natEq none (fun _ => none) o [((), 2)] .yes with
        | .ok _ => none
        | .error err => some err)) = .ok (some .assertionError) := by decide +kernel
  obtain ⟨o, ho, h1⟩ := bind_eq_ok.mp key
  refine ⟨o, ho, ?_⟩
  simp only [pure, Except.pure, Except.ok.injEq] at h1
  cases h2 : OneSlack.fit prunedTable continuedSolver natEq none (fun _ => none) o [((), 2)] .yes with
  | ok _ => rw [h2] at h1; simp at h1
  | error err => rw [h2] at h1; simpa using h1

/-! ### C61: sign constraints -/

/-- **C61, one-slack.** After a successful `fit` the weights listed in `negativity_constraint` are at most 0,
whenever the solver returns feasible points. -/
theorem C61_one_slack (m : SModel X Y) (qp : QP.Solver) (hqp : QP.Sound qp)
    (eq : Y → Y → Except PyErr Bool)
    (alt : Option ((X → Y → W → Bool → Y) × (X → W → Y))) (intr : ℕ → Option Phase)
    (o o' : Obj Y) (samples : List (X × Y)) (warm : Warm) (ks : List ℕ) (hn : o.cfg.negativity = some ks)
    (h : OneSlack.fit m qp eq alt intr o samples warm = .ok o') :
    ∃ a, o'.attrs = some a ∧ ∀ k ∈ ks, a.w k ≤ 0 := by
  unfold OneSlack.fit at h
  cases hs : start m o warm with
  | error err => rw [hs] at h; cases h
  | ok st =>
    rw [hs] at h
    simp only at h
    have hI : st.objective ≠ none → ∀ k ∈ ks, st.w k ≤ 0 := by
      intro h0
      unfold start at hs
      simp only at hs
      split at hs
      all_goals first
        | (rw [Except.ok.injEq] at hs; subst hs; exact absurd rfl h0)
        | cases hs
    cases hl : loop qp eq alt o.cfg samples (jointFeatureGt m samples) intr o.cfg.maxIter 0 st with
    | error err => rw [hl] at h; cases h
    | ok st' =>
      rw [hl] at h
      simp only at h
      have hI' : st'.objective ≠ none → ∀ k ∈ ks, st'.w k ≤ 0 := by
        refine loop_induct (I := fun s => s.objective ≠ none → ∀ k ∈ ks, s.w k ≤ 0) ?_ _ _ _ _ hI hl
        intro it s s' b hi hit
        rcases iteration_ok hit with ⟨rfl, -, -⟩ | ⟨la, inf, ha, hs, -, -, rfl⟩ | ⟨-, f, cd, cache, hfind, hadd⟩
        · exact hi
        · exact hi
        · obtain ⟨-, -, -, -, -, a4⟩ := addConstraint_ok hadd
          simp only at a4
          rcases a4 with ⟨-, -, b1, -, -, -, b3, -⟩ | ⟨-, sol, c1, -, c3, -, -⟩
          · rw [b1, b3]; exact hi
          · intro _
            obtain ⟨eps, -, -, e2, -⟩ := solveQP_eps c1
            obtain ⟨-, -, -, h4⟩ := (feasible_qpOf _ _ _ _ _ _).mp (hqp _ _ e2).1
            rw [hn] at h4
            rw [c3]
            exact h4
      cases hp : objectivePrimal st'.model st'.w samples o.cfg.C false with
      | error err => rw [hp] at h; cases h
      | ok primal =>
        rw [hp] at h
        simp only at h
        cases hob : st'.objective with
        | none => rw [hob] at h; cases h
        | some obj =>
          rw [hob] at h
          simp only [Except.ok.injEq] at h
          subst h
          exact ⟨_, rfl, hI' (by rw [hob]; simp)⟩

/-- Two outputs, two features; the wrong output lacks both. -/
def signTable : SModel Unit ℕ :=
  tableModel 2 2 (fun y => if y = 1 then vec2 2 2 else vec2 0 0) (fun _ => 1)

/-- The first entry of the weights has to be nonpositive. -/
def signOS : Obj ℕ := ⟨⟨10, 1, false, some [0], false, 0, 1 / 1000, 0, 1 / 10 ^ 5, 50, .auto⟩, none, []⟩

/-- The QP of the first iteration. -/
def signQP : QP.Problem := qpOf 2 (some [0]) 1 [(vec2 0 0, 0), (vec2 2 2, 1)] 0

/-- an exact solver for it. -/
def signSolver : QP.Solver := fun p => if p = signQP then some ⟨[1, 0], 0⟩ else none

theorem signSolver_exact : QP.Exact signSolver := by
  have hf : ∀ x, signQP.Feasible x → x = [1, 0] := by
    intro x hx
    obtain ⟨h1, h2, h3, h4⟩ := (feasible_qpOf _ _ _ _ _ _).mp hx
    have h5 := h4 0 (by simp)
    match x, h1 with
    | [a, b], _ =>
      have hb := h2 1 (by simp)
      simp [weightsOf, vec2, sum_range_succ] at h3 h5 hb
      have hb0 : b = 0 := le_antisymm (by linarith) hb
      subst hb0
      simp at h3
      rw [h3]
  have hfe : signQP.Feasible [1, 0] := by
    refine (feasible_qpOf _ _ _ _ _ _).mpr ⟨rfl, by decide +kernel, by decide +kernel, by decide +kernel⟩
  have hv : signQP.value [1, 0] = 0 := by decide +kernel
  refine ⟨?_, ?_⟩
  · intro p s h
    unfold signSolver at h
    split_ifs at h with hp
    rw [Option.some.injEq] at h
    subst hp; subst h
    exact ⟨hfe, hv.symm⟩
  · intro p s h x hx
    unfold signSolver at h
    split_ifs at h with hp
    rw [Option.some.injEq] at h
    subst hp; subst h
    rw [hf x hx, hv]

/-- **C69 is violated: sign-constrained training is not optimal.** The sign constraint restricts the dual
combinations instead of the weights. With exact solver and inference, training with
`negativity_constraint=[0]` stops with zero weights, of risk 1, although weights `(0, 1/2)` satisfy the
constraint and have risk 1/8. -/
theorem C69_violated :
    QP.Exact signSolver ∧
    ∃ o a, OneSlack.fit signTable signSolver natEq none (fun _ => none) signOS [((), 0)] .no = .ok o ∧
      o.attrs = some a ∧ a.w 0 = 0 ∧ a.w 1 = 0 ∧ a.objectiveCurve.length = 2 ∧
      (problemOf signTable (fun _ => {y | y < 2})).IsObjective 1 [((), 0)] a.w 1 ∧
      (problemOf signTable (fun _ => {y | y < 2})).IsObjective 1 [((), 0)] (vec2 0 (1 / 2)) (1 / 8) := by
  refine ⟨signSolver_exact, ?_⟩
  have hl : (problemOf signTable (fun _ => {y | y < 2})).Labelled [((), 0)] := by
    intro s hs
    rw [List.mem_singleton] at hs
    subst hs
    exact ⟨(by decide : 0 < 2), by decide +kernel⟩
  have hLA := tableModel_exact 2 2 (fun y => if y = 1 then vec2 2 2 else vec2 0 0) (fun _ => 1) true
  have key : (do
      let o ← OneSlack.fit signTable signSolver natEq none (fun _ => none) signOS [((), 0)] .no
      match o.attrs with
      | none => .error .valueError
      | some a =>
        let p ← objectivePrimal signTable a.w [((), 0)] 1 false
        pure (p, a.w 0, a.w 1, a.objectiveCurve.length)) = .ok (1, 0, 0, 2) := by decide +kernel
  obtain ⟨o, ho, h1⟩ := bind_eq_ok.mp key
  cases ha : o.attrs with
  | none => rw [ha] at h1; cases h1
  | some a =>
    rw [ha] at h1
    obtain ⟨p, hp, h2⟩ := bind_eq_ok.mp h1
    simp only [pure, Except.pure, Except.ok.injEq, Prod.mk.injEq] at h2
    obtain ⟨rfl, h3, h4, h5⟩ := h2
    refine ⟨o, a, ho, ha, h3, h4, h5, ?_, ?_⟩
    · obtain ⟨obj, hob, hiso⟩ := C30_objective signTable (fun _ => {y | y < 2}) hLA [((), 0)] hl (by simp)
        a.w 1 false
      rw [hp, Except.ok.injEq] at hob
      subst hob
      exact hiso
    · obtain ⟨obj, hob, hiso⟩ := C30_objective signTable (fun _ => {y | y < 2}) hLA [((), 0)] hl (by simp)
        (vec2 0 (1 / 2)) 1 false
      have : objectivePrimal signTable (vec2 0 (1 / 2)) [((), 0)] 1 false = .ok (1 / 8) := by
        decide +kernel
      rw [this, Except.ok.injEq] at hob
      rw [hob]
      exact hiso

/-! ### C51 and C68: what a fit depends on -/

/-- not `'auto'`. -/
def NotAuto (k : CacheTol) : Prop := k ≠ .auto

/-- the same state up to the loss curve, and the cache tolerance if this is not adjusted. -/
def Same (k : CacheTol) (s s' : St X Y) : Prop :=
  ∃ lc ct, s' = { s with lossCurve := lc, cacheTol := ct } ∧ (ct = s.cacheTol ∨ NotAuto k)

/-- results of two computations are both exceptions, the same, or related. -/
def SameResult {α : Type} (R : α → α → Prop) : Except PyErr α → Except PyErr α → Prop
  | .ok a, .ok b => R a b
  | .error e, .error e' => e = e'
  | _, _ => False

theorem gapSmall_same {k k' : CacheTol} (hk : k = k' ∨ NotAuto k ∧ NotAuto k') {ct ct' gap : ℚ}
    (hct : ct' = ct ∨ NotAuto k) : gapSmall k' ct' gap = gapSmall k ct gap := by
  rcases hk with rfl | ⟨h1, h2⟩
  · rcases hct with rfl | h
    · rfl
    · cases k <;> simp_all [gapSmall, NotAuto]
  · cases k <;> cases k' <;> simp_all [gapSmall, NotAuto]

theorem newCacheTol_same {k k' : CacheTol} (hk : k = k' ∨ NotAuto k ∧ NotAuto k') {ct ct' gap : ℚ}
    (hct : ct' = ct ∨ NotAuto k) (cached : Bool) :
    newCacheTol k' cached ct' gap = newCacheTol k cached ct gap ∨ NotAuto k := by
  rcases hk with rfl | ⟨h1, h2⟩
  · rcases hct with rfl | h
    · exact .inl rfl
    · exact .inr h
  · exact .inr h1

theorem addConstraint_same {qp : QP.Solver} {cfg cfg' : Config}
    (hk : cfg.cacheTol = cfg'.cacheTol ∨ NotAuto cfg.cacheTol ∧ NotAuto cfg'.cacheTol)
    (hcfg : cfg' = { cfg with cacheTol := cfg'.cacheTol }) {samples : List (X × Y)} {it : ℕ}
    {intr : Option Phase} {s s' : St X Y} (hs : Same cfg.cacheTol s s') (f : Found Y) (cached : Bool) :
    SameResult (fun r r' => Same cfg.cacheTol r.1 r'.1 ∧ r'.2 = r.2)
      (addConstraint qp cfg samples it intr s f cached)
      (addConstraint qp cfg' samples it intr s' f cached) := by
  obtain ⟨lc, ct, rfl, hct⟩ := hs
  have h1 : cfg'.C = cfg.C := by rw [hcfg]
  have h2 : cfg'.negativity = cfg.negativity := by rw [hcfg]
  have h3 : cfg'.showLossEvery = cfg.showLossEvery := by rw [hcfg]
  have h4 : ∀ a b c, prune cfg' a b c = prune cfg a b c := by intro a b c; rw [hcfg]; rfl
  unfold addConstraint
  simp only [h1, h2, h3, h4]
  by_cases hq : intr = some .qp
  · rw [if_pos hq, if_pos hq]
    exact ⟨⟨_, _, rfl, hct⟩, rfl⟩
  · rw [if_neg hq, if_neg hq]
    cases solveQP qp s.model.dim cfg.negativity (cfg.C * samples.length) (s.constraints ++ [(f.dj, f.loss)]) with
    | error err => rfl
    | ok sol =>
      simp only
      cases prune cfg (s.constraints ++ [(f.dj, f.loss)]) s.alphas sol.x with
      | error err => rfl
      | ok r =>
        simp only
        split_ifs with h5
        · exact ⟨⟨_, _, rfl, newCacheTol_same hk hct cached⟩, rfl⟩
        · cases newLastSlack s.model.dim (weightsOf (s.constraints ++ [(f.dj, f.loss)]) sol.x) r.1 with
          | error err => rfl
          | ok v => exact ⟨⟨_, _, rfl, newCacheTol_same hk hct cached⟩, rfl⟩

theorem iteration_same {qp : QP.Solver} {eq : Y → Y → Except PyErr Bool}
    {alt : Option ((X → Y → W → Bool → Y) × (X → W → Y))} {cfg cfg' : Config}
    (hk : cfg.cacheTol = cfg'.cacheTol ∨ NotAuto cfg.cacheTol ∧ NotAuto cfg'.cacheTol)
    (hcfg : cfg' = { cfg with cacheTol := cfg'.cacheTol }) {samples : List (X × Y)} {gt : W} {it : ℕ}
    {intr : Option Phase} {s s' : St X Y} (hs : Same cfg.cacheTol s s') :
    SameResult (fun r r' => Same cfg.cacheTol r.1 r'.1 ∧ r'.2 = r.2)
      (iteration qp eq alt cfg samples gt it intr s) (iteration qp eq alt cfg' samples gt it intr s') := by
  have hs0 := hs
  obtain ⟨lc, ct, rfl, hct⟩ := hs
  have hb : ∀ a b c d e f g h, checkBad cfg' a b c d e f g h = checkBad cfg a b c d e f g h := by
    intros; rw [hcfg]; rfl
  have h1 : cfg'.breakOnBad = cfg.breakOnBad := by rw [hcfg]
  have h2 : ∀ m a b c, updateCache (X := X) (Y := Y) m eq cfg' a b c = updateCache m eq cfg a b c := by
    intros; rw [hcfg]; rfl
  have hfc : fromCache cfg' { s with lossCurve := lc, cacheTol := ct } gt samples.length =
      fromCache cfg s gt samples.length := by
    unfold fromCache
    simp only [hb, gapSmall_same hk hct]
  have hfn : findNew cfg' { s with lossCurve := lc, cacheTol := ct } gt samples = findNew cfg s gt samples := by
    unfold findNew
    simp only [hb, h1]
  unfold iteration
  rw [hfc, hfn]
  split_ifs
  · exact ⟨hs0, rfl⟩
  · cases fromCache cfg s gt samples.length with
    | error err => rfl
    | ok r =>
      cases r with
      | some f => exact addConstraint_same hk hcfg hs0 f true
      | none =>
        simp only
        cases findNew cfg s gt samples with
        | error err => rfl
        | ok r =>
          cases r with
          | some f =>
            simp only [h2]
            cases updateCache s.model eq cfg s.cache samples f.yhat with
            | error err => rfl
            | ok cache =>
              exact addConstraint_same hk hcfg (s := { s with cache := cache }) ⟨lc, ct, rfl, hct⟩ f false
          | none =>
            simp only
            split
            · exact ⟨⟨lc, ct, rfl, hct⟩, rfl⟩
            · exact ⟨hs0, rfl⟩

theorem loop_same {qp : QP.Solver} {eq : Y → Y → Except PyErr Bool}
    {alt : Option ((X → Y → W → Bool → Y) × (X → W → Y))} {cfg cfg' : Config}
    (hk : cfg.cacheTol = cfg'.cacheTol ∨ NotAuto cfg.cacheTol ∧ NotAuto cfg'.cacheTol)
    (hcfg : cfg' = { cfg with cacheTol := cfg'.cacheTol }) {samples : List (X × Y)} {gt : W}
    {intr : ℕ → Option Phase} (fuel : ℕ) : ∀ (it : ℕ) (s s' : St X Y), Same cfg.cacheTol s s' →
    SameResult (Same cfg.cacheTol) (loop qp eq alt cfg samples gt intr fuel it s)
      (loop qp eq alt cfg' samples gt intr fuel it s') := by
  induction fuel with
  | zero => intro it s s' hs; exact hs
  | succ n ih =>
    intro it s s' hs
    unfold loop
    have := iteration_same (qp := qp) (eq := eq) (alt := alt) hk hcfg (samples := samples) (gt := gt) (it := it)
      (intr := intr it) hs
    revert this
    cases iteration qp eq alt cfg samples gt it (intr it) s with
    | error err =>
      cases iteration qp eq alt cfg' samples gt it (intr it) s' with
      | error err' => exact fun h => h
      | ok r => exact fun h => h.elim
    | ok r =>
      cases iteration qp eq alt cfg' samples gt it (intr it) s' with
      | error err' => exact fun h => h.elim
      | ok r' =>
        obtain ⟨r1, b⟩ := r
        obtain ⟨r1', b'⟩ := r'
        rintro ⟨h1, h2⟩
        simp only at h1 h2
        subst h2
        cases b' with
        | false => exact h1
        | true => exact ih _ _ _ h1

/-- the fits from related starts are related. -/
theorem fit_same {m : SModel X Y} {qp : QP.Solver} {eq : Y → Y → Except PyErr Bool}
    {alt : Option ((X → Y → W → Bool → Y) × (X → W → Y))} {intr : ℕ → Option Phase} {o o' : Obj Y}
    (hk : o.cfg.cacheTol = o'.cfg.cacheTol ∨ NotAuto o.cfg.cacheTol ∧ NotAuto o'.cfg.cacheTol)
    (hcfg : o'.cfg = { o.cfg with cacheTol := o'.cfg.cacheTol }) {samples : List (X × Y)} {warm : Warm}
    (hstart : SameResult (Same o.cfg.cacheTol) (start m o warm) (start m o' warm))
    (hcons : (∀ it, intr it ≠ some .after) ∨ o'.attrs.bind (·.constraints) = o.attrs.bind (·.constraints)) :
    SameResult (fun r r' => r'.attrs = r.attrs) (OneSlack.fit m qp eq alt intr o samples warm)
      (OneSlack.fit m qp eq alt intr o' samples warm) := by
  have hC : o'.cfg.C = o.cfg.C := by rw [hcfg]
  have hM : o'.cfg.maxIter = o.cfg.maxIter := by rw [hcfg]
  have hon : ∀ st, start m o warm = .ok st → st.objective = none := by
    intro st hs
    unfold start at hs
    simp only at hs
    split at hs
    all_goals first
      | (rw [Except.ok.injEq] at hs; subst hs; rfl)
      | cases hs
  unfold OneSlack.fit
  revert hstart
  cases hs : start m o warm with
  | error err =>
    cases start m o' warm with
    | error err' => exact fun h => h
    | ok st => exact fun h => h.elim
  | ok st =>
    cases start m o' warm with
    | error err' => exact fun h => h.elim
    | ok st' =>
      intro hst
      simp only [hM]
      have := loop_same (qp := qp) (eq := eq) (alt := alt) hk hcfg (samples := samples)
        (gt := jointFeatureGt m samples) (intr := intr) o.cfg.maxIter 0 st st' hst
      revert this
      cases hl : loop qp eq alt o.cfg samples (jointFeatureGt m samples) intr o.cfg.maxIter 0 st with
      | error err =>
        cases loop qp eq alt o'.cfg samples (jointFeatureGt m samples) intr o.cfg.maxIter 0 st' with
        | error err' => exact fun h => h
        | ok r => exact fun h => h.elim
      | ok r =>
        cases loop qp eq alt o'.cfg samples (jointFeatureGt m samples) intr o.cfg.maxIter 0 st' with
        | error err' => exact fun h => h.elim
        | ok r' =>
          have hshare : (∀ it, intr it ≠ some .after) → r.objective ≠ none → r.shared = true := by
            intro hint
            refine loop_induct (I := fun s => s.objective ≠ none → s.shared = true) ?_ _ _ _ _
              (fun h => absurd (hon st hs) h) hl
            intro it s s' b hi hit
            rcases iteration_ok hit with ⟨rfl, -, -⟩ | ⟨la, inf, ha, hs, -, -, rfl⟩ | ⟨-, f, cd, cache, hfind, hadd⟩
            · exact hi
            · exact hi
            · obtain ⟨-, -, -, -, -, a4⟩ := addConstraint_ok hadd
              rcases a4 with ⟨-, -, -, -, -, -, b3, b4, -⟩ | ⟨-, sol, -, -, -, -, c5⟩
              · rw [b3, b4]; exact hi
              · rcases c5 with ⟨d0, -⟩ | ⟨-, -, -, d2, -⟩
                · exact absurd d0 (hint it)
                · exact fun _ => d2
          rintro ⟨lc, ct, rfl, -⟩
          simp only [hC]
          cases objectivePrimal r.model r.w samples o.cfg.C false with
          | error err => rfl
          | ok p =>
            simp only
            cases hob : r.objective with
            | none => rfl
            | some obj =>
              change some _ = some _
              rcases hcons with hint | hcons
              · have hsh := hshare hint (by rw [hob]; simp)
                simp only [hsh, if_true]
              · simp only [hcons]

/-- **C51, one-slack.** A fit without warm start does not depend on what the learner object was used for
before: if it was fitted to other data, the attributes after the second fit, or the exception, are those of a
fresh learner with the same parameters. Only `loss_curve_` is continued. (Interrupts right after the
solution of a QP are excluded: the attribute `constraints_` may then be an old one.) -/
theorem C51_one_slack (m : SModel X Y) (qp : QP.Solver) (eq : Y → Y → Except PyErr Bool)
    (alt : Option ((X → Y → W → Bool → Y) × (X → W → Y))) (intr : ℕ → Option Phase)
    (hint : ∀ it, intr it ≠ some .after) (o : Obj Y) (samples : List (X × Y)) :
    SameResult (fun r r' => r'.attrs = r.attrs) (OneSlack.fit m qp eq alt intr ⟨o.cfg, none, []⟩ samples .no)
      (OneSlack.fit m qp eq alt intr o samples .no) :=
  fit_same (o := ⟨o.cfg, none, []⟩) (o' := o) (.inl rfl) rfl
    (show SameResult (Same o.cfg.cacheTol) (start m ⟨o.cfg, none, []⟩ .no) (start m o .no) from
      ⟨o.lossCurve, _, rfl, .inl rfl⟩) (.inl hint)

/-- **C68 is violated: a number as `cache_tol` is ignored.** The documentation says that a constraint from the
cache is rejected depending on `cache_tol`, and that `tol` is used if it is `None`. In fact all numbers and `None`
lead to the same attributes, or the same exception, for all data and all warm starts. -/
theorem C68_violated (m : SModel X Y) (qp : QP.Solver) (eq : Y → Y → Except PyErr Bool)
    (alt : Option ((X → Y → W → Bool → Y) × (X → W → Y))) (intr : ℕ → Option Phase) (o : Obj Y) (t : ℚ)
    (samples : List (X × Y)) (warm : Warm) :
    SameResult (fun r r' => r'.attrs = r.attrs)
      (OneSlack.fit m qp eq alt intr { o with cfg := { o.cfg with cacheTol := .default } } samples warm)
      (OneSlack.fit m qp eq alt intr { o with cfg := { o.cfg with cacheTol := .value t } } samples warm) := by
  refine fit_same (o := { o with cfg := { o.cfg with cacheTol := .default } })
    (o' := { o with cfg := { o.cfg with cacheTol := .value t } })
    (.inr ⟨by simp [NotAuto], by simp [NotAuto]⟩) rfl ?_ (.inr rfl)
  unfold start
  cases warm with
  | no => exact ⟨_, _, rfl, .inr (by simp [NotAuto])⟩
  | soft =>
    cases o.attrs with
    | none => rfl
    | some a => exact ⟨_, _, rfl, .inr (by simp [NotAuto])⟩
  | yes =>
    cases o.attrs with
    | none => rfl
    | some a =>
      obtain ⟨w, cs, al, oc, pc, fl, cache⟩ := a
      cases cs with
      | none => rfl
      | some cs => exact ⟨_, _, rfl, .inr (by simp [NotAuto])⟩

/-! ### C67: fitting ends with a result -/

/-- **C67 is violated if there is nothing to learn.** If loss-augmented inference at zero weights returns outputs
that cost nothing and have the joint features of the true ones — for instance the true outputs
themselves — then every `fit` without switching of the inference method fails with `UnboundLocalError`. -/
theorem C67_violated_nothing_to_learn (m : SModel X Y) (qp : QP.Solver) (eq : Y → Y → Except PyErr Bool)
    (intr : ℕ → Option Phase) (o : Obj Y) (samples : List (X × Y)) (hne : samples ≠ [])
    (h : ∀ s ∈ samples, m.lossOf s.2 (m.lossAug s.1 s.2 (fun _ => 0) true) = 0 ∧
      ∀ k < m.dim, m.feat s.1 (m.lossAug s.1 s.2 (fun _ => 0) true) s.2 k = m.feat s.1 s.2 s.2 k) :
    OneSlack.fit m qp eq none intr o samples .no = .error .unboundLocalError := by
  have hstart : ∃ st, start m o .no = .ok st ∧ st.model = m ∧ st.w = (fun _ => 0) ∧
      st.constraints = [((fun _ => 0), 0)] ∧ st.cache = none ∧ st.lastSlack = -1 ∧ st.objective = none := by
    exact ⟨_, rfl, rfl, rfl, rfl, rfl, rfl, rfl⟩
  obtain ⟨st, hs, hm, hw, hcs, hc, hls, hob⟩ := hstart
  have hfn : findNew o.cfg st (jointFeatureGt m samples) samples = .ok none := by
    unfold findNew
    simp only [hm, hw, hcs, hls]
    have hloss : (((samples.map fun s => (s, m.lossAug s.1 s.2 (fun _ => 0) true)).map
        fun p => m.lossOf p.1.2 p.2).sum / (samples.length : ℚ)) = 0 := by
      rw [List.map_map, List.sum_eq_zero, zero_div]
      intro v hv
      obtain ⟨s, hs, rfl⟩ := List.mem_map.mp hv
      exact (h s hs).1
    have hdot : ∀ v : W, dot m.dim (fun _ => 0) v = 0 := fun v => dot_zero_left _ _
    have hcb : ∀ dj : W, (∀ k < m.dim, dj k = 0) → checkBad o.cfg m.dim (fun _ => 0) (-1) (0 - 0) dj 0
        [((fun _ => 0), 0)] o.cfg.breakOnBad = .ok true := by
      intro dj hdj
      unfold checkBad
      simp only
      rw [if_neg (by norm_num)]
      split_ifs with h1 h2
      · rfl
      · rfl
      all_goals
        exfalso
        apply h2
        simp only [List.any_cons, List.any_nil, Bool.or_false, Bool.and_eq_true, decide_eq_true_eq, and_true]
        exact fun k hk => (hdj k hk).symm
    rw [hloss, hdot]
    rw [hcb _ ?_]
    intro k hk
    rw [div_eq_zero_iff]
    left
    rw [List.map_map, sub_eq_zero]
    unfold jointFeatureGt
    congr 1
    refine List.map_congr_left fun s hs => ?_
    exact ((h s hs).2 k hk).symm
  have hfc : fromCache o.cfg st (jointFeatureGt m samples) samples.length = .ok none := by
    unfold fromCache
    rw [hc]
  have hloop : ∀ n it, loop qp eq none o.cfg samples (jointFeatureGt m samples) intr n it st = .ok st := by
    intro n it
    cases n with
    | zero => rfl
    | succ n =>
      unfold loop iteration
      rw [hfc, hfn]
      simp only
      split_ifs
      · rfl
      · cases st.switched <;> rfl
  unfold OneSlack.fit
  rw [hs]
  simp only
  rw [hloop]
  simp only [objectivePrimal_ok _ _ _ _ _ hne, hob]

/-- **C67 is violated for a second fit.** Training the example to convergence and continuing with
`warm_start=True` on the same data fails with `UnboundLocalError`. So does `max_iter=0`. -/
theorem C67_violated_converged :
    (∃ o, OneSlack.fit exampleTable exampleSolver natEq none (fun _ => none) (exampleOS 10 1 0 50)
        [((), 0)] .no = .ok o ∧
      OneSlack.fit exampleTable exampleSolver natEq none (fun _ => none) o [((), 0)] .yes =
        .error .unboundLocalError) ∧
    OneSlack.fit exampleTable exampleSolver natEq none (fun _ => none) (exampleOS 0 1 0 50)
      [((), 0)] .no = .error .unboundLocalError := by
  constructor
  · have key : (do
        let o ← OneSlack.fit exampleTable exampleSolver natEq none (fun _ => none) (exampleOS 10 1 0 50)
          [((), 0)] .no
        pure (match OneSlack.fit exampleTable exampleSolver natEq none (fun _ => none) o [((), 0)] .yes with
          | .ok _ => none
          | .error err => some err)) = .ok (some .unboundLocalError) := by decide +kernel
    obtain ⟨o, ho, h1⟩ := bind_eq_ok.mp key
    refine ⟨o, ho, ?_⟩
    simp only [pure, Except.pure, Except.ok.injEq] at h1
    cases h2 : OneSlack.fit exampleTable exampleSolver natEq none (fun _ => none) o [((), 0)] .yes with
    | ok _ => rw [h2] at h1; simp at h1
    | error err => rw [h2] at h1; simpa using h1
  · rfl

/-- the hypothesis of `C67_violated_nothing_to_learn` holds if there is a single output. -/
example : ∀ s ∈ [((), 0)],
    (tableModel 1 1 (fun _ => vec2 1 0) (fun _ => 1)).lossOf s.2
      ((tableModel 1 1 (fun _ => vec2 1 0) (fun _ => 1)).lossAug s.1 s.2 (fun _ => 0) true) = 0 ∧
    ∀ k < 1, (tableModel 1 1 (fun _ => vec2 1 0) (fun _ => 1)).feat s.1
      ((tableModel 1 1 (fun _ => vec2 1 0) (fun _ => 1)).lossAug s.1 s.2 (fun _ => 0) true) s.2 k =
      (tableModel 1 1 (fun _ => vec2 1 0) (fun _ => 1)).feat s.1 s.2 s.2 k := by
  decide +kernel

end Verif.Props
