import Verif.Props.C121
import Verif.Props.C122
import Verif.Props.C48

/-!
# C122 for `OneSlackSSVM`

`fit` for `a` iterations and then `fit(warm_start=True)` for `b` further ones, without an inference cache and without
`switch_to`.
-/

namespace Verif.Props

open Finset Verif.Learner Verif.OneSlack

variable {X Y : Type}

namespace Resume

/-- The tolerance for cached constraints at the start of `fit`. -/
def startTol (cfg : OneSlack.Config) : ℚ :=
  match cfg.cacheTol with
  | .value t => t
  | _ => cfg.tol

/-- What a warm start forgets of a state: the last slack, the tolerance for the cache, the objective. -/
def forget (cfg : OneSlack.Config) (st : OneSlack.St X Y) : OneSlack.St X Y :=
  { st with lastSlack := -1, cacheTol := startTol cfg, objective := none }

/-- Unless `cache_tol='auto'`, the tolerance for the cache stays as it was at the start. -/
def TolKept (cfg : OneSlack.Config) (st : OneSlack.St X Y) : Prop :=
  (cfg.cacheTol = .auto) ∨ st.cacheTol = startTol cfg

/-- A constraint that passes the check with a nonnegative last slack passes it with the initial one. -/
theorem checkBad_forget {cfg : OneSlack.Config} {dim : ℕ} {w : W} {ls v : ℚ} {dj : W} {loss : ℚ} {old : List Con} {br : Bool}
    (hls : -1 ≤ ls) (h : checkBad cfg dim w ls v dj loss old br = .ok false) :
    checkBad cfg dim w (-1) v dj loss old br = .ok false := by
  unfold checkBad at h ⊢
  simp only at h ⊢
  by_cases h1 : v - ls < 0 ∧ 0 < v ∧ br = true
  · rw [if_pos h1] at h; cases h
  · rw [if_neg h1] at h
    by_cases h2 : v - ls < cfg.tol
    · rw [if_pos h2] at h; cases h
    · rw [if_neg h2] at h
      have h1' : ¬(v - -1 < 0 ∧ 0 < v ∧ br = true) := by rintro ⟨ha, hb, -⟩; linarith
      have h2' : ¬ v - -1 < cfg.tol := by
        intro hc
        exact h2 (by linarith)
      rw [if_neg h1', if_neg h2']
      exact h

theorem findNew_forget {cfg : OneSlack.Config} {st : OneSlack.St X Y} {gt : W} {samples : List (X × Y)} {f : Found Y}
    (hls : -1 ≤ st.lastSlack) (h : findNew cfg st gt samples = .ok (some f)) :
    findNew cfg (forget cfg st) gt samples = .ok (some f) := by
  unfold findNew at h ⊢
  simp only [forget] at h ⊢
  split at h
  · cases h
  · cases h
  · rename_i hc
    rw [checkBad_forget hls hc]
    exact h

/-- Adding a constraint overwrites all that a warm start forgets. -/
theorem addConstraint_forget {qp : QP.Solver} {cfg : OneSlack.Config} {samples : List (X × Y)} {it : ℕ}
    {st : OneSlack.St X Y} (htol : TolKept cfg st) (f : Found Y) :
    addConstraint qp cfg samples it none (forget cfg st) f false = addConstraint qp cfg samples it none st f false := by
  have e : ∀ g, newCacheTol cfg.cacheTol false (startTol cfg) g = newCacheTol cfg.cacheTol false st.cacheTol g := by
    intro g
    rcases htol with h | h
    · rw [h]; rfl
    · rw [h]
  unfold addConstraint
  simp only [forget, e, reduceCtorEq, if_false]

/-- An iteration that adds a constraint does so after a warm start as well, with the same result. -/
theorem iteration_forget {qp : QP.Solver} {eq : Y → Y → Except PyErr Bool} {cfg : OneSlack.Config}
    (hc : cfg.inferenceCache = 0) {samples : List (X × Y)} {gt : W} {it : ℕ} {st st' : OneSlack.St X Y}
    (hI : st.cache = none) (hls : -1 ≤ st.lastSlack) (htol : TolKept cfg st)
    (h : OneSlack.iteration qp eq none cfg samples gt it none st = .ok (st', true)) :
    OneSlack.iteration qp eq none cfg samples gt it none (forget cfg st) = .ok (st', true) := by
  unfold OneSlack.iteration at h ⊢
  have e1 : fromCache cfg (forget cfg st) gt samples.length = .ok none := by
    unfold fromCache
    have : (forget cfg st).cache = none := hI
    rw [this]
  have e2 : fromCache cfg st gt samples.length = .ok none := by
    unfold fromCache
    rw [hI]
  rw [e2] at h
  rw [e1]
  simp only [reduceCtorEq, if_false] at h ⊢
  cases hf : findNew cfg st gt samples with
  | error e => rw [hf] at h; cases h
  | ok r =>
    cases r with
    | none =>
      rw [hf] at h
      simp only at h
      cases hsw : st.switched <;> rw [hsw] at h <;> cases h
    | some f =>
      rw [hf] at h
      rw [findNew_forget hls hf]
      have e5 : ∀ (m : SModel X Y) (c : Option (List (List (Cached Y)))),
          updateCache m eq cfg c samples f.yhat = .ok c := by
        intro m c
        unfold updateCache
        rw [if_pos hc]
      simp only [e5] at h ⊢
      rw [← h]
      have : ({ forget cfg st with cache := (forget cfg st).cache } : OneSlack.St X Y) =
          forget cfg { st with cache := st.cache } := rfl
      rw [this]
      exact addConstraint_forget htol f

/-- The iteration number is only used for `loss_curve_`. -/
theorem iteration_it {qp : QP.Solver} {eq : Y → Y → Except PyErr Bool} {cfg : OneSlack.Config} {a it : ℕ}
    (hs : cfg.showLossEvery = 0 ∨ cfg.showLossEvery ∣ a) (samples : List (X × Y)) (gt : W) (intr : Option Phase)
    (st : OneSlack.St X Y) :
    OneSlack.iteration qp eq none cfg samples gt (a + it) intr st =
      OneSlack.iteration qp eq none cfg samples gt it intr st := by
  have e : ∀ (st : OneSlack.St X Y) f c, addConstraint qp cfg samples (a + it) intr st f c =
      addConstraint qp cfg samples it intr st f c := by
    intro st f c
    unfold addConstraint
    simp only [trainingLoss_shift st.model _ a it hs]
  unfold OneSlack.iteration
  simp only [e]

theorem loop_it {qp : QP.Solver} {eq : Y → Y → Except PyErr Bool} {cfg : OneSlack.Config} {a : ℕ}
    (hs : cfg.showLossEvery = 0 ∨ cfg.showLossEvery ∣ a) (samples : List (X × Y)) (gt : W) :
    ∀ (n it : ℕ) (st : OneSlack.St X Y), OneSlack.loop qp eq none cfg samples gt (fun _ => none) n (a + it) st =
      OneSlack.loop qp eq none cfg samples gt (fun _ => none) n it st
  | 0, _, _ => rfl
  | n + 1, it, st => by
    unfold OneSlack.loop
    rw [iteration_it hs]
    cases OneSlack.iteration qp eq none cfg samples gt it none st with
    | error e => rfl
    | ok r =>
      obtain ⟨st', b⟩ := r
      cases b with
      | false => rfl
      | true => exact loop_it hs samples gt n (it + 1) st'

/-- `max_iter` is not used in an iteration. -/
theorem loop_cfg {qp : QP.Solver} {eq : Y → Y → Except PyErr Bool}
    {alt : Option ((X → Y → W → Bool → Y) × (X → W → Y))} (cfg : OneSlack.Config) (N : ℕ)
    (samples : List (X × Y)) (gt : W) (intr : ℕ → Option Phase) :
    ∀ (n it : ℕ) (st : OneSlack.St X Y), OneSlack.loop qp eq alt { cfg with maxIter := N } samples gt intr n it st =
      OneSlack.loop qp eq alt cfg samples gt intr n it st
  | 0, _, _ => rfl
  | n + 1, it, st => by
    have e : OneSlack.iteration qp eq alt { cfg with maxIter := N } samples gt it (intr it) st =
      OneSlack.iteration qp eq alt cfg samples gt it (intr it) st := rfl
    unfold OneSlack.loop
    rw [e]
    cases OneSlack.iteration qp eq alt cfg samples gt it (intr it) st with
    | error e => rfl
    | ok r =>
      obtain ⟨st', b⟩ := r
      cases b with
      | false => rfl
      | true => exact loop_cfg cfg N samples gt intr n (it + 1) st'

theorem addConstraint_tol {qp : QP.Solver} {cfg : OneSlack.Config} {samples : List (X × Y)} {it : ℕ}
    {st st' : OneSlack.St X Y} {f : Found Y} {b : Bool}
    (h : addConstraint qp cfg samples it none st f false = .ok (st', b)) :
    ∃ g, st'.cacheTol = newCacheTol cfg.cacheTol false st.cacheTol g := by
  unfold addConstraint at h
  simp only [reduceCtorEq, if_false] at h
  split at h
  · cases h
  · split at h
    · cases h
    · split at h
      · cases h
      · simp only [Except.ok.injEq, Prod.mk.injEq] at h
        rw [← h.1]
        exact ⟨_, rfl⟩

/-- What holds between the iterations of an undisturbed training without cache. -/
structure Continuable (cfg : OneSlack.Config) (m : SModel X Y) (st : OneSlack.St X Y) : Prop where
  cache : st.cache = none
  slack : -1 ≤ st.lastSlack
  tol : TolKept cfg st
  model : st.model = m
  switched : st.switched = false
  shared : st.objective ≠ none → st.shared = true

/-- An iteration that goes on adds one entry to the objective curve; one that ends the loop changes nothing. -/
theorem iteration_resumable {qp : QP.Solver} {eq : Y → Y → Except PyErr Bool} {cfg : OneSlack.Config}
    (hc : cfg.inferenceCache = 0) {samples : List (X × Y)} {gt : W} {it : ℕ} {m : SModel X Y} {st st' : OneSlack.St X Y}
    {b : Bool} (hI : Continuable cfg m st)
    (h : OneSlack.iteration qp eq none cfg samples gt it none st = .ok (st', b)) :
    Continuable cfg m st' ∧ (b = false → st' = st) ∧
      (b = true → st'.objectiveCurve.length = st.objectiveCurve.length + 1) := by
  have hcache := oneslack_cache_kept hc hI.cache h
  rcases OneSlack.iteration_ok h with ⟨rfl, rfl, -⟩ | ⟨la, inf, h0, -, -, -, -⟩ | ⟨-, f, cd, cache, hfind, hadd⟩
  · exact ⟨hI, fun _ => rfl, fun h => by cases h⟩
  · cases h0
  · have hcd : cd = false := by
      rcases hfind with ⟨hf, -, -⟩ | ⟨-, hf, -⟩
      · unfold fromCache at hf
        rw [hI.cache] at hf
        cases hf
      · exact hf
    have htol : TolKept cfg st' := by
      subst hcd
      obtain ⟨g, hg⟩ := addConstraint_tol hadd
      unfold TolKept
      cases hk : cfg.cacheTol with
      | auto => exact .inl rfl
      | default =>
        rcases hI.tol with ht | ht
        · rw [hk] at ht; cases ht
        · exact .inr (by rw [hg, hk, ← ht]; rfl)
      | value t =>
        rcases hI.tol with ht | ht
        · rw [hk] at ht; cases ht
        · exact .inr (by rw [hg, hk, ← ht]; rfl)
    obtain ⟨e1, e2, -, -, -, e6⟩ := OneSlack.addConstraint_ok hadd
    rcases e6 with ⟨h0, -⟩ | ⟨-, sol, -, -, -, -, ⟨h0, -⟩ | ⟨-, rfl, e7, e8, e9⟩⟩
    · cases h0
    · cases h0
    · refine ⟨⟨hcache, ?_, htol, e1.trans hI.model, e2.trans hI.switched, fun _ => e8⟩, fun h => (by cases h), fun _ => ?_⟩
      · unfold newLastSlack at e9
        split at e9
        · cases e9
        · simp only [Except.ok.injEq] at e9
          rw [← e9]
          exact le_trans (by norm_num) (le_max_right _ _)
      · rw [e7]
        simp

/-- A training that was not left early can be split. -/
theorem oneslack_split {qp : QP.Solver} {eq : Y → Y → Except PyErr Bool} {cfg : OneSlack.Config}
    (hc : cfg.inferenceCache = 0) (samples : List (X × Y)) (gt : W) {m : SModel X Y} (b : ℕ) :
    ∀ (a it : ℕ) (st st' : OneSlack.St X Y), Continuable cfg m st →
      OneSlack.loop qp eq none cfg samples gt (fun _ => none) a it st = .ok st' →
      Continuable cfg m st' ∧ st'.objectiveCurve.length ≤ st.objectiveCurve.length + a ∧
      (st'.objectiveCurve.length = st.objectiveCurve.length + a →
        OneSlack.loop qp eq none cfg samples gt (fun _ => none) (a + b) it st =
          OneSlack.loop qp eq none cfg samples gt (fun _ => none) b (it + a) st')
  | 0, it, st, st', hI, h => by
    simp only [OneSlack.loop, Except.ok.injEq] at h
    subst h
    refine ⟨hI, by omega, fun _ => ?_⟩
    rw [Nat.zero_add, Nat.add_zero]
  | a + 1, it, st, st', hI, h => by
    unfold OneSlack.loop at h
    cases hi : OneSlack.iteration qp eq none cfg samples gt it none st with
    | error e => rw [hi] at h; cases h
    | ok r =>
      obtain ⟨st1, go⟩ := r
      obtain ⟨hI1, hf, ht⟩ := iteration_resumable hc hI hi
      rw [hi] at h
      cases go with
      | false =>
        simp only [Except.ok.injEq] at h
        subst h
        have := hf rfl
        subst this
        exact ⟨hI, by omega, fun h => by omega⟩
      | true =>
        simp only at h
        obtain ⟨hI2, hle, hsp⟩ := oneslack_split hc samples gt b a (it + 1) st1 st' hI1 h
        rw [ht rfl] at hle hsp
        refine ⟨hI2, by omega, fun hl => ?_⟩
        rw [show a + 1 + b = (a + b) + 1 from by omega]
        conv_lhs => rw [OneSlack.loop]
        rw [hi]
        simp only
        rw [hsp (by omega), show it + 1 + a = it + (a + 1) from by omega]

/-- The object with another number of iterations. -/
def oneIters (o : OneSlack.Obj Y) (n : ℕ) : OneSlack.Obj Y := { o with cfg := { o.cfg with maxIter := n } }

/-- The objective curve that `fit` starts from. -/
def curveBefore (o : OneSlack.Obj Y) : Warm → List ℚ
  | .no => []
  | _ => (o.attrs.map (·.objectiveCurve)).getD []

/-- What a resumed training leaves behind, compared with the training `full` in one go and the first part `part`:
everything is the same, except that the curves hold the final entries of the first part as well. -/
structure SameOutcome (part full res : Attrs Y) : Prop where
  w : res.w = full.w
  constraints : res.constraints = full.constraints
  alphas : res.alphas = full.alphas
  cache : res.cache = full.cache
  curves : ∃ new newP newF,
    full.objectiveCurve = part.objectiveCurve.dropLast ++ new ∧ res.objectiveCurve = part.objectiveCurve ++ new ∧
    full.primalCurve = part.primalCurve.dropLast ++ newP ∧ res.primalCurve = part.primalCurve ++ newP ∧
    full.cachedFlags = part.cachedFlags.dropLast ++ newF ∧ res.cachedFlags = part.cachedFlags ++ newF

theorem start_resumable {m : SModel X Y} {o : OneSlack.Obj Y} {warm : Warm} (hcache : ∀ at', o.attrs = some at' → at'.cache = none)
    {st : OneSlack.St X Y} (h : OneSlack.start m o warm = .ok st) :
    Continuable o.cfg m st ∧ st.objectiveCurve = curveBefore o warm := by
  unfold OneSlack.start at h
  simp only at h
  have hk : TolKept o.cfg ({ st with cacheTol := startTol o.cfg } : OneSlack.St X Y) := .inr rfl
  split at h
  · cases h
    exact ⟨⟨rfl, le_refl _, .inr rfl, rfl, rfl, fun h => absurd rfl h⟩, rfl⟩
  · rename_i at' hat
    cases h
    refine ⟨⟨hcache _ hat, le_refl _, .inr rfl, rfl, rfl, fun h => absurd rfl h⟩, ?_⟩
    simp only [curveBefore, hat, Option.map_some, Option.getD_some]
  · rename_i hat
    cases h
    refine ⟨⟨hcache _ hat, le_refl _, .inr rfl, rfl, rfl, fun h => absurd rfl h⟩, ?_⟩
    simp only [curveBefore, hat, Option.map_some, Option.getD_some]
  · cases h

/-- A finished training without interrupts and `switch_to`. -/
theorem fit_parts {m : SModel X Y} {qp : QP.Solver} {eq : Y → Y → Except PyErr Bool} {o o' : OneSlack.Obj Y}
    {samples : List (X × Y)} {warm : Warm}
    (h : OneSlack.fit m qp eq none (fun _ => none) o samples warm = .ok o') :
    ∃ st0 st primal obj, OneSlack.start m o warm = .ok st0 ∧
      OneSlack.loop qp eq none o.cfg samples (jointFeatureGt m samples) (fun _ => none) o.cfg.maxIter 0 st0 = .ok st ∧
      objectivePrimal st.model st.w samples o.cfg.C false = .ok primal ∧ st.objective = some obj ∧
      o' = ⟨o.cfg, some ⟨st.w, if st.shared then some st.constraints else o.attrs.bind (·.constraints),
            st.alphas, st.objectiveCurve ++ [obj], st.primalCurve ++ [primal], st.cachedFlags ++ [false],
            st.cache⟩, st.lossCurve⟩ := by
  unfold OneSlack.fit at h
  split at h
  · cases h
  · rename_i st0 h0
    split at h
    · cases h
    · rename_i st hl
      split at h
      · cases h
      · rename_i primal hp
        split at h
        · cases h
        · rename_i obj ho
          simp only [Except.ok.injEq] at h
          exact ⟨st0, st, primal, obj, h0, hl, hp, ho, h.symm⟩

end Resume

open Resume in
/-- **C122**, `OneSlackSSVM`. Without inference cache and `switch_to`: if `fit` with `max_iter = a` runs all its iterations
(its objective curve gets `a + 1` entries) and `fit` with `max_iter = a + b` runs more than `a` iterations (its objective
curve gets more than `a + 1` entries), then `fit(warm_start=True)` of the first with `max_iter = b` gives what the second
gives. The first two trainings may themselves be warm starts. -/
theorem C122_one_slack_partial (m : SModel X Y) (qp : QP.Solver) (eq : Y → Y → Except PyErr Bool) (o o1 o2 : OneSlack.Obj Y)
    (samples : List (X × Y)) (warm : Warm) (a b : ℕ) (hc : o.cfg.inferenceCache = 0)
    (hcache : ∀ at', o.attrs = some at' → at'.cache = none)
    (hs : o.cfg.showLossEvery = 0 ∨ o.cfg.showLossEvery ∣ a) (part full : Attrs Y)
    (h1 : OneSlack.fit m qp eq none (fun _ => none) (oneIters o a) samples warm = .ok o1) (hp : o1.attrs = some part)
    (hlen : part.objectiveCurve.length = (curveBefore o warm).length + a + 1)
    (h2 : OneSlack.fit m qp eq none (fun _ => none) (oneIters o (a + b)) samples warm = .ok o2) (hf : o2.attrs = some full)
    (hmore : (curveBefore o warm).length + a + 1 < full.objectiveCurve.length) :
    ∃ o3 res, OneSlack.fit m qp eq none (fun _ => none) (oneIters o1 b) samples .yes = .ok o3 ∧
      o3.attrs = some res ∧ o3.lossCurve = o2.lossCurve ∧ SameOutcome part full res := by
  obtain ⟨st0, st1, p1, obj1, hs0, hl1, hp1, ho1, e1⟩ := fit_parts h1
  obtain ⟨st0', st2, p2, obj2, hs0', hl2, hp2, ho2, e2⟩ := fit_parts h2
  have hst : OneSlack.start m (oneIters o (a + b)) warm = OneSlack.start m (oneIters o a) warm := rfl
  rw [hst, hs0] at hs0'
  cases hs0'
  obtain ⟨hI0, hcur⟩ := start_resumable (o := oneIters o a) (fun at' h => hcache at' h) hs0
  have hcur : st0.objectiveCurve = curveBefore o warm := by rw [hcur]; cases warm <;> rfl
  rw [← hcur] at hlen hmore
  simp only [oneIters] at hl1 hl2 hp1 hp2 e1 e2 hI0
  rw [loop_cfg] at hl1 hl2
  have hI0 : Continuable o.cfg m st0 := ⟨hI0.cache, hI0.slack, hI0.tol, hI0.model, hI0.switched, hI0.shared⟩
  generalize hgt : jointFeatureGt m samples = gt at hl1 hl2
  obtain ⟨hI1, -, hsplit⟩ := oneslack_split hc samples gt (m := m) b a 0 st0 st1 hI0 hl1
  subst e1
  simp only [Option.some.injEq] at hp
  subst hp
  simp only [List.length_append, List.length_singleton, Nat.add_right_cancel_iff] at hlen
  rw [hsplit hlen, Nat.zero_add] at hl2
  subst e2
  simp only [Option.some.injEq] at hf
  subst hf
  simp only [List.length_append, List.length_singleton] at hmore
  have hsh1 : st1.shared = true := hI1.shared (by rw [ho1]; simp)
  -- the state without curves
  let A : Attrs Y := ⟨st1.w, none, [], st1.objectiveCurve, st1.primalCurve, st1.cachedFlags, none⟩
  let bare : OneSlack.St X Y := { st1 with objectiveCurve := [], primalCurve := [], cachedFlags := [] }
  have hbare : longerCurves A bare = st1 := by
    simp only [longerCurves, A, bare, List.append_nil]
  have hIb : Continuable o.cfg m bare := ⟨hI1.cache, hI1.slack, hI1.tol, hI1.model, hI1.switched, hI1.shared⟩
  rw [← hbare, loop_shifted A qp eq none o.cfg hc samples gt _ b a bare hI1.cache] at hl2
  rw [show a = a + 0 from rfl, loop_it hs] at hl2
  cases hb2 : OneSlack.loop qp eq none o.cfg samples gt (fun _ => none) b 0 bare with
  | error e => rw [hb2] at hl2; cases hl2
  | ok bare2 =>
    rw [hb2] at hl2
    simp only [Except.map, Except.ok.injEq] at hl2
    subst hl2
    -- the first iteration goes on
    have hb3 : OneSlack.loop qp eq none o.cfg samples gt (fun _ => none) b 0 (forget o.cfg bare) = .ok bare2 := by
      have hlt : 0 < bare2.objectiveCurve.length := by
        have : (longerCurves A bare2).objectiveCurve.length = st1.objectiveCurve.length + bare2.objectiveCurve.length := by
          simp only [longerCurves, A, List.length_append]
        omega
      cases b with
      | zero =>
        simp only [OneSlack.loop, Except.ok.injEq] at hb2
        rw [← hb2] at hlt
        simp [bare] at hlt
      | succ b =>
        unfold OneSlack.loop at hb2 ⊢
        cases hi : OneSlack.iteration qp eq none o.cfg samples gt 0 none bare with
        | error e => rw [hi] at hb2; cases hb2
        | ok r =>
          obtain ⟨s', go⟩ := r
          rw [hi] at hb2
          cases go with
          | false =>
            simp only [Except.ok.injEq] at hb2
            have := (iteration_resumable hc hIb hi).2.1 rfl
            rw [← hb2, this] at hlt
            simp [bare] at hlt
          | true =>
            rw [iteration_forget hc hIb.cache hIb.slack hIb.tol hi]
            exact hb2
    -- the warm start
    let A' : Attrs Y := ⟨st1.w, some st1.constraints, st1.alphas, st1.objectiveCurve ++ [obj1], st1.primalCurve ++ [p1],
      st1.cachedFlags ++ [false], st1.cache⟩
    have hstart : OneSlack.start m (oneIters ⟨{ o.cfg with maxIter := a }, some A', st1.lossCurve⟩ b) .yes =
        .ok (longerCurves A' (forget o.cfg bare)) := by
      unfold OneSlack.start
      simp only [oneIters, longerCurves, A', forget, bare, List.append_nil, hI1.model, hI1.switched, hsh1]
      rfl
    have hfin : (longerCurves A bare2).model = bare2.model ∧ (longerCurves A bare2).w = bare2.w ∧
        (longerCurves A bare2).objective = bare2.objective := ⟨rfl, rfl, rfl⟩
    rw [hfin.1, hfin.2.1] at hp2
    rw [hfin.2.2] at ho2
    have hsh2 : bare2.shared = true := by
      have := (oneslack_split hc samples gt (m := m) 0 b 0 bare bare2 hIb hb2).1
      exact this.shared (by rw [ho2]; simp)
    refine ⟨⟨{ o.cfg with maxIter := b }, some ⟨bare2.w, some bare2.constraints, bare2.alphas,
      (st1.objectiveCurve ++ [obj1]) ++ bare2.objectiveCurve ++ [obj2], (st1.primalCurve ++ [p1]) ++ bare2.primalCurve ++ [p2],
      (st1.cachedFlags ++ [false]) ++ bare2.cachedFlags ++ [false], bare2.cache⟩, bare2.lossCurve⟩, _, ?_, rfl, rfl, ?_⟩
    · unfold OneSlack.fit
      simp only [hsh1, if_true]
      rw [hstart]
      simp only [oneIters]
      rw [loop_cfg, hgt, loop_shifted A' qp eq none o.cfg hc samples gt _ b 0 (forget o.cfg bare) hI1.cache, hb3]
      simp only [Except.map]
      have hfin' : (longerCurves A' bare2).model = bare2.model ∧ (longerCurves A' bare2).w = bare2.w ∧
        (longerCurves A' bare2).objective = bare2.objective := ⟨rfl, rfl, rfl⟩
      rw [hfin'.1, hfin'.2.1, hfin'.2.2, hp2, ho2]
      simp only [longerCurves, hsh2, if_true, A']
    · refine ⟨rfl, ?_, rfl, rfl, bare2.objectiveCurve ++ [obj2], bare2.primalCurve ++ [p2], bare2.cachedFlags ++ [false],
        ?_, ?_, ?_, ?_, ?_, ?_⟩
      · simp only [longerCurves, hsh2, if_true]
      all_goals simp only [longerCurves, A, List.dropLast_concat, List.append_assoc]

/-! ### where it fails -/

/-- **C122 is violated by a converged `OneSlackSSVM`.** Training has ended because no constraint is violated any more;
`fit(warm_start=True)` on the same data then raises `UnboundLocalError`. -/
theorem C122_violated_converged :
    ∃ o1, OneSlack.fit exampleTable exampleSolver natEq none (fun _ => none) (exampleOS 10 1 0 50) [((), 0)] .no = .ok o1 ∧
      OneSlack.fit exampleTable exampleSolver natEq none (fun _ => none) o1 [((), 0)] .yes = .error .unboundLocalError := by
  have key : (do
      let o1 ← OneSlack.fit exampleTable exampleSolver natEq none (fun _ => none) (exampleOS 10 1 0 50) [((), 0)] .no
      pure (match OneSlack.fit exampleTable exampleSolver natEq none (fun _ => none) o1 [((), 0)] .yes with
        | .ok _ => none
        | .error err => some err)) = Except.ok (ε := PyErr) (some .unboundLocalError) := by decide +kernel
  obtain ⟨o1, h1, h2⟩ := bind_eq_ok.mp key
  refine ⟨o1, h1, ?_⟩
  injection h2 with h2
  split at h2
  · cases h2
  · rename_i e he
    rw [he]
    simp only [Option.some.injEq] at h2
    rw [h2]

/-- A subgradient learner with momentum 1/2. -/
def momentumSG (n : ℕ) : Subgradient.Obj :=
  { exampleSG n 1 none .none with cfg := { (exampleSG n 1 none .none).cfg with momentum := 1 / 2 } }

/-- training twice, the second time with a warm start, compared with training in one go: whether the first components of
the weights agree, and whether the first training runs `n` iterations. -/
def twice (n : ℕ) (o o2 : Subgradient.Obj) : Except PyErr (Bool × Bool) := do
  let o1 ← Subgradient.fit (multiClassModel exampleClf) (fun _ => sgB) o sgB false
  let o2 ← Subgradient.fit (multiClassModel exampleClf) (fun _ => sgB) o2 sgB false
  let o3 ← Subgradient.fit (multiClassModel exampleClf) (fun _ => sgB) o1 sgB true
  pure (decide (o3.w.map (· 0) = o2.w.map (· 0)), decide (o1.curves.objective.length = n + 1))

theorem twice_differs {n : ℕ} {o o2 : Subgradient.Obj} (h : twice n o o2 = .ok (false, true)) :
    ∃ o1 o2' o3, Subgradient.fit (multiClassModel exampleClf) (fun _ => sgB) o sgB false = .ok o1 ∧
      Subgradient.fit (multiClassModel exampleClf) (fun _ => sgB) o2 sgB false = .ok o2' ∧
      Subgradient.fit (multiClassModel exampleClf) (fun _ => sgB) o1 sgB true = .ok o3 ∧
      o1.curves.objective.length = n + 1 ∧ o3.w ≠ o2'.w := by
  unfold twice at h
  obtain ⟨o1, h1, h⟩ := bind_eq_ok.mp h
  obtain ⟨o2', h2, h⟩ := bind_eq_ok.mp h
  obtain ⟨o3, h3, h⟩ := bind_eq_ok.mp h
  injection h with h
  simp only [Prod.mk.injEq, decide_eq_false_iff_not, decide_eq_true_eq] at h
  exact ⟨o1, o2', o3, h1, h2, h3, h.2, fun e => h.1 (by rw [e])⟩

/-- **C122 is violated with momentum**: the old gradient is forgotten at a warm start. -/
theorem C122_violated_momentum :
    ∃ o1 o2 o3, Subgradient.fit (multiClassModel exampleClf) (fun _ => sgB) (momentumSG 1) sgB false = .ok o1 ∧
      Subgradient.fit (multiClassModel exampleClf) (fun _ => sgB) (momentumSG 2) sgB false = .ok o2 ∧
      Subgradient.fit (multiClassModel exampleClf) (fun _ => sgB) o1 sgB true = .ok o3 ∧
      o1.curves.objective.length = 1 + 1 ∧ o3.w ≠ o2.w :=
  twice_differs (by decide +kernel)

/-- **C122 is violated with averaging**: a warm start continues from the averaged weights. -/
theorem C122_violated_averaging :
    ∃ o1 o2 o3, Subgradient.fit (multiClassModel exampleClf) (fun _ => sgB) (exampleSG 2 1 none .linear) sgB false = .ok o1 ∧
      Subgradient.fit (multiClassModel exampleClf) (fun _ => sgB) (exampleSG 4 1 none .linear) sgB false = .ok o2 ∧
      Subgradient.fit (multiClassModel exampleClf) (fun _ => sgB) o1 sgB true = .ok o3 ∧
      o1.curves.objective.length = 2 + 1 ∧ o3.w ≠ o2.w :=
  twice_differs (by decide +kernel)

/-! ### examples -/

/-- A training of three iterations that is interrupted after the first. -/
example : ∃ o1 o2 part full,
    OneSlack.fit prunedTable prunedSolver natEq none (fun _ => none) (Resume.oneIters (exampleOS 1 (1 / 2) 0 1) 1) [((), 0)] .no =
      .ok o1 ∧ o1.attrs = some part ∧ part.objectiveCurve.length = 0 + 1 + 1 ∧
    OneSlack.fit prunedTable prunedSolver natEq none (fun _ => none) (Resume.oneIters (exampleOS 1 (1 / 2) 0 1) (1 + 2)) [((), 0)]
      .no = .ok o2 ∧ o2.attrs = some full ∧ 0 + 1 + 1 < full.objectiveCurve.length := by
  have key : (do
      let o1 ← OneSlack.fit prunedTable prunedSolver natEq none (fun _ => none)
        (Resume.oneIters (exampleOS 1 (1 / 2) 0 1) 1) [((), 0)] .no
      let o2 ← OneSlack.fit prunedTable prunedSolver natEq none (fun _ => none)
        (Resume.oneIters (exampleOS 1 (1 / 2) 0 1) (1 + 2)) [((), 0)] .no
      match o1.attrs, o2.attrs with
      | some part, some full =>
        pure (decide (part.objectiveCurve.length = 0 + 1 + 1), decide (0 + 1 + 1 < full.objectiveCurve.length))
      | _, _ => .error .valueError) = Except.ok (ε := PyErr) (true, true) := by decide +kernel
  obtain ⟨o1, h1, key⟩ := bind_eq_ok.mp key
  obtain ⟨o2, h2, key⟩ := bind_eq_ok.mp key
  split at key
  · rename_i part full hp hf
    injection key with key
    simp only [Prod.mk.injEq, decide_eq_true_eq] at key
    exact ⟨o1, o2, part, full, h1, hp, key.1, h2, hf, key.2⟩
  · cases key

/-- A subgradient training of two iterations. -/
example : ∃ o1, Subgradient.fit (multiClassModel exampleClf) (fun _ => sgB) (Resume.withIters (exampleSG 0 1 none .none) 2) sgB false =
    .ok o1 ∧ o1.curves.objective.length = 2 + 1 := by
  have key : (do
      let o1 ← Subgradient.fit (multiClassModel exampleClf) (fun _ => sgB) (Resume.withIters (exampleSG 0 1 none .none) 2) sgB false
      pure (decide (o1.curves.objective.length = 2 + 1))) = Except.ok (ε := PyErr) true := by decide +kernel
  obtain ⟨o1, h1, key⟩ := bind_eq_ok.mp key
  injection key with key
  exact ⟨o1, h1, by simpa using key⟩

end Verif.Props
