import Verif.Props.C41
import Verif.Lemmas.QPInstances

/-!
# C67: when cutting-plane training returns a result
-/

namespace Verif.Props

open Finset Verif.Spec Verif.Learner Verif.OneSlack

variable {X Y : Type}

/-- The attributes that a completed fit leaves behind: one history per constraint, caches without empty entries,
nonempty curves. -/
def Resumable (a : Attrs Y) : Prop :=
  (∃ cs, a.constraints = some cs ∧ a.alphas.length = cs.length ∧ cs ≠ []) ∧
    (∀ c, a.cache = some c → ∀ l ∈ c, l ≠ []) ∧ a.primalCurve ≠ [] ∧ a.objectiveCurve ≠ []

/-- The same for the state of the loop. -/
def Live (st : St X Y) : Prop :=
  Aligned st.constraints st.alphas ∧
    ∀ c, st.cache = some c → (∀ l ∈ c, l ≠ []) ∧ st.primalCurve ≠ [] ∧ st.objectiveCurve ≠ []

theorem solveQP_total {qp : QP.Solver} (hqp : QP.Exact qp) (hcomp : QP.Complete qp) (dim : ℕ) {cn : ℚ} (hcn : 0 ≤ cn)
    {cs : List Con} (hcs : cs ≠ []) : ∃ sol, solveQP qp dim none cn cs = .ok sol ∧ sol.x.length = cs.length ∧
      ∀ x ∈ sol.x, 0 ≤ x := by
  have h1 := hcomp _ (QP.oneSlack_optimal dim none cn cs 0 le_rfl (QP.oneSlack_feasible dim cn hcn cs hcs 0))
  obtain ⟨sol, hsol⟩ := Option.isSome_iff_exists.mp h1
  obtain ⟨hlen, hpos, -⟩ := (feasible_qpOf _ _ _ _ _ _).mp (hqp.1 _ _ hsol).1
  refine ⟨sol, ?_, hlen, ?_⟩
  · unfold solveQP
    rw [if_neg (by simp), hsol]
  · intro x hx
    obtain ⟨i, hi, rfl⟩ := List.getElem_of_mem hx
    have := hpos i (by omega)
    simpa [List.getD_eq_getElem?_getD, hi] using this

theorem prune_total (cfg : Config) {cs : List Con} {alphas : List (List ℚ)} {a : List ℚ} (h1 : alphas.length + 1 = cs.length)
    (h2 : a.length = cs.length) (h3 : alphas ≠ []) : ∃ r, prune cfg cs alphas a = .ok r := by
  unfold prune
  simp only
  rw [if_neg (by simp; omega)]
  split_ifs with h4 h5
  · exact ⟨_, rfl⟩
  · exfalso
    have hpos : 0 < alphas.length := List.length_pos_iff.mpr h3
    rw [List.isEmpty_iff] at h5
    have := congrArg List.length h5
    rw [List.length_tail, List.length_map, List.length_zipWith, List.length_append, List.length_singleton,
      List.length_nil] at this
    omega
  · exact ⟨_, rfl⟩

theorem alreadyThere_total {eq : Y → Y → Except PyErr Bool} (heq : ∀ a b, ∃ r, eq a b = .ok r) (yhat : Y)
    (l : List (Cached Y)) : ∃ r, alreadyThere eq yhat l = .ok r := by
  induction l with
  | nil => exact ⟨_, rfl⟩
  | cons c cs ih =>
    obtain ⟨r, hr⟩ := heq yhat c.2.2
    obtain ⟨r', hr'⟩ := ih
    unfold alreadyThere
    rw [hr, hr']
    exact ⟨_, rfl⟩

theorem cacheSample_total {m : SModel X Y} {eq : Y → Y → Except PyErr Bool} (heq : ∀ a b, ∃ r, eq a b = .ok r) (size : ℕ)
    (l : List (Cached Y)) (x : X) (y yhat : Y) : ∃ r, cacheSample m eq size l x y yhat = .ok r ∧ r ≠ [] := by
  obtain ⟨b, hb⟩ := alreadyThere_total heq yhat l
  unfold cacheSample
  rw [hb]
  cases b with
  | true =>
    refine ⟨l, rfl, ?_⟩
    rintro rfl
    cases hb
  | false => exact ⟨_, rfl, by simp⟩

theorem cacheSamples_total {m : SModel X Y} {eq : Y → Y → Except PyErr Bool} (heq : ∀ a b, ∃ r, eq a b = .ok r) (size : ℕ)
    (cache : List (List (Cached Y))) (samples : List (X × Y)) (yhat : List Y)
    (h : (∀ l ∈ cache, l ≠ []) ∨ cache.length = yhat.length ∧ yhat.length = samples.length) :
    ∃ r, cacheSamples m eq size cache samples yhat = .ok r ∧ ∀ l ∈ r, l ≠ [] := by
  induction cache generalizing samples yhat with
  | nil => exact ⟨[], rfl, by simp⟩
  | cons c cache ih =>
    cases samples with
    | nil =>
      refine ⟨c :: cache, rfl, ?_⟩
      rcases h with h | ⟨h1, h2⟩
      · exact h
      · simp at h2
        rw [h2] at h1
        simp at h1
    | cons s samples =>
      cases yhat with
      | nil =>
        refine ⟨c :: cache, rfl, ?_⟩
        rcases h with h | ⟨h1, h2⟩
        · exact h
        · simp at h1
      | cons yh yhat =>
        obtain ⟨r, hr, hr0⟩ := cacheSample_total (m := m) heq size c s.1 s.2 yh
        obtain ⟨r', hr', hr0'⟩ := ih samples yhat (by
          rcases h with h | ⟨h1, h2⟩
          · exact .inl fun l hl => h l (List.mem_cons_of_mem _ hl)
          · exact .inr ⟨by simpa using h1, by simpa using h2⟩)
        unfold cacheSamples
        rw [hr]
        simp only
        rw [hr']
        refine ⟨r :: r', rfl, ?_⟩
        intro l hl
        rcases List.mem_cons.mp hl with rfl | hl
        · exact hr0
        · exact hr0' l hl

theorem updateCache_total {m : SModel X Y} {eq : Y → Y → Except PyErr Bool} (cfg : Config)
    (heq : cfg.inferenceCache = 0 ∨ ∀ a b, ∃ r, eq a b = .ok r) (cache : Option (List (List (Cached Y)))) (samples : List (X × Y)) (yhat : List Y)
    (hy : yhat.length = samples.length) (h : ∀ c, cache = some c → ∀ l ∈ c, l ≠ []) :
    ∃ r, updateCache m eq cfg cache samples yhat = .ok r ∧ ∀ c, r = some c → ∀ l ∈ c, l ≠ [] := by
  unfold updateCache
  split_ifs with h0
  · exact ⟨cache, rfl, h⟩
  · obtain ⟨r, hr, hr0⟩ := cacheSamples_total (m := m) (heq.resolve_left h0) cfg.inferenceCache (cache.getD (yhat.map fun _ => [])) samples yhat (by
      cases cache with
      | none => exact .inr ⟨by simp, hy⟩
      | some c => exact .inl (h c rfl))
    rw [hr]
    exact ⟨some r, rfl, fun c hc => by cases hc; exact hr0⟩

theorem strongestAll_total (dim : ℕ) (w : W) (cache : List (List (Cached Y))) (h : ∀ l ∈ cache, l ≠ []) :
    ∃ r, strongestAll dim w cache = .ok r := by
  induction cache with
  | nil => exact ⟨_, rfl⟩
  | cons c cs ih =>
    obtain ⟨r, hr⟩ := ih fun l hl => h l (List.mem_cons_of_mem _ hl)
    have hc : ∃ e, strongestCached dim w c = .ok e := by
      have hpos : 1 ≤ c.length := List.length_pos_iff.mpr (h c List.mem_cons_self)
      have := argmaxN_lt (fun i => (c[i]?.map fun c => dot dim c.1 w + c.2.1).getD 0) hpos
      unfold strongestCached
      rw [List.getElem?_eq_getElem this]
      exact ⟨_, rfl⟩
    obtain ⟨e, he⟩ := hc
    unfold strongestAll
    rw [he, hr]
    exact ⟨_, rfl⟩

theorem checkBad_total (cfg : Config) (dim : ℕ) (w : W) (ls v : ℚ) (dj : W) (loss : ℚ) (old : List Con) :
    ∃ b, checkBad cfg dim w ls v dj loss old false = .ok b := by
  unfold checkBad
  simp only
  rw [if_neg (by simp)]
  split_ifs <;> first | exact ⟨_, rfl⟩ | simp_all

theorem fromCache_total (cfg : Config) (st : St X Y) (gt : W) (n : ℕ) (hI : Live st) :
    ∃ r, fromCache cfg st gt n = .ok r := by
  cases hc : st.cache with
  | none => unfold fromCache; rw [hc]; exact ⟨_, rfl⟩
  | some c =>
    obtain ⟨h1, h2, h3⟩ := hI.2 c hc
    cases c with
    | nil => unfold fromCache; rw [hc]; exact ⟨_, rfl⟩
    | cons c cs =>
      obtain ⟨p, hp⟩ : ∃ p, st.primalCurve.getLast? = some p := ⟨_, List.getLast?_eq_getLast_of_ne_nil h2⟩
      obtain ⟨q, hq⟩ : ∃ q, st.objectiveCurve.getLast? = some q := ⟨_, List.getLast?_eq_getLast_of_ne_nil h3⟩
      obtain ⟨es, hes⟩ := strongestAll_total st.model.dim st.w (c :: cs) h1
      unfold fromCache
      rw [hc, hp, hq]
      simp only
      split_ifs
      · exact ⟨_, rfl⟩
      · rw [hes]
        simp only
        obtain ⟨b, hb⟩ := checkBad_total cfg st.model.dim st.w st.lastSlack
          ((es.map fun e => e.2.1).sum / n - dot st.model.dim st.w fun k => (gt k - (es.map fun e => e.1 k).sum) / n)
          (fun k => (gt k - (es.map fun e => e.1 k).sum) / n) ((es.map fun e => e.2.1).sum / n) st.constraints
        rw [hb]
        cases b <;> exact ⟨_, rfl⟩

theorem findNew_total (cfg : Config) (hbr : cfg.breakOnBad = false) (st : St X Y) (gt : W) (samples : List (X × Y)) :
    ∃ r, findNew cfg st gt samples = .ok r ∧ ∀ f, r = some f → f.yhat.length = samples.length := by
  unfold findNew
  simp only
  rw [hbr]
  generalize ((samples.map fun s => (s, st.model.lossAug s.1 s.2 st.w true)).map
    fun p => st.model.lossOf p.1.2 p.2).sum / (samples.length : ℚ) = L
  generalize hdj : (fun k => (gt k - ((samples.map fun s => (s, st.model.lossAug s.1 s.2 st.w true)).map
    fun p => st.model.feat p.1.1 p.2 p.1.2 k).sum) / (samples.length : ℚ)) = dj
  obtain ⟨b, hb⟩ := checkBad_total cfg st.model.dim st.w st.lastSlack (L - dot st.model.dim st.w dj) dj L st.constraints
  rw [hb]
  cases b
  · refine ⟨_, rfl, ?_⟩
    intro f hf
    cases hf
    simp
  · exact ⟨none, rfl, by simp⟩

theorem addConstraint_total {qp : QP.Solver} (hqp : QP.Exact qp) (hcomp : QP.Complete qp) {cfg : Config} (hC : 0 ≤ cfg.C)
    (hneg : cfg.negativity = none) (hthr : cfg.inactiveThreshold ≤ 1) (samples : List (X × Y)) (it : ℕ) (st : St X Y)
    (hI : Aligned st.constraints st.alphas) (hcache : ∀ c, st.cache = some c → ∀ l ∈ c, l ≠ []) (f : Found Y)
    (cached : Bool) : ∃ st', addConstraint qp cfg samples it none st f cached = .ok (st', true) ∧ Live st' ∧
      st'.objective ≠ none ∧ st'.shared = true := by
  have hcn : 0 ≤ cfg.C * (samples.length : ℚ) := mul_nonneg hC (Nat.cast_nonneg _)
  obtain ⟨sol, hsol, hlen, hpos⟩ := solveQP_total hqp hcomp st.model.dim hcn
    (cs := st.constraints ++ [(f.dj, f.loss)]) (by simp)
  have hal : st.alphas ≠ [] := by
    intro h0
    have := hI.1
    rw [h0] at this
    exact hI.2 (List.length_eq_zero_iff.mp this.symm)
  obtain ⟨⟨cs', al'⟩, hr⟩ := prune_total cfg (cs := st.constraints ++ [(f.dj, f.loss)]) (alphas := st.alphas)
    (a := sol.x) (by simp [hI.1]) hlen hal
  obtain ⟨-, p1, -, -, p2⟩ := prune_facts cfg _ _ _ hlen hr
  have hne := p2 hthr hpos
  obtain ⟨s, hs⟩ : ∃ s, newLastSlack st.model.dim (weightsOf (st.constraints ++ [(f.dj, f.loss)]) sol.x) cs' = .ok s := by
    unfold newLastSlack
    cases hm : (cs'.map fun c => -dot st.model.dim (weightsOf (st.constraints ++ [(f.dj, f.loss)]) sol.x) c.1 + c.2).max? with
    | none =>
      rw [List.max?_eq_none_iff, List.map_eq_nil_iff] at hm
      exact absurd hm hne
    | some v => exact ⟨_, rfl⟩
  unfold addConstraint
  simp only
  rw [if_neg (by simp), hneg, hsol]
  simp only
  rw [hr]
  simp only
  rw [if_neg (by simp), hs]
  refine ⟨_, rfl, ⟨⟨p1, hne⟩, ?_⟩, by simp, rfl⟩
  intro c hc
  exact ⟨hcache c hc, by simp, by simp⟩

/-- an iteration succeeds, and either solves a QP, or switches, or ends the loop. -/
theorem iteration_total {qp : QP.Solver} (hqp : QP.Exact qp) (hcomp : QP.Complete qp) {eq : Y → Y → Except PyErr Bool} {cfg : Config}
    (heq : cfg.inferenceCache = 0 ∨ ∀ a b, ∃ r, eq a b = .ok r) (alt : Option ((X → Y → W → Bool → Y) × (X → W → Y)))
    (hC : 0 ≤ cfg.C) (hneg : cfg.negativity = none) (hthr : cfg.inactiveThreshold ≤ 1) (hbr : cfg.breakOnBad = false)
    (samples : List (X × Y)) (gt : W) (it : ℕ) (st : St X Y) (hI : Live st) :
    ∃ st' b, iteration qp eq alt cfg samples gt it none st = .ok (st', b) ∧ Live st' ∧
      (st'.objective ≠ none ∧ st'.shared = true ∨ st'.objective = st.objective ∧ st'.shared = st.shared) := by
  have hcache : ∀ c, st.cache = some c → ∀ l ∈ c, l ≠ [] := fun c hc => (hI.2 c hc).1
  unfold iteration
  rw [if_neg (by simp)]
  obtain ⟨r, hr⟩ := fromCache_total cfg st gt samples.length hI
  rw [hr]
  cases r with
  | some f =>
    obtain ⟨st', h1, h2, h3⟩ := addConstraint_total hqp hcomp hC hneg hthr samples it st hI.1 hcache f true
    exact ⟨st', true, h1, h2, .inl h3⟩
  | none =>
    obtain ⟨r, hr, hlen⟩ := findNew_total cfg hbr st gt samples
    simp only
    rw [hr]
    cases r with
    | some f =>
      obtain ⟨c', hc', hc0⟩ := updateCache_total (m := st.model) cfg heq st.cache samples f.yhat (hlen f rfl) hcache
      simp only
      rw [hc']
      obtain ⟨st', h1, h2, h3⟩ := addConstraint_total hqp hcomp hC hneg hthr samples it { st with cache := c' } hI.1 hc0 f false
      exact ⟨st', true, h1, h2, .inl h3⟩
    | none =>
      simp only
      split
      · exact ⟨_, _, rfl, hI, .inr ⟨rfl, rfl⟩⟩
      · exact ⟨_, _, rfl, hI, .inr ⟨rfl, rfl⟩⟩

theorem loop_total {qp : QP.Solver} (hqp : QP.Exact qp) (hcomp : QP.Complete qp) {eq : Y → Y → Except PyErr Bool} {cfg : Config}
    (heq : cfg.inferenceCache = 0 ∨ ∀ a b, ∃ r, eq a b = .ok r) (alt : Option ((X → Y → W → Bool → Y) × (X → W → Y)))
    (hC : 0 ≤ cfg.C) (hneg : cfg.negativity = none) (hthr : cfg.inactiveThreshold ≤ 1) (hbr : cfg.breakOnBad = false)
    (samples : List (X × Y)) (gt : W) (fuel it : ℕ) (st : St X Y) (hI : Live st) :
    ∃ st', loop qp eq alt cfg samples gt (fun _ => none) fuel it st = .ok st' ∧ Live st' ∧
      (st'.objective ≠ none ∧ st'.shared = true ∨ st'.objective = st.objective ∧ st'.shared = st.shared) := by
  induction fuel generalizing it st with
  | zero => exact ⟨st, rfl, hI, .inr ⟨rfl, rfl⟩⟩
  | succ fuel ih =>
    obtain ⟨st1, b, h1, h2, h3⟩ := iteration_total hqp hcomp heq alt hC hneg hthr hbr samples gt it st hI
    unfold loop
    rw [h1]
    cases b with
    | false => exact ⟨st1, rfl, h2, h3⟩
    | true =>
      obtain ⟨st2, k1, k2, k3⟩ := ih (it + 1) st1 h2
      refine ⟨st2, k1, k2, ?_⟩
      rcases k3 with k3 | ⟨k3, k4⟩
      · exact .inl k3
      · rw [k3, k4]; exact h3

/-- **C67, the part that holds.** Let the QP solver find an optimal solution whenever there is one, and let comparing
outputs never fail (it is not done without a cache). Without interrupts, sign constraints and `break_on_bad`, training a fresh learner or one that an
earlier fit left behind, on a nonempty data set, either returns a learner that can be fitted again, or raises
`UnboundLocalError`; nothing else happens. -/
theorem C67_returns_partial (m : SModel X Y) (qp : QP.Solver) (hqp : QP.Exact qp) (hcomp : QP.Complete qp)
    (eq : Y → Y → Except PyErr Bool) (alt : Option ((X → Y → W → Bool → Y) × (X → W → Y))) (o : Obj Y)
    (heq : o.cfg.inferenceCache = 0 ∨ ∀ a b, ∃ r, eq a b = .ok r) (hC : 0 ≤ o.cfg.C)
    (hneg : o.cfg.negativity = none) (hthr : o.cfg.inactiveThreshold ≤ 1) (hbr : o.cfg.breakOnBad = false)
    (samples : List (X × Y)) (hne : samples ≠ []) (warm : Warm)
    (hw : warm = .no ∨ ∃ a, o.attrs = some a ∧ Resumable a) :
    (∃ o' a', OneSlack.fit m qp eq alt (fun _ => none) o samples warm = .ok o' ∧ o'.cfg = o.cfg ∧
      o'.attrs = some a' ∧ Resumable a') ∨
    OneSlack.fit m qp eq alt (fun _ => none) o samples warm = .error .unboundLocalError := by
  have hstart : ∃ st, start m o warm = .ok st ∧ Live st ∧ st.objective = none := by
    cases warm with
    | no => exact ⟨_, rfl, ⟨⟨rfl, by simp⟩, by simp⟩, rfl⟩
    | soft =>
      rcases hw with h | ⟨a, ha, ⟨⟨cs, hcs, h1, h2⟩, h3, h4, h5⟩⟩
      · cases h
      · unfold start
        rw [ha]
        exact ⟨_, rfl, ⟨⟨rfl, by simp⟩, fun c hc => ⟨h3 c hc, h4, h5⟩⟩, rfl⟩
    | yes =>
      rcases hw with h | ⟨a, ha, ⟨⟨cs, hcs, h1, h2⟩, h3, h4, h5⟩⟩
      · cases h
      · unfold start
        rw [ha]
        obtain ⟨w, cs', al, oc, pc, fl, cache⟩ := a
        simp only at hcs
        subst hcs
        exact ⟨_, rfl, ⟨⟨h1, h2⟩, fun c hc => ⟨h3 c hc, h4, h5⟩⟩, rfl⟩
  obtain ⟨st, hs, hI, hob⟩ := hstart
  obtain ⟨st', hl, hI', hob'⟩ := loop_total hqp hcomp heq alt hC hneg hthr hbr samples (jointFeatureGt m samples)
    o.cfg.maxIter 0 st hI
  unfold OneSlack.fit
  rw [hs]
  simp only
  rw [hl]
  simp only [objectivePrimal_ok _ _ _ _ _ hne]
  cases hobj : st'.objective with
  | none => exact .inr rfl
  | some v =>
    left
    have hsh : st'.shared = true := by
      rcases hob' with h | ⟨h, -⟩
      · exact h.2
      · rw [hobj, hob] at h; cases h
    refine ⟨_, _, rfl, rfl, rfl, ⟨st'.constraints, ?_, hI'.1.1, hI'.1.2⟩, fun c hc => (hI'.2 c hc).1, ?_, ?_⟩
    · simp only [hsh, if_true]
    · simp
    · simp

theorem addConstraint_objective {qp : QP.Solver} {cfg : Config} {samples : List (X × Y)} {it : ℕ}
    {st st' : St X Y} {f : Found Y} {cached b : Bool}
    (h : addConstraint qp cfg samples it none st f cached = .ok (st', b)) : st'.objective ≠ none := by
  unfold addConstraint at h
  simp only at h
  rw [if_neg (by simp)] at h
  split at h
  · cases h
  · split at h
    · cases h
    · rw [if_neg (by simp)] at h
      split at h
      · cases h
      · simp only [Except.ok.injEq, Prod.mk.injEq] at h
        rw [← h.1]
        simp

theorem loop_objective {qp : QP.Solver} {eq : Y → Y → Except PyErr Bool}
    {alt : Option ((X → Y → W → Bool → Y) × (X → W → Y))} {cfg : Config} {samples : List (X × Y)} {gt : W}
    (fuel it : ℕ) {st st' : St X Y} (h0 : st.objective ≠ none)
    (h : loop qp eq alt cfg samples gt (fun _ => none) fuel it st = .ok st') : st'.objective ≠ none := by
  induction fuel generalizing it st with
  | zero => cases h; exact h0
  | succ fuel ih =>
    unfold loop at h
    split at h
    · cases h
    · rename_i hi
      cases h
      rcases iteration_ok hi with ⟨rfl, -, -⟩ | ⟨la, inf, -, -, -, -, rfl⟩ | ⟨-, f, cd, cache, hfind, hadd⟩
      · exact h0
      · exact h0
      · exact addConstraint_objective hadd
    · rename_i hi
      refine ih (it + 1) ?_ h
      rcases iteration_ok hi with ⟨rfl, -, -⟩ | ⟨la, inf, -, -, -, -, rfl⟩ | ⟨-, f, cd, cache, hfind, hadd⟩
      · exact h0
      · exact h0
      · exact addConstraint_objective hadd

/-- **C67, when a learner returns.** In the situation of `C67_returns_partial` (without a second inference
method), with `tol ≤ 1` and losses that are not negative: training a fresh learner, or continuing with
`warm_start='soft'` a learner without inference cache, returns if and only if `max_iter` is
positive and loss-augmented inference at zero weights returns outputs of which one has a loss, or whose joint features
do not sum up to those of the true outputs. -/
theorem C67_soft_iff_partial (m : SModel X Y) (qp : QP.Solver) (hqp : QP.Exact qp) (hcomp : QP.Complete qp)
    (eq : Y → Y → Except PyErr Bool) (o : Obj Y) (heq : o.cfg.inferenceCache = 0 ∨ ∀ a b, ∃ r, eq a b = .ok r) (hC : 0 ≤ o.cfg.C)
    (hneg : o.cfg.negativity = none) (hthr : o.cfg.inactiveThreshold ≤ 1) (hbr : o.cfg.breakOnBad = false)
    (htol : o.cfg.tol ≤ 1) (samples : List (X × Y)) (hne : samples ≠ []) (warm : Warm)
    (hwarm : warm = .no ∨ warm = .soft ∧ ∃ a, o.attrs = some a ∧ a.cache = none)
    (hloss : ∀ s ∈ samples, 0 ≤ m.lossOf s.2 (m.lossAug s.1 s.2 (fun _ => 0) true)) :
    (∃ o', OneSlack.fit m qp eq none (fun _ => none) o samples warm = .ok o') ↔
      o.cfg.maxIter ≠ 0 ∧ ((∃ s ∈ samples, m.lossOf s.2 (m.lossAug s.1 s.2 (fun _ => 0) true) ≠ 0) ∨
        ∃ k < m.dim, (samples.map fun s => m.feat s.1 s.2 s.2 k).sum ≠
          (samples.map fun s => m.feat s.1 (m.lossAug s.1 s.2 (fun _ => 0) true) s.2 k).sum) := by
  set yh : X × Y → Y := fun s => m.lossAug s.1 s.2 (fun _ => 0) true with hyh
  have hn : (samples.length : ℚ) ≠ 0 := by
    rw [Nat.cast_ne_zero]
    exact fun h => hne (List.length_eq_zero_iff.mp h)
  have hnpos : (0 : ℚ) < samples.length := lt_of_le_of_ne (Nat.cast_nonneg _) (Ne.symm hn)
  obtain ⟨st, hs, hm, hw, hcs, hc, hls, hob, hI⟩ : ∃ st, start m o warm = .ok st ∧ st.model = m ∧ st.w = (fun _ => 0) ∧
      st.constraints = [((fun _ => 0), 0)] ∧ st.cache = none ∧ st.lastSlack = -1 ∧ st.objective = none ∧ Live st := by
    rcases hwarm with rfl | ⟨rfl, a, ha, hc⟩
    · exact ⟨_, rfl, rfl, rfl, rfl, rfl, rfl, rfl, ⟨⟨rfl, by simp⟩, by simp⟩⟩
    · unfold start
      rw [ha]
      exact ⟨_, rfl, rfl, rfl, rfl, hc, rfl, rfl, ⟨⟨rfl, by simp⟩, by simp [hc]⟩⟩
  have hfc : fromCache o.cfg st (jointFeatureGt m samples) samples.length = .ok none := by
    unfold fromCache
    rw [hc]
  set L : ℚ := (samples.map fun s => m.lossOf s.2 (yh s)).sum with hL
  have hL0 : 0 ≤ L := List.sum_nonneg fun v hv => by
    obtain ⟨s, hs, rfl⟩ := List.mem_map.mp hv
    exact hloss s hs
  have hLzero : L = 0 ↔ ∀ s ∈ samples, m.lossOf s.2 (yh s) = 0 := by
    constructor
    · intro h s hs
      refine le_antisymm ?_ (hloss s hs)
      rw [← h]
      refine List.single_le_sum (fun v hv => ?_) _ (List.mem_map.mpr ⟨s, hs, rfl⟩)
      obtain ⟨s, hs, rfl⟩ := List.mem_map.mp hv
      exact hloss s hs
    · intro h
      refine List.sum_eq_zero fun v hv => ?_
      obtain ⟨s, hs, rfl⟩ := List.mem_map.mp hv
      exact h s hs
  -- the first search
  have hfn : findNew o.cfg st (jointFeatureGt m samples) samples = .ok none ↔
      L = 0 ∧ ∀ k < m.dim, (samples.map fun s => m.feat s.1 s.2 s.2 k).sum =
        (samples.map fun s => m.feat s.1 (yh s) s.2 k).sum := by
    unfold findNew
    simp only [hm, hw, hcs, hls, hbr]
    rw [dot_zero_left]
    simp only [List.map_map]
    change (match checkBad o.cfg m.dim (fun _ => 0) (-1) (L / samples.length - 0)
        (fun k => ((samples.map fun s => m.feat s.1 s.2 s.2 k).sum - (samples.map fun s => m.feat s.1 (yh s) s.2 k).sum) /
          samples.length) (L / samples.length) [((fun _ => 0), 0)] false with
      | .error err => .error err
      | .ok true => .ok none
      | .ok false => .ok (some _)) = Except.ok none ↔ _
    have hLn : 0 ≤ L / samples.length := div_nonneg hL0 hnpos.le
    have hcb : checkBad o.cfg m.dim (fun _ => 0) (-1) (L / samples.length - 0)
        (fun k => ((samples.map fun s => m.feat s.1 s.2 s.2 k).sum - (samples.map fun s => m.feat s.1 (yh s) s.2 k).sum) /
          samples.length) (L / samples.length) [((fun _ => 0), 0)] false =
        .ok (decide (∀ k < m.dim, (0 : ℚ) = ((samples.map fun s => m.feat s.1 s.2 s.2 k).sum -
          (samples.map fun s => m.feat s.1 (yh s) s.2 k).sum) / samples.length) && decide (L / samples.length = 0)) := by
      unfold checkBad
      simp only
      rw [if_neg (by simp), if_neg (by linarith)]
      simp only [List.any_cons, List.any_nil, Bool.or_false]
      by_cases hb : (decide (∀ k < m.dim, (0 : ℚ) = ((samples.map fun s => m.feat s.1 s.2 s.2 k).sum -
          (samples.map fun s => m.feat s.1 (yh s) s.2 k).sum) / samples.length) && decide (L / samples.length = 0)) = true
      · rw [if_pos hb, hb]
      · rw [if_neg hb, Bool.eq_false_iff.mpr hb]
        have : (decide (L / (samples.length : ℚ) - 0 - max (0 - dot m.dim (fun _ => 0) fun _ => 0) 0 < -(1 / 10 ^ 5))) =
            false := by
          rw [decide_eq_false_iff_not, dot_zero_left]
          norm_num
          linarith
        rw [this]
        simp
    rw [hcb]
    have hiff : (decide (∀ k < m.dim, (0 : ℚ) = ((samples.map fun s => m.feat s.1 s.2 s.2 k).sum -
          (samples.map fun s => m.feat s.1 (yh s) s.2 k).sum) / samples.length) && decide (L / samples.length = 0)) = true ↔
        L = 0 ∧ ∀ k < m.dim, (samples.map fun s => m.feat s.1 s.2 s.2 k).sum =
        (samples.map fun s => m.feat s.1 (yh s) s.2 k).sum := by
      rw [Bool.and_eq_true, decide_eq_true_iff, decide_eq_true_iff, and_comm]
      refine and_congr ?_ (forall₂_congr fun k _ => ?_)
      · rw [div_eq_zero_iff, or_iff_left hn]
      · rw [eq_comm, div_eq_zero_iff, or_iff_left hn, sub_eq_zero]
    rw [← hiff]
    generalize (decide (∀ k < m.dim, (0 : ℚ) = ((samples.map fun s => m.feat s.1 s.2 s.2 k).sum -
          (samples.map fun s => m.feat s.1 (yh s) s.2 k).sum) / samples.length) && decide (L / samples.length = 0)) = b
    cases b <;> simp
  have hRHS : (∃ s ∈ samples, m.lossOf s.2 (yh s) ≠ 0) ∨ (∃ k < m.dim, (samples.map fun s => m.feat s.1 s.2 s.2 k).sum ≠
          (samples.map fun s => m.feat s.1 (yh s) s.2 k).sum) ↔
      findNew o.cfg st (jointFeatureGt m samples) samples ≠ .ok none := by
    rw [Ne, hfn, hLzero]
    push Not
    constructor
    · rintro (⟨s, hs, h⟩ | h) h0
      · exact absurd (h0 s hs) h
      · exact h
    · intro h
      by_cases h0 : ∀ s ∈ samples, m.lossOf s.2 (yh s) = 0
      · exact .inr (h h0)
      · push Not at h0
        exact .inl h0
  change _ ↔ o.cfg.maxIter ≠ 0 ∧ ((∃ s ∈ samples, m.lossOf s.2 (yh s) ≠ 0) ∨ (∃ k < m.dim,
    (samples.map fun s => m.feat s.1 s.2 s.2 k).sum ≠ (samples.map fun s => m.feat s.1 (yh s) s.2 k).sum))
  rw [hRHS]
  have hunf : OneSlack.fit m qp eq none (fun _ => none) o samples warm =
      match loop qp eq none o.cfg samples (jointFeatureGt m samples) (fun _ => none) o.cfg.maxIter 0 st with
      | .error err => .error err
      | .ok st => match objectivePrimal st.model st.w samples o.cfg.C false with
        | .error err => .error err
        | .ok primal => match st.objective with
          | none => .error .unboundLocalError
          | some obj => .ok ⟨o.cfg, some ⟨st.w, if st.shared then some st.constraints else o.attrs.bind (·.constraints),
            st.alphas, st.objectiveCurve ++ [obj], st.primalCurve ++ [primal], st.cachedFlags ++ [false],
            st.cache⟩, st.lossCurve⟩ := by
    unfold OneSlack.fit
    rw [hs]
    rfl
  have hres : ∀ st', loop qp eq none o.cfg samples (jointFeatureGt m samples) (fun _ => none) o.cfg.maxIter 0 st = .ok st' →
      ((∃ o', OneSlack.fit m qp eq none (fun _ => none) o samples warm = .ok o') ↔ st'.objective ≠ none) := by
    intro st' hl
    rw [hunf, hl]
    simp only [objectivePrimal_ok _ _ _ _ _ hne]
    cases st'.objective with
    | none => simp
    | some v => simp
  obtain ⟨st', hl, -, -⟩ := loop_total hqp hcomp heq none hC hneg hthr hbr samples (jointFeatureGt m samples)
    o.cfg.maxIter 0 st hI
  rw [hres st' hl]
  cases hmi : o.cfg.maxIter with
  | zero =>
    rw [hmi] at hl
    cases hl
    simp [hob]
  | succ n =>
    rw [hmi] at hl
    have hl0 := hl
    unfold loop at hl
    obtain ⟨r, hr, -⟩ := findNew_total o.cfg hbr st (jointFeatureGt m samples) samples
    cases r with
    | none =>
      have hit : iteration qp eq none o.cfg samples (jointFeatureGt m samples) 0 none st = .ok (st, false) := by
        unfold iteration
        rw [if_neg (by simp), hfc, hr]
        simp only
        cases st.switched <;> rfl
      rw [hit] at hl
      cases hl
      simp [hob, hr]
    | some f =>
      obtain ⟨st1, b, h1, h2, h3⟩ := iteration_total hqp hcomp heq none hC hneg hthr hbr samples (jointFeatureGt m samples) 0
        st hI
      have h1' := h1
      unfold iteration at h1'
      rw [if_neg (by simp), hfc, hr] at h1'
      simp only at h1'
      have hob1 : st1.objective ≠ none := by
        split at h1'
        · cases h1'
        · exact addConstraint_objective h1'
      rw [h1] at hl
      refine iff_of_true ?_ ⟨by omega, by rw [hr]; simp⟩
      cases b with
      | false => cases hl; exact hob1
      | true => exact loop_objective n 1 hob1 hl

/-- **C67, when a fresh learner returns.** In the situation of `C67_returns_partial` (without a second inference
method), with `tol ≤ 1` and losses that are not negative: training a fresh learner returns if and only if `max_iter` is
positive and loss-augmented inference at zero weights returns outputs of which one has a loss, or whose joint features
do not sum up to those of the true outputs. -/
theorem C67_returns_iff_partial (m : SModel X Y) (qp : QP.Solver) (hqp : QP.Exact qp) (hcomp : QP.Complete qp)
    (eq : Y → Y → Except PyErr Bool) (o : Obj Y) (heq : o.cfg.inferenceCache = 0 ∨ ∀ a b, ∃ r, eq a b = .ok r) (hC : 0 ≤ o.cfg.C)
    (hneg : o.cfg.negativity = none) (hthr : o.cfg.inactiveThreshold ≤ 1) (hbr : o.cfg.breakOnBad = false)
    (htol : o.cfg.tol ≤ 1) (samples : List (X × Y)) (hne : samples ≠ [])
    (hloss : ∀ s ∈ samples, 0 ≤ m.lossOf s.2 (m.lossAug s.1 s.2 (fun _ => 0) true)) :
    (∃ o', OneSlack.fit m qp eq none (fun _ => none) o samples .no = .ok o') ↔
      o.cfg.maxIter ≠ 0 ∧ ((∃ s ∈ samples, m.lossOf s.2 (m.lossAug s.1 s.2 (fun _ => 0) true) ≠ 0) ∨
        ∃ k < m.dim, (samples.map fun s => m.feat s.1 s.2 s.2 k).sum ≠
          (samples.map fun s => m.feat s.1 (m.lossAug s.1 s.2 (fun _ => 0) true) s.2 k).sum) :=
  C67_soft_iff_partial m qp hqp hcomp eq o heq hC hneg hthr hbr htol samples hne .no (.inl rfl) hloss

/-- All hypotheses can be met: with an ideal solver, training the example returns. -/
example : ∃ o', OneSlack.fit exampleTable QP.ideal natEq none (fun _ => none) (exampleOS 10 1 0 50) [((), 0)] .no = .ok o' :=
  (C67_returns_iff_partial exampleTable QP.ideal QP.ideal_exact.1 QP.ideal_exact.2 natEq (exampleOS 10 1 0 50)
    (.inr fun _ _ => ⟨_, rfl⟩) (by decide +kernel) rfl (by decide +kernel) rfl (by decide +kernel) [((), 0)] (by simp)
    (by decide +kernel)).mpr (by decide +kernel)

/-- ... and continuing that training either works or fails with `UnboundLocalError`. -/
example : ∃ o a, OneSlack.fit exampleTable QP.ideal natEq none (fun _ => none) (exampleOS 10 1 0 50) [((), 0)] .no = .ok o ∧
    o.attrs = some a ∧ Resumable a := by
  have h := (C67_returns_iff_partial exampleTable QP.ideal QP.ideal_exact.1 QP.ideal_exact.2 natEq (exampleOS 10 1 0 50)
    (.inr fun _ _ => ⟨_, rfl⟩) (by decide +kernel) rfl (by decide +kernel) rfl (by decide +kernel) [((), 0)] (by simp)
    (by decide +kernel)).mpr (by decide +kernel)
  rcases C67_returns_partial exampleTable QP.ideal QP.ideal_exact.1 QP.ideal_exact.2 natEq none (exampleOS 10 1 0 50)
    (.inr fun _ _ => ⟨_, rfl⟩) (by decide +kernel) rfl (by decide +kernel) rfl [((), 0)] (by simp) .no (.inl rfl) with
    ⟨o, a, h1, -, h2, h3⟩ | h1
  · exact ⟨o, a, h1, h2, h3⟩
  · obtain ⟨o', h⟩ := h
    rw [h] at h1
    cases h1

end Verif.Props
