import Verif.Props.C121

/-!
# C166: a soft warm start of `OneSlackSSVM` with an inference cache

`fit(X, Y, warm_start='soft')` forgets weights and constraints, but keeps the inference cache, in which losses for the previous
labels are stored. `LatentSSVM` uses it with completions that change from call to call.
-/

namespace Verif.Props

open Finset Verif.Spec Verif.Learner Verif.LatentSSVM

variable {X Y H : Type}

/-! ### caches of data with other labels -/

/-- The two data sets have the same inputs, and admissible outputs cost the same against the labels of both. -/
def SameLosses (P : Problem X Y) (samples samples' : List (X × Y)) : Prop :=
  List.Forall₂ (fun s t => s.1 = t.1 ∧ ∀ ŷ ∈ P.outputs s.1, P.loss s.2 ŷ = P.loss t.2 ŷ) samples samples'

theorem linked_relabel {m : SModel X Y} {outputs : X → Set Y} {samples samples' : List (X × Y)}
    (hs : SameLosses (problemOf m outputs) samples samples') {cache : List (List (OneSlack.Cached Y))}
    (h : Linked m (fun x _ ŷ => ŷ ∈ outputs x) samples cache) : Linked m (fun x _ ŷ => ŷ ∈ outputs x) samples' cache := by
  unfold SameLosses at hs
  unfold Linked at h ⊢
  induction hs generalizing cache with
  | nil => cases h; exact .nil
  | @cons s t ss ts hst _ ih =>
    cases h with
    | cons h1 h2 =>
      refine .cons (fun e he => ?_) (ih h2)
      obtain ⟨e1, e2, e3⟩ := h1 e he
      exact ⟨hst.1 ▸ e1, hst.1 ▸ e2, e3.trans (hst.2 _ e1)⟩

/-- Two completions of the same label. -/
example : SameLosses (problemOf hiddenModel fun _ => {h | h < 3}) [((), 0)] [((), 1)] := by
  refine .cons ⟨rfl, fun ŷ _ => ?_⟩ .nil
  change (if ((0 : ℕ) = 2) ↔ (ŷ = 2) then (0 : ℚ) else 1) = if ((1 : ℕ) = 2) ↔ (ŷ = 2) then 0 else 1
  simp

/-- **C166, other labels.** Let `fit(X, Y)` succeed - fresh, or continued from sound attributes - and let the admissible outputs
cost the same against the labels `Y'` as against `Y`. What `fit(X, Y', warm_start='soft')` takes over is sound for `(X, Y')`: the
whole cache, whose losses were computed for `Y`. -/
theorem C166_cache (m : SModel X Y) (outputs : X → Set Y) (qp : QP.Solver)
    (hqp : QP.Sound qp) (eq : Y → Y → Except PyErr Bool)
    (alt : Option ((X → Y → W → Bool → Y) × (X → W → Y))) (intr : ℕ → Option OneSlack.Phase) (o o' : OneSlack.Obj Y)
    (samples samples' : List (X × Y)) (hC : 0 < o.cfg.C) (hne : samples ≠ [])
    (hl : (problemOf m outputs).Labelled samples)
    (hla : ∀ s ∈ samples, ∀ w, m.lossAug s.1 s.2 w true ∈ outputs s.1)
    (halt : ∀ p, alt = some p → ∀ s ∈ samples, ∀ w, p.1 s.1 s.2 w true ∈ outputs s.1)
    (hcr : o.cfg.inferenceCache = 0 ∨ m.rescaleC = false) (warm : OneSlack.Warm)
    (hw : warm = .no ∨ ∀ a, o.attrs = some a → Reusable m outputs (fun x _ ŷ => ŷ ∈ outputs x) samples warm a)
    (hi : ∀ it, intr it ≠ some .after) (hs : SameLosses (problemOf m outputs) samples samples')
    (h : OneSlack.fit m qp eq alt intr o samples warm = .ok o') :
    ∀ a, o'.attrs = some a → Reusable m outputs (fun x _ ŷ => ŷ ∈ outputs x) samples' .soft a := by
  obtain ⟨a, new, h1, -, -, -, -, h2⟩ := C39_appended m outputs (fun x _ ŷ => ŷ ∈ outputs x) qp hqp eq alt intr o o' samples hC hne
    (fun _ _ _ h => h) hl hla halt hcr warm hw (.inl hi) h
  intro a' ha'
  rw [h1, Option.some.injEq] at ha'
  subst ha'
  exact ⟨fun h => by simp at h, fun c hc => ⟨(h2 c hc).1, linked_relabel hs (h2 c hc).2⟩⟩

/-! ### a soft warm start returns -/

/-- **C166, no new failures.** If a fresh `fit` on some data returns, so does a soft warm start of a learner that was trained on
other data, whatever its cache holds. -/
theorem C166_returns (m : SModel X Y) (qp : QP.Solver) (hqp : QP.Exact qp) (hcomp : QP.Complete qp)
    (eq : Y → Y → Except PyErr Bool) (o : OneSlack.Obj Y) (heq : o.cfg.inferenceCache = 0 ∨ ∀ a b, ∃ r, eq a b = .ok r)
    (hC : 0 ≤ o.cfg.C) (hneg : o.cfg.negativity = none) (hthr : o.cfg.inactiveThreshold ≤ 1) (hbr : o.cfg.breakOnBad = false)
    (samples : List (X × Y)) (hne : samples ≠ []) (a : OneSlack.Attrs Y) (ha : o.attrs = some a) (hres : Resumable a)
    (hfresh : ∃ o1, OneSlack.fit m qp eq none (fun _ => none) o samples .no = .ok o1) :
    ∃ o' a', OneSlack.fit m qp eq none (fun _ => none) o samples .soft = .ok o' ∧ o'.cfg = o.cfg ∧ o'.attrs = some a' ∧
      Resumable a' := by
  rcases C67_returns_partial m qp hqp hcomp eq none o heq hC hneg hthr hbr samples hne .soft (.inr ⟨a, ha, hres⟩) with h | h
  · exact h
  · exfalso
    obtain ⟨o1, hfresh⟩ := hfresh
    obtain ⟨st0, s0, m0, w0, k0, l0, c0, b0⟩ : ∃ st, OneSlack.start m o .no = .ok st ∧ st.model = m ∧ st.w = (fun _ => 0) ∧
        st.constraints = [((fun _ => 0), 0)] ∧ st.lastSlack = -1 ∧ st.cache = none ∧ st.objective = none :=
      ⟨_, rfl, rfl, rfl, rfl, rfl, rfl, rfl⟩
    obtain ⟨st1, s1, m1, w1, k1, l1, hlive⟩ : ∃ st, OneSlack.start m o .soft = .ok st ∧ st.model = m ∧ st.w = (fun _ => 0) ∧
        st.constraints = [((fun _ => 0), 0)] ∧ st.lastSlack = -1 ∧ Live st := by
      unfold OneSlack.start
      rw [ha]
      exact ⟨_, rfl, rfl, rfl, rfl, rfl, ⟨⟨rfl, by simp⟩, fun c hc => ⟨hres.2.1 c hc, hres.2.2.1, hres.2.2.2⟩⟩⟩
    have hf : OneSlack.findNew o.cfg st1 (OneSlack.jointFeatureGt m samples) samples =
        OneSlack.findNew o.cfg st0 (OneSlack.jointFeatureGt m samples) samples := by
      unfold OneSlack.findNew
      rw [m0, w0, k0, l0, m1, w1, k1, l1]
    have hc0 : OneSlack.fromCache o.cfg st0 (OneSlack.jointFeatureGt m samples) samples.length = .ok none := by
      unfold OneSlack.fromCache
      rw [c0]
    -- the first search of the fresh fit is successful
    have hn : ∃ n, o.cfg.maxIter = n + 1 := by
      cases hm : o.cfg.maxIter with
      | zero =>
        unfold OneSlack.fit at hfresh
        rw [s0, hm] at hfresh
        simp only [OneSlack.loop, b0] at hfresh
        split at hfresh
        · cases hfresh
        · cases hfresh
      | succ n => exact ⟨n, rfl⟩
    obtain ⟨n, hn⟩ := hn
    have hsome : OneSlack.findNew o.cfg st0 (OneSlack.jointFeatureGt m samples) samples ≠ .ok none := by
      intro h0
      have hit : OneSlack.iteration qp eq none o.cfg samples (OneSlack.jointFeatureGt m samples) 0 none st0 = .ok (st0, false) := by
        unfold OneSlack.iteration
        rw [if_neg (by simp), hc0, h0]
        simp only
        cases st0.switched <;> rfl
      unfold OneSlack.fit at hfresh
      rw [s0, hn] at hfresh
      simp only [OneSlack.loop, hit, b0] at hfresh
      split at hfresh
      · cases hfresh
      · cases hfresh
    -- so the first iteration of the soft start adds a constraint
    obtain ⟨st2, b, h1, -, -⟩ := iteration_total hqp hcomp heq none hC hneg hthr hbr samples (OneSlack.jointFeatureGt m samples) 0
      st1 hlive
    have hob : st2.objective ≠ none := by
      have h1' := h1
      unfold OneSlack.iteration at h1'
      rw [if_neg (by simp), hf] at h1'
      split at h1'
      · cases h1'
      · exact addConstraint_objective h1'
      · split at h1'
        · cases h1'
        · split at h1'
          · cases h1'
          · exact addConstraint_objective h1'
        · rename_i h0
          exact absurd h0 hsome
    obtain ⟨st3, hl, -, -⟩ := loop_total hqp hcomp heq none hC hneg hthr hbr samples (OneSlack.jointFeatureGt m samples)
      o.cfg.maxIter 0 st1 hlive
    have hob3 : st3.objective ≠ none := by
      rw [hn] at hl
      unfold OneSlack.loop at hl
      rw [h1] at hl
      cases b with
      | false => cases hl; exact hob
      | true => exact loop_objective n 1 hob hl
    unfold OneSlack.fit at h
    rw [s1] at h
    simp only [hl, objectivePrimal_ok _ _ _ _ _ hne] at h
    split at h
    · rename_i h0
      exact hob3 h0
    · cases h

/-! ### training continues to work -/

/-- **C166, a soft warm start trains.** With an exact QP solver, `inactive_window=0` and enough iterations for its tolerance: a
soft warm start with a cache that is sound for the data returns weights whose risk is at most `C n tol` above the minimum. -/
theorem C166_trains (m : SModel X Y) (outputs : X → Set Y) (samples : List (X × Y)) (R S : ℚ)
    (ht : Trainable m outputs samples R S) (qp : QP.Solver) (hqp : QP.Exact qp) (hcomp : QP.Complete qp)
    (eq : Y → Y → Except PyErr Bool) (o : OneSlack.Obj Y) (heq : o.cfg.inferenceCache = 0 ∨ ∀ a b, ∃ r, eq a b = .ok r)
    (hC : 0 < o.cfg.C) (htol : 0 < o.cfg.tol) (htol1 : o.cfg.tol ≤ 1) (hneg : o.cfg.negativity = none)
    (hthr : o.cfg.inactiveThreshold ≤ 1) (hbr : o.cfg.breakOnBad = false) (hwin : o.cfg.inactiveWindow = 0)
    (hmi : o.cfg.maxIter ≠ 0) (μ : ℚ) (hμ : 0 ≤ μ) (hμ1 : 2 * μ ≤ o.cfg.C * samples.length * o.cfg.tol)
    (hμ2 : 2 * R * μ ≤ o.cfg.tol ^ 2) (hmax : o.cfg.C * S < ((o.cfg.maxIter : ℚ) - 1) * μ)
    (a : OneSlack.Attrs Y) (ha : o.attrs = some a) (hres : Resumable a)
    (hreuse : Reusable m outputs (fun x _ ŷ => ŷ ∈ outputs x) samples .soft a) :
    ∃ o' a', OneSlack.fit m qp eq none (fun _ => none) o samples .soft = .ok o' ∧ o'.cfg = o.cfg ∧ o'.attrs = some a' ∧
      Resumable a' ∧ (problemOf m outputs).NearOptimal o.cfg.C samples (o.cfg.C * samples.length * o.cfg.tol) a'.w := by
  obtain ⟨o1, -, hfresh, -⟩ := C110_oneslack m outputs samples R S ht qp hqp hcomp eq o heq hC htol htol1 hneg hthr hbr hwin hmi μ hμ
    hμ1 hμ2 hmax
  obtain ⟨o', a', h1, h2, h3, h4⟩ := C166_returns m qp hqp hcomp eq o heq hC.le hneg hthr hbr samples ht.ne a ha hres ⟨o1, hfresh⟩
  obtain ⟨B, hB, hBle⟩ := ht.zero hC.le
  obtain ⟨a'', p, e1, e2, e3⟩ := C87_reused_converges m outputs qp hqp eq none o o' samples hC htol hneg hwin ht.labelled
    (fun s hs w => (ht.exact_lossAug s.1 s.2 w (ht.labelled s hs).1 (ht.labelled s hs).2).1) (fun _ => ht.exact_lossAug) (by simp)
    (.inr ht.plain) (QP.complete_first hqp hcomp _ _) R ht.range_nonneg ht.range μ hμ hμ1 hμ2 _ B hB
    (by rw [if_pos rfl, sub_zero]; linarith) .soft (by simp)
    (.inr fun b hb => by rw [ha, Option.some.injEq] at hb; exact hb ▸ hreuse) h1
  rw [h3, Option.some.injEq] at e1
  subst e1
  exact ⟨o', a', h1, h2, h3, h4, p, e2, e3⟩

theorem sameLosses_completions {P : Problem X H} {completions : X → Y → Set H} {samples : List (X × Y)}
    (hlab : P.LabelOnly completions samples) {hs hs' : List H} (h : List.Forall₂ (fun s h => h ∈ completions s.1 s.2) samples hs)
    (h' : List.Forall₂ (fun s h => h ∈ completions s.1 s.2) samples hs') :
    SameLosses P ((samples.map Prod.fst).zip hs) ((samples.map Prod.fst).zip hs') := by
  unfold SameLosses
  induction h generalizing hs' with
  | nil => cases h'; exact .nil
  | @cons s c ss cs hc _ ih =>
    cases h' with
    | cons hc' h2 =>
      exact .cons ⟨rfl, fun ŷ _ => ((hlab s (by simp) c hc).2 _ hc' ŷ).1⟩ (ih (fun t ht => hlab t (by simp [ht])) h2)

/-- **C166, LatentSSVM with a caching OneSlackSSVM.** The statement of `C121_one_slack` for any `inference_cache`: although the
cache is kept when the completions change, training problems with hidden variables are solved up to `C n tol` in every outer
iteration, because losses only depend on the label. -/
theorem C166_latent (L : LModel X Y H) (qp : QP.Solver) (hqp : QP.Exact qp) (hcomp : QP.Complete qp)
    (eq : H → H → Except PyErr Bool) (same : H → H → Bool) (n : ℕ)
    (samples : List (X × Y)) (hInit : Option (List H)) (outputs : X → Set H) (completions : X → Y → Set H)
    (hlab : (problemOf L.m outputs).LabelOnly completions samples)
    (good : (ℕ → ℚ) → Prop)
    (hlat : ∀ w, good w → (problemOf L.m outputs).ExactCompletionAt completions L.latent samples w)
    (hinit : List.Forall₂ (fun s h => h ∈ completions s.1 s.2) samples (hInit.getD (L.initLatent samples)))
    (R S : ℚ) (htrain : ∀ hs, List.Forall₂ (fun s h => h ∈ completions s.1 s.2) samples hs →
      Trainable L.m outputs ((samples.map Prod.fst).zip hs) R S)
    (o : OneSlack.Obj H)
    (hgood : ∀ hs, List.Forall₂ (fun s h => h ∈ completions s.1 s.2) samples hs → ∀ w,
      (problemOf L.m outputs).NormNear o.cfg.C ((samples.map Prod.fst).zip hs) (o.cfg.C * samples.length * o.cfg.tol) w → good w)
    (heq : o.cfg.inferenceCache = 0 ∨ ∀ a b, ∃ r, eq a b = .ok r) (hC : 0 < o.cfg.C) (htol : 0 < o.cfg.tol)
    (htol1 : o.cfg.tol ≤ 1) (hneg : o.cfg.negativity = none) (hthr : o.cfg.inactiveThreshold ≤ 1)
    (hbr : o.cfg.breakOnBad = false) (hwin : o.cfg.inactiveWindow = 0) (hmi : o.cfg.maxIter ≠ 0) (μ : ℚ) (hμ : 0 ≤ μ)
    (hμ1 : 2 * μ ≤ o.cfg.C * samples.length * o.cfg.tol) (hμ2 : 2 * R * μ ≤ o.cfg.tol ^ 2)
    (hmax : o.cfg.C * S < ((o.cfg.maxIter : ℚ) - 1) * μ) :
    ∃ st fl, LatentSSVM.fit L (oneSlackBase L.m qp eq) same (n + 1) o samples hInit = .ok (st, fl) ∧
      LatentDescent L (oneSlackBase L.m qp eq) same (problemOf L.m outputs) o.cfg.C (o.cfg.C * samples.length * o.cfg.tol)
        samples completions (n + 1) st fl ∧
      ∀ a ∈ st.hist, (problemOf L.m outputs).NearOptimal o.cfg.C ((samples.map Prod.fst).zip a.1)
        (o.cfg.C * samples.length * o.cfg.tol) ((oneSlackBase (X := X) L.m qp eq).w a.2) := by
  have hLA := (htrain _ hinit).exact_lossAug
  suffices hsuf : ∃ st fl, LatentSSVM.fit L (oneSlackBase L.m qp eq) same (n + 1) o samples hInit = .ok (st, fl) ∧
      LatentDescent L (oneSlackBase L.m qp eq) same (problemOf L.m outputs) o.cfg.C (o.cfg.C * samples.length * o.cfg.tol)
        samples completions (n + 1) st fl ∧
      ∀ a ∈ st.hist, (problemOf L.m outputs).NearOptimal o.cfg.C ((samples.map Prod.fst).zip a.1)
        (o.cfg.C * samples.length * o.cfg.tol) ((oneSlackBase (X := X) L.m qp eq).w a.2) ∧
        good ((oneSlackBase (X := X) L.m qp eq).w a.2) by
    obtain ⟨st, fl, h1, h2, h3⟩ := hsuf
    exact ⟨st, fl, h1, h2, fun a ha => (h3 a ha).1⟩
  refine C121_latent L _ same n o samples hInit outputs completions _ _ hLA hlab good hlat hinit
    (fun warm b => b.cfg = o.cfg ∧ (warm = true → ∃ a, b.attrs = some a ∧ Resumable a ∧
      ∀ hs, List.Forall₂ (fun s h => h ∈ completions s.1 s.2) samples hs →
        Reusable L.m outputs (fun x _ ŷ => ŷ ∈ outputs x) ((samples.map Prod.fst).zip hs) .soft a))
    (fun hs b => (problemOf L.m outputs).NearOptimal o.cfg.C ((samples.map Prod.fst).zip hs)
        (o.cfg.C * samples.length * o.cfg.tol) ((oneSlackBase (X := X) L.m qp eq).w b) ∧
        good ((oneSlackBase (X := X) L.m qp eq).w b)) ⟨rfl, by simp⟩ (fun _ _ h => h.2) ?_
  intro b hs warm hI hmem
  suffices hsuf : ∃ b' a', OneSlack.fit L.m qp eq none (fun _ => none) b ((samples.map Prod.fst).zip hs)
        (if warm then .soft else .no) = .ok b' ∧ b'.cfg = o.cfg ∧ b'.attrs = some a' ∧ Resumable a' ∧
        (∀ hs', List.Forall₂ (fun s h => h ∈ completions s.1 s.2) samples hs' →
          Reusable L.m outputs (fun x _ ŷ => ŷ ∈ outputs x) ((samples.map Prod.fst).zip hs') .soft a') ∧
        (problemOf L.m outputs).NearOptimal o.cfg.C ((samples.map Prod.fst).zip hs)
          (o.cfg.C * samples.length * o.cfg.tol) a'.w by
    obtain ⟨b', a', h1, h2, h3, h4, h5, h6⟩ := hsuf
    have hw : (oneSlackBase (X := X) L.m qp eq).w b' = a'.w := by
      change (b'.attrs.map OneSlack.Attrs.w).getD _ = _
      rw [h3]; rfl
    have hg := hgood hs hmem _ (normNear_of_near hC.le (htrain hs hmem).labelled h6)
    rw [← hw] at hg h6
    exact ⟨b', h1, ⟨h2, fun _ => ⟨a', h3, h4, h5⟩⟩, latentNear_of_near hLA hlab (hlat _ hg) hC.le hmem h6, h6, hg⟩
  obtain ⟨hcfg, hw⟩ := hI
  have ht := htrain hs hmem
  have hlen : ((samples.map Prod.fst).zip hs).length = samples.length := by
    rw [List.length_zip, List.length_map, hmem.length_eq, min_self]
  -- caches can be used for all completions
  have hreuse : ∀ (warm' : OneSlack.Warm) (b' : OneSlack.Obj H) (a' : OneSlack.Attrs H), b'.attrs = some a' →
      (warm' = .no ∨ ∀ a, b.attrs = some a →
        Reusable L.m outputs (fun x _ ŷ => ŷ ∈ outputs x) ((samples.map Prod.fst).zip hs) warm' a) →
      OneSlack.fit L.m qp eq none (fun _ => none) b ((samples.map Prod.fst).zip hs) warm' = .ok b' →
      ∀ hs', List.Forall₂ (fun s h => h ∈ completions s.1 s.2) samples hs' →
        Reusable L.m outputs (fun x _ ŷ => ŷ ∈ outputs x) ((samples.map Prod.fst).zip hs') .soft a' := by
    intro warm' b' a' ha' hw' hfit hs' hmem'
    exact C166_cache L.m outputs qp hqp.1 eq none (fun _ => none) b b' _ _ (by rw [hcfg]; exact hC) ht.ne ht.labelled
      (fun s hs w => (ht.exact_lossAug s.1 s.2 w (ht.labelled s hs).1 (ht.labelled s hs).2).1) (by simp) (.inr ht.plain) warm' hw'
      (by simp) (sameLosses_completions hlab hmem hmem') hfit a' ha'
  cases warm with
  | false =>
    obtain ⟨b', a', hfit, ha', hnear⟩ := C110_oneslack L.m outputs _ R S ht qp hqp hcomp eq b (by rw [hcfg]; exact heq)
      (by rw [hcfg]; exact hC) (by rw [hcfg]; exact htol) (by rw [hcfg]; exact htol1) (by rw [hcfg]; exact hneg)
      (by rw [hcfg]; exact hthr) (by rw [hcfg]; exact hbr) (by rw [hcfg]; exact hwin) (by rw [hcfg]; exact hmi) μ hμ
      (by rw [hcfg, hlen]; exact hμ1) (by rw [hcfg]; exact hμ2) (by rw [hcfg]; exact hmax)
    rw [hcfg, hlen] at hnear
    rcases C67_returns_partial L.m qp hqp hcomp eq none b (by rw [hcfg]; exact heq) (by rw [hcfg]; exact hC.le)
      (by rw [hcfg]; exact hneg) (by rw [hcfg]; exact hthr) (by rw [hcfg]; exact hbr) ((samples.map Prod.fst).zip hs) ht.ne .no
      (.inl rfl) with ⟨b1, a1, e1, e2, e3, e4⟩ | e1
    · rw [hfit, Except.ok.injEq] at e1
      subst e1
      rw [ha', Option.some.injEq] at e3
      subst e3
      exact ⟨b', a', hfit, e2.trans hcfg, ha', e4, hreuse .no b' a' ha' (.inl rfl) hfit, hnear⟩
    · rw [hfit] at e1
      cases e1
  | true =>
    obtain ⟨a0, ha0, hres, hr0⟩ := hw rfl
    obtain ⟨b', a', hfit, e2, ha', e4, hnear⟩ := C166_trains L.m outputs _ R S ht qp hqp hcomp eq b (by rw [hcfg]; exact heq)
      (by rw [hcfg]; exact hC) (by rw [hcfg]; exact htol) (by rw [hcfg]; exact htol1) (by rw [hcfg]; exact hneg)
      (by rw [hcfg]; exact hthr) (by rw [hcfg]; exact hbr) (by rw [hcfg]; exact hwin) (by rw [hcfg]; exact hmi) μ hμ
      (by rw [hcfg, hlen]; exact hμ1) (by rw [hcfg]; exact hμ2) (by rw [hcfg]; exact hmax) a0 ha0 hres (hr0 hs hmem)
    rw [hcfg, hlen] at hnear
    refine ⟨b', a', hfit, e2.trans hcfg, ha', e4, hreuse .soft b' a' ha' (.inr fun a ha => ?_) hfit, hnear⟩
    rw [ha0, Option.some.injEq] at ha
    exact ha ▸ hr0 hs hmem

/-- The hypotheses can be met: the model of C57 with `inference_cache=50`, with any number of outer iterations. -/
example (n : ℕ) : ∃ st fl, LatentSSVM.fit hiddenLatent (oneSlackBase hiddenModel QP.ideal natEq) natBeq (n + 1)
      (exampleOS 3000000 1 50 0) [((), 0)] none = .ok (st, fl) ∧
    LatentDescent hiddenLatent (oneSlackBase hiddenModel QP.ideal natEq) natBeq (problemOf hiddenModel fun _ => {h | h < 3}) 1
      (1 * (1 : ℕ) * (1 / 1000)) [((), 0)] hiddenCompletions (n + 1) st fl ∧
    ∀ a ∈ st.hist, (problemOf hiddenModel fun _ => {h | h < 3}).NearOptimal 1 (([((), 0)].map Prod.fst).zip a.1)
      (1 * (1 : ℕ) * (1 / 1000)) ((oneSlackBase (X := Unit) hiddenModel QP.ideal natEq).w a.2) :=
  C166_latent hiddenLatent QP.ideal QP.ideal_exact.1 QP.ideal_exact.2 natEq natBeq n [((), 0)] none
    _ hiddenCompletions hidden_labelOnly (fun _ => True) (fun w _ => hidden_completion.at w) (.cons (by decide : (0 : ℕ) < 2) .nil) 1 1
    (by
      intro hs hmem
      cases hmem with
      | @cons s h l l' hh h2 =>
        cases h2
        exact hidden_trainable hh)
    (exampleOS 3000000 1 50 0) (fun _ _ _ _ => trivial) (.inr fun _ _ => ⟨_, rfl⟩) (by decide +kernel) (by decide +kernel)
    (by decide +kernel) rfl (by decide +kernel) rfl rfl
    (by decide +kernel) (1 / 2000000) (by norm_num)
    (by
      change 2 * (1 / 2000000 : ℚ) ≤ 1 * ((1 : ℕ) : ℚ) * (1 / 1000)
      norm_num)
    (by
      change 2 * 1 * (1 / 2000000 : ℚ) ≤ (1 / 1000) ^ 2
      norm_num)
    (by
      change (1 : ℚ) * 1 < (((3000000 : ℕ) : ℚ) - 1) * (1 / 2000000)
      norm_num)

/-! ### when losses change -/

/-- solver for the problems that occur. -/
def staleSolver : QP.Solver := tableSolver 1 1
  [([(vec2 0 0, 0), (vec2 2 0, 1)], [3 / 4, 1 / 4], 0),
   ([(vec2 0 0, 0), (vec2 (-2) 0, 1)], [3 / 4, 1 / 4], 0),
   ([(vec2 0 0, 0), (vec2 (-2) 0, 1), (vec2 0 0, 1)], [0, 0, 1], 1)]

/-- **C166 is violated when losses change.** One sample whose label is changed between two fits, `inference_cache=1`, all other
parameters as usual, exact QP solver and exact inference. The cache still says that the output `1` has loss 1, although `1` is the
label now. The soft warm start returns zero weights, with risk 1, and a final dual objective of 1, while a fresh `fit` of the same
learner on the same data returns weights with risk `1/8`; so the dual objective is no lower bound. -/
theorem C166_violated_labels :
    QP.Exact staleSolver ∧
    (problemOf exampleTable (fun _ => {y | y < 2})).ExactLossAug (fun x y w => exampleTable.lossAug x y w true) ∧
    (problemOf exampleTable (fun _ => {y | y < 2})).Labelled [((), 0)] ∧
    (problemOf exampleTable (fun _ => {y | y < 2})).Labelled [((), 1)] ∧
    ∃ o o2 o3 a2 a3, OneSlack.fit exampleTable staleSolver natEq none (fun _ => none) (exampleOS 10 1 1 0) [((), 0)] .no = .ok o ∧
      OneSlack.fit exampleTable staleSolver natEq none (fun _ => none) o [((), 1)] .soft = .ok o2 ∧ o2.attrs = some a2 ∧
      OneSlack.fit exampleTable staleSolver natEq none (fun _ => none) o [((), 1)] .no = .ok o3 ∧ o3.attrs = some a3 ∧
      a2.w 0 = 0 ∧ (problemOf exampleTable (fun _ => {y | y < 2})).IsObjective 1 [((), 1)] a2.w 1 ∧
      (problemOf exampleTable (fun _ => {y | y < 2})).IsObjective 1 [((), 1)] a3.w (1 / 8) ∧
      a2.objectiveCurve.getLast? = some 1 ∧
      ¬ (problemOf exampleTable (fun _ => {y | y < 2})).LowerBound 1 [((), 1)] 1 := by
  have hl : ∀ y < 2, (problemOf exampleTable (fun _ => {y | y < 2})).Labelled [((), y)] := by
    intro y hy s hs
    rw [List.mem_singleton] at hs
    subst hs
    exact ⟨hy, by change (if y = y then (0 : ℚ) else 1) = 0; rw [if_pos rfl]⟩
  have hLA := tableModel_exact 1 2 (fun y => if y = 1 then vec2 2 0 else vec2 0 0) (fun _ => 1) true
  refine ⟨tableSolver_exact _ _ _ (by decide +kernel), hLA, hl 0 (by norm_num), hl 1 (by norm_num), ?_⟩
  have key : (do
      let o ← OneSlack.fit exampleTable staleSolver natEq none (fun _ => none) (exampleOS 10 1 1 0) [((), 0)] .no
      let o2 ← OneSlack.fit exampleTable staleSolver natEq none (fun _ => none) o [((), 1)] .soft
      let o3 ← OneSlack.fit exampleTable staleSolver natEq none (fun _ => none) o [((), 1)] .no
      match o2.attrs, o3.attrs with
      | some a2, some a3 =>
        let p2 ← objectivePrimal exampleTable a2.w [((), 1)] 1 false
        let p3 ← objectivePrimal exampleTable a3.w [((), 1)] 1 false
        pure (a2.w 0, p2, p3, a2.objectiveCurve.getLast?)
      | _, _ => .error .valueError) = .ok (0, 1, 1 / 8, some 1) := by decide +kernel
  obtain ⟨o, ho, key⟩ := bind_eq_ok.mp key
  obtain ⟨o2, ho2, key⟩ := bind_eq_ok.mp key
  obtain ⟨o3, ho3, key⟩ := bind_eq_ok.mp key
  cases ha2 : o2.attrs with
  | none => rw [ha2] at key; cases key
  | some a2 =>
    cases ha3 : o3.attrs with
    | none => rw [ha2, ha3] at key; cases key
    | some a3 =>
      rw [ha2, ha3] at key
      obtain ⟨p2, hp2, key⟩ := bind_eq_ok.mp key
      obtain ⟨p3, hp3, key⟩ := bind_eq_ok.mp key
      simp only [pure, Except.pure, Except.ok.injEq, Prod.mk.injEq] at key
      obtain ⟨k1, rfl, rfl, k4⟩ := key
      have hobj : ∀ w p, objectivePrimal exampleTable w [((), 1)] 1 false = .ok p →
          (problemOf exampleTable (fun _ => {y | y < 2})).IsObjective 1 [((), 1)] w p := by
        intro w p hp
        obtain ⟨obj, hob, hiso⟩ := C30_objective exampleTable (fun _ => {y | y < 2}) hLA [((), 1)] (hl 1 (by norm_num)) (by simp)
          w 1 false
        rw [hp, Except.ok.injEq] at hob
        rw [hob]
        exact hiso
      refine ⟨o, o2, o3, a2, a3, ho, ho2, ha2, ho3, ha3, k1, hobj _ _ hp2, hobj _ _ hp3, k4, fun hlb => ?_⟩
      have := hlb _ _ (hobj _ _ hp3)
      norm_num at this

end Verif.Props
