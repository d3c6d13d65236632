import Verif.Lemmas.BallLatent
import Verif.Lemmas.Span

/-!
# LatentSSVM with a model whose inference is exact only on a linear space of weights that contains all joint features
-/

namespace Verif.Props

open Finset Verif.Spec Verif.Learner Verif.LatentSSVM Verif.Lemmas

variable {σ X Y H : Type}

section agree

variable {V : W → Prop} {m m' : SModel X Y} {samples : List (X × Y)}

/-- n-slack training, from given constraints in `V`, of two models that agree on `V`. -/
theorem agree_n_fit_given (hV : LinearSpace V) (h : Agree V samples m m') (hm : SpanIn V m samples) {qp : QP.Solver}
    {eq : Y → Y → Bool} {intr : ℕ → ℕ → Option OneSlack.Phase} {o : NSlack.Obj Y} {cs : Option (List (List (NSlack.NCon Y)))}
    (hcs : ∀ l, cs = some l → ∀ c ∈ l, ∀ d ∈ c, V d.dj) :
    NSlack.fit m' qp eq none intr o samples cs = NSlack.fit m qp eq none intr o samples cs := by
  have hs : NSlack.start m' qp o samples.length cs = (NSlack.start m qp o samples.length cs).map (nWith m') := by
    unfold NSlack.start
    split
    · rfl
    · rw [h.dim]
      split
      · rfl
      · split
        · rfl
        · split
          · split <;> rfl
          · split
            · rfl
            · exact h.n_solve (st := ⟨m, _, _, _, _, _, _, _, _⟩) rfl
  have hsm : ∀ st, NSlack.start m qp o samples.length cs = .ok st → st.model = m := by
    intro st hst
    unfold NSlack.start at hst
    split at hst
    · cases hst
      rfl
    · split at hst
      · cases hst
      · split at hst
        · cases hst
        · split at hst
          · split at hst <;> cases hst
          · split at hst
            · cases hst
            · exact n_solve_model hst
  unfold NSlack.fit
  rw [hs]
  cases hst : NSlack.start m qp o samples.length cs with
  | error err => rfl
  | ok st =>
    have hin : NIn V samples none st := n_start_in hV hm (by simp [AltIn]) hcs hst
    have h2 := hsm st hst
    simp only [Except.map]
    rw [h.n_loop hV _ _ _ h2 hin]
    cases hl : NSlack.loop qp eq none o.cfg samples intr o.cfg.maxIter 0 st with
    | error err => rfl
    | ok r =>
      obtain ⟨st', out⟩ := r
      have hin' := n_loop_in hV _ _ _ _ _ hin hl
      have hm' := (n_loop_model _ _ _ _ _ hl).trans h2
      simp only [Except.map, nWith]
      rw [hm', h.objectivePrimal hin'.w]

/-- All joint features lie in `V`. -/
theorem spanIn_of_features (hV : LinearSpace V) (hp : m.rescaleC = false) (hψ : ∀ x y, V (m.jointFeature x y)) (samples : List (X × Y)) :
    SpanIn V m samples := by
  have hf : ∀ x y z, m.feat x y z = m.jointFeature x y := by
    intro x y z
    unfold SModel.feat
    rw [hp]
    rfl
  intro s _ w
  refine ⟨hV.sub (hψ _ _) (hψ _ _), ?_, ?_⟩
  · simp only [hf]
    exact hV.sub (hψ _ _) (hψ _ _)
  · simp only [hf]
    exact hV.sub (hψ _ _) (hψ _ _)

theorem agree_onBall (best : X → Y → W → Y) : Agree V samples m (onBall m V best) where
  dim := rfl
  jointFeature := rfl
  rescaleC := rfl
  jointFeatureR := rfl
  isTuple := rfl
  loss := rfl
  continuousLoss := rfl
  maxLoss := rfl
  lossAug := fun _ _ _ hw r => onBall_good hw _ _ r
  inference := fun _ _ _ _ => rfl

/-- changing loss-augmented inference outside `V`. -/
theorem TrainableOn.outside {good : W → Prop} {outputs : X → Set Y} {R L : ℚ}
    (h : TrainableOn (fun w => good w ∧ V w) m outputs samples R L) {best : X → Y → W → Y} (hb : (problemOf m outputs).ExactLossAug best) :
    TrainableOn good (Verif.Props.onBall m V best) outputs samples R L where
  ne := h.ne
  plain := h.plain
  exact_good := by
    intro x y w hy h0 hg
    by_cases hw : V w
    · rw [onBall_good hw]
      exact h.exact_good x y w hy h0 ⟨hg, hw⟩
    · have e : (Verif.Props.onBall m V best).lossAug x y w true = best x y w := by
        unfold Verif.Props.onBall
        simp only
        rw [if_neg hw]
      rw [e]
      exact hb x y w hy h0
  attained := h.attained
  labelled := h.labelled
  range_nonneg := h.range_nonneg
  range := h.range
  cost := h.cost
  confusable := h.confusable

end agree

/-! ### calls of the base learners -/

/-- Weights and cached joint features of a one-slack learner lie in `V`; the cache is one for `n` samples. -/
def OneAttrsAll (V : W → Prop) (n : ℕ) (o : OneSlack.Obj H) : Prop :=
  ∀ a, o.attrs = some a → V a.w ∧ ∀ c, a.cache = some c → c.length = n ∧ ∀ l ∈ c, ∀ e ∈ l, V e.1

/-- One-slack training, with `warm_start` not `True`, of two models that agree on `V`; constraints of an earlier fit do not matter. -/
theorem agree_one_fit_soft {V : W → Prop} {m m' : SModel X H} {samples : List (X × H)} (hV : LinearSpace V) (h : Agree V samples m m')
    (hm : SpanIn V m samples) {qp : QP.Solver} {eq : H → H → Except PyErr Bool} {intr : ℕ → Option OneSlack.Phase} {o : OneSlack.Obj H}
    {warm : OneSlack.Warm} (ho : warm = .no ∨ warm = .soft ∧ ∀ a, o.attrs = some a → CacheIn V m samples a.cache) :
    OneSlack.fit m' qp eq none intr o samples warm = OneSlack.fit m qp eq none intr o samples warm ∧
    ∀ o', OneSlack.fit m qp eq none intr o samples warm = .ok o' → ∃ a, o'.attrs = some a ∧ V a.w ∧ CacheIn V m samples a.cache := by
  have hs : OneSlack.start m' o warm = (OneSlack.start m o warm).map (oneWith m') := by
    unfold OneSlack.start
    simp only
    split <;> rfl
  have hcon : ∀ c ∈ [((fun _ => 0, 0) : OneSlack.Con)], V c.1 := by
    intro c hc
    rw [List.mem_singleton] at hc
    subst hc
    exact hV.zero
  have hsm : ∀ st, OneSlack.start m o warm = .ok st →
      st.model = m ∧ OneIn V m samples (OneSlack.jointFeatureGt m samples) none st := by
    intro st hst
    unfold OneSlack.start at hst
    rcases ho with rfl | ⟨rfl, ho⟩
    · cases hst
      exact ⟨rfl, hm, by simp [AltIn], gt_in hV m samples, hV.zero, hcon, (fun c hc => by cases hc), rfl⟩
    · cases ha : o.attrs with
      | none => rw [ha] at hst; cases hst
      | some a =>
        rw [ha] at hst
        cases hst
        exact ⟨rfl, hm, by simp [AltIn], gt_in hV m samples, hV.zero, hcon, ho a ha, rfl⟩
  have hgt : OneSlack.jointFeatureGt m' samples = OneSlack.jointFeatureGt m samples := by
    unfold OneSlack.jointFeatureGt
    rw [h.feat]
  unfold OneSlack.fit
  rw [hs, hgt]
  cases hst : OneSlack.start m o warm with
  | error err => exact ⟨rfl, fun o' h => by cases h⟩
  | ok st =>
    obtain ⟨hst1, hin⟩ := hsm st hst
    simp only [Except.map]
    rw [h.one_loop hV _ _ _ hst1 hin]
    cases hl : OneSlack.loop qp eq none o.cfg samples (OneSlack.jointFeatureGt m samples) intr o.cfg.maxIter 0 st with
    | error err => exact ⟨rfl, fun o' h => by cases h⟩
    | ok st' =>
      have hin' := one_loop_in hV _ _ _ _ hin hl
      have hm' := (one_loop_model _ _ _ _ hl).trans hst1
      simp only [Except.map, oneWith]
      rw [hm', h.objectivePrimal hin'.w]
      refine ⟨rfl, fun o' ho' => ?_⟩
      split at ho'
      · cases ho'
      · split at ho'
        · cases ho'
        · cases ho'
          refine ⟨_, rfl, hin'.w, ?_⟩
          have hc := hin'.cache
          unfold CacheIn at hc ⊢
          rw [hin'.feat] at hc
          exact hc

theorem feat_plain {m : SModel X H} (hp : m.rescaleC = false) (x : X) (y z : H) : m.feat x y z = m.jointFeature x y := by
  unfold SModel.feat
  rw [hp]
  rfl

theorem cacheIn_iff {V : W → Prop} (hV : LinearSpace V) {m : SModel X H} (hp : m.rescaleC = false) (hψ : ∀ x y, V (m.jointFeature x y))
    {data : List (X × H)} {n : ℕ} (hn : data.length = n) {cache : Option (List (List (OneSlack.Cached H)))} :
    CacheIn V m data cache ↔ ∀ c, cache = some c → c.length = n ∧ ∀ l ∈ c, ∀ e ∈ l, V e.1 := by
  unfold CacheIn
  refine forall_congr' fun c => imp_congr_right fun _ => ?_
  simp only [feat_plain hp]
  constructor
  · intro h
    refine ⟨h.length_eq.trans hn, fun l hl e he => ?_⟩
    obtain ⟨i, hi, rfl⟩ := List.getElem_of_mem hl
    have h1 := (List.forall₂_iff_get.mp h).2 i hi (by rw [← h.length_eq]; exact hi) e he
    have h2 := hV.sub (hψ (data.get ⟨i, by rw [← h.length_eq]; exact hi⟩).1 (data.get ⟨i, by rw [← h.length_eq]; exact hi⟩).2) h1
    simpa using h2
  · rintro ⟨h1, h2⟩
    refine List.forall₂_iff_get.mpr ⟨by omega, fun i hi hi' e he => ?_⟩
    exact hV.sub (hψ _ _) (h2 _ (List.getElem_mem hi) e he)

/-- A call of `OneSlackSSVM.fit` with a model whose joint features lie in `V`. -/
theorem one_call_in {V : W → Prop} (hV : LinearSpace V) {m : SModel X H} (hp : m.rescaleC = false) (hψ : ∀ x y, V (m.jointFeature x y))
    (best : X → H → W → H) {qp : QP.Solver} {eq : H → H → Except PyErr Bool} {data : List (X × H)} {n : ℕ} (hn : data.length = n)
    {b : OneSlack.Obj H} {warm : Bool} (hJ : warm = true → OneAttrsAll V n b) {cs : Option (List (List (NSlack.NCon H)))} :
    (oneSlackBase m qp eq).fit b data cs warm = (oneSlackBase (onBall m V best) qp eq).fit b data cs warm ∧
    ∀ b', (oneSlackBase (onBall m V best) qp eq).fit b data cs warm = .ok b' →
      (true = true → OneAttrsAll V n b') ∧ V ((oneSlackBase (X := X) m qp eq).w b') := by
  have hspan := spanIn_of_features hV hp hψ data
  obtain ⟨h1, h2⟩ := agree_one_fit_soft (qp := qp) (eq := eq) (intr := fun _ => none) (o := b) hV (agree_onBall (V := V) (m := m) (samples := data) best) hspan
    (warm := if warm then .soft else .no) (by
      cases warm with
      | false => exact .inl rfl
      | true => exact .inr ⟨rfl, fun a ha => (cacheIn_iff hV hp hψ hn).mpr (hJ rfl a ha).2⟩)
  refine ⟨h1.symm, fun b' hb' => ?_⟩
  obtain ⟨a, ha, g1, g2⟩ := h2 b' (h1.symm.trans hb')
  refine ⟨fun _ a' ha' => ?_, ?_⟩
  · rw [ha] at ha'
    cases ha'
    exact ⟨g1, (cacheIn_iff hV hp hψ hn).mp g2⟩
  · change V ((b'.attrs.map OneSlack.Attrs.w).getD fun _ => 0)
    rw [ha]
    exact g1

/-- A call of `NSlackSSVM.fit` with a model whose joint features lie in `V`. -/
theorem n_call_in {V : W → Prop} (hV : LinearSpace V) {m : SModel X H} (hp : m.rescaleC = false) (hψ : ∀ x y, V (m.jointFeature x y))
    (best : X → H → W → H) {qp : QP.Solver} {eq : H → H → Bool} {data : List (X × H)} {b : NSlack.Obj H} {warm : Bool}
    {cs : Option (List (List (NSlack.NCon H)))} (hcs : ∀ l, cs = some l → ∀ c ∈ l, ∀ d ∈ c, V d.dj) :
    (nSlackBase m qp eq).fit b data cs warm = (nSlackBase (onBall m V best) qp eq).fit b data cs warm ∧
    ∀ b', (nSlackBase (onBall m V best) qp eq).fit b data cs warm = .ok b' → V ((nSlackBase (X := X) m qp eq).w b') := by
  have hspan := spanIn_of_features hV hp hψ data
  have hfit : (nSlackBase m qp eq).fit b data cs warm = (nSlackBase (onBall m V best) qp eq).fit b data cs warm := by
    change nSlackFit _ _ _ _ _ _ = nSlackFit _ _ _ _ _ _
    unfold nSlackFit
    rw [agree_n_fit_given hV (agree_onBall best) hspan hcs]
  refine ⟨hfit, fun b' hb' => ?_⟩
  rw [← hfit] at hb'
  change nSlackFit _ _ _ _ _ _ = _ at hb'
  unfold nSlackFit at hb'
  split at hb'
  · cases hb'
  rename_i q hq
  cases hb'
  have hout := n_fit_in (o' := q.1) (out := q.2) hV hspan (by simp [AltIn]) hcs hq
  change V ((q.1.attrs.map NSlack.Attrs.w).getD fun _ => 0)
  cases ha : q.1.attrs with
  | none => exact hV.zero
  | some a => exact (hout a ha).1

theorem recomputed_in {V : W → Prop} (hV : LinearSpace V) {m : SModel X H} (hp : m.rescaleC = false)
    (hψ : ∀ x y, V (m.jointFeature x y)) {samples : List (X × Y)} {hs : List H} {w : W} {cs : List (List (NSlack.NCon H))} :
    ∀ c ∈ recomputed m samples hs w cs, ∀ d ∈ c, V d.dj := by
  intro c hc d hd
  unfold recomputed at hc
  obtain ⟨i, -, rfl⟩ := List.mem_map.mp hc
  split at hd
  · obtain ⟨k, -, rfl⟩ := List.mem_map.mp hd
    unfold findConstraint
    simp only [if_true, feat_plain hp]
    simp only [neg_add_eq_sub]
    exact hV.sub (hψ _ _) (hψ _ _)
  · simp at hd

open Classical in
/-- The latent model with loss-augmented inference and completion replaced for weights outside `V`. -/
noncomputable def outsideL (L : LModel X Y H) (V : W → Prop) (best : X → H → W → H) (bestC : X → Y → W → H) : LModel X Y H :=
  { L with m := onBall L.m V best, latent := fun x y w => if V w then L.latent x y w else bestC x y w }

theorem outsideL_latent {L : LModel X Y H} {V : W → Prop} {best : X → H → W → H} {bestC : X → Y → W → H} {w : W} (h : V w) (x : X) (y : Y) :
    (outsideL L V best bestC).latent x y w = L.latent x y w := by
  unfold outsideL
  simp only
  rw [if_pos h]

/-- If the base learner behaves in the same way and returns weights in `V`, so does `LatentSSVM`. -/
theorem latent_fit_outside (L : LModel X Y H) (B B' : Base σ X H) (hw : B'.w = B.w) (hc : B'.constraints = B.constraints)
    {V : W → Prop} (h0V : V fun _ => 0) (best : X → H → W → H) (bestC : X → Y → W → H) (same : H → H → Bool) (n : ℕ) (base : σ)
    (samples : List (X × Y)) (hInit : Option (List H)) (hlen : (hInit.getD (L.initLatent samples)).length = samples.length)
    (J : Bool → σ → Prop) (h0 : J false base)
    (hB : ∀ b hs warm, J warm b → hs.length = samples.length →
      B.fit b ((samples.map Prod.fst).zip hs)
        (if warm then (B.constraints b).map (recomputed L.m samples hs (B.w b)) else none) warm =
      B'.fit b ((samples.map Prod.fst).zip hs)
        (if warm then (B.constraints b).map (recomputed L.m samples hs (B.w b)) else none) warm ∧
      ∀ b', B'.fit b ((samples.map Prod.fst).zip hs)
        (if warm then (B.constraints b).map (recomputed L.m samples hs (B.w b)) else none) warm = .ok b' →
        J true b' ∧ V (B.w b')) :
    LatentSSVM.fit L B same n base samples hInit = LatentSSVM.fit (outsideL L V best bestC) B' same n base samples hInit ∧
    ∀ st fl, LatentSSVM.fit (outsideL L V best bestC) B' same n base samples hInit = .ok (st, fl) → V st.w := by
  have hstep : ∀ fuel it (st : LatentSSVM.St σ H), 0 < it → J true st.base → V st.w → st.w = B.w st.base →
      LatentSSVM.loop L B same samples fuel it st = LatentSSVM.loop (outsideL L V best bestC) B' same samples fuel it st ∧
      ∀ st' fl, LatentSSVM.loop (outsideL L V best bestC) B' same samples fuel it st = .ok (st', fl) → V st'.w := by
    intro fuel
    induction fuel with
    | zero =>
      intro it st _ _ hg _
      refine ⟨rfl, fun st' fl h => ?_⟩
      unfold LatentSSVM.loop at h
      cases h
      exact hg
    | succ fuel ih =>
      intro it st hit hJ hg hwst
      unfold LatentSSVM.loop LatentSSVM.iteration
      have hit0 : ¬ it = 0 := by omega
      rw [if_neg hit0, if_neg hit0]
      have e1 : LatentSSVM.completions (outsideL L V best bestC) samples st.w = LatentSSVM.completions L samples st.w := by
        unfold LatentSSVM.completions
        simp only [outsideL_latent hg]
      rw [e1]
      by_cases hs : (((LatentSSVM.completions L samples st.w).zip st.hs).all fun p => same p.1 p.2) = true
      · rw [if_pos hs, if_pos hs]
        refine ⟨rfl, fun st' fl h => ?_⟩
        cases h
        exact hg
      · rw [if_neg hs, if_neg hs]
        obtain ⟨f1, f2⟩ := hB st.base (LatentSSVM.completions L samples st.w) true hJ (by unfold LatentSSVM.completions; simp)
        rw [if_pos rfl] at f1 f2
        have e2 : ((B'.constraints st.base).map (recomputed (outsideL L V best bestC).m samples
            (LatentSSVM.completions L samples st.w) st.w)) =
            (B.constraints st.base).map (recomputed L.m samples (LatentSSVM.completions L samples st.w) st.w) := by
          rw [hc]
          rfl
        rw [e2]
        unfold refit
        rw [← hwst] at f1 f2
        rw [f1]
        cases hf : B'.fit st.base ((samples.map Prod.fst).zip (LatentSSVM.completions L samples st.w))
          ((B.constraints st.base).map (recomputed L.m samples (LatentSSVM.completions L samples st.w) st.w)) true with
        | error e => exact ⟨rfl, fun st' fl h => by cases h⟩
        | ok b =>
          obtain ⟨g1, g2⟩ := f2 b hf
          simp only [hw]
          exact ih (it + 1) _ (by omega) g1 g2 rfl
  unfold LatentSSVM.fit
  cases n with
  | zero =>
    refine ⟨rfl, fun st' fl h => ?_⟩
    unfold LatentSSVM.loop at h
    cases h
    exact h0V
  | succ n =>
    unfold LatentSSVM.loop LatentSSVM.iteration
    rw [if_pos rfl, if_pos rfl]
    obtain ⟨f1, f2⟩ := hB base (hInit.getD (L.initLatent samples)) false h0 hlen
    rw [if_neg (by simp)] at f1 f2
    unfold refit
    simp only
    rw [f1]
    have e3 : (outsideL L V best bestC).initLatent = L.initLatent := rfl
    rw [e3]
    cases hf : B'.fit base ((samples.map Prod.fst).zip (hInit.getD (L.initLatent samples))) none false with
    | error e => exact ⟨rfl, fun st' fl h => by cases h⟩
    | ok b =>
      obtain ⟨g1, g2⟩ := f2 b hf
      simp only [hw]
      exact hstep n 1 _ (by omega) g1 g2 rfl

theorem LatentDescent.ofOutside {L : LModel X Y H} {V : W → Prop} {best : X → H → W → H} {bestC : X → Y → W → H} {B B' : Base σ X H}
    (hw : B'.w = B.w) {same : H → H → Bool} {P : Problem X H} {C ε : ℚ} {samples : List (X × Y)} {completions : X → Y → Set H} {n : ℕ}
    {st : LatentSSVM.St σ H} {fl : Bool} (hV : V st.w)
    (h : LatentDescent (outsideL L V best bestC) B' same P C ε samples completions n st fl) :
    LatentDescent L B same P C ε samples completions n st fl := by
  obtain ⟨h1, h2, h3, h4, h5⟩ := h
  rw [hw] at h2 h3 h4
  refine ⟨h1, h2, h3, h4, fun hfl => ?_⟩
  have := h5 hfl
  simp only [outsideL_latent hV] at this
  exact this

/-- `C134_one_slack` for inference that is exact on a linear space `V` of weights that contains all joint features. -/
theorem C135_one_slack (L : LModel X Y H) (qp : QP.Solver) (hqp : QP.Exact qp) (hcomp : QP.Complete qp)
    (eq : H → H → Except PyErr Bool) (same : H → H → Bool) (n : ℕ)
    (samples : List (X × Y)) (hInit : Option (List H)) (outputs : X → Set H) (completions : X → Y → Set H)
    (hlab : (problemOf L.m outputs).LabelOnly completions samples) (o : OneSlack.Obj H) (R S r : ℚ)
    (hr : 2 * (o.cfg.C * S + o.cfg.C * samples.length * o.cfg.tol) ≤ r) (V : W → Prop) (hV : LinearSpace V)
    (hψ : ∀ x h, V (L.m.jointFeature x h))
    (hlat : ∀ w, InBall L.m.dim r w → V w → (problemOf L.m outputs).ExactCompletionAt completions L.latent samples w)
    (hlat' : ∃ lat, ∀ w, (problemOf L.m outputs).ExactCompletionAt completions lat samples w)
    (hinit : List.Forall₂ (fun s h => h ∈ completions s.1 s.2) samples (hInit.getD (L.initLatent samples)))
    (htrain : ∀ hs, List.Forall₂ (fun s h => h ∈ completions s.1 s.2) samples hs →
      TrainableOn (fun w => InBall L.m.dim r w ∧ V w) L.m outputs ((samples.map Prod.fst).zip hs) R S)
    (hcache : o.cfg.inferenceCache = 0) (hC : 0 < o.cfg.C) (htol : 0 < o.cfg.tol)
    (htol1 : o.cfg.tol ≤ 1) (hneg : o.cfg.negativity = none) (hthr : o.cfg.inactiveThreshold ≤ 1)
    (hbr : o.cfg.breakOnBad = false) (hwin : o.cfg.inactiveWindow = 0) (hmi : o.cfg.maxIter ≠ 0) (μ : ℚ) (hμ : 0 ≤ μ)
    (hμ1 : 2 * μ ≤ o.cfg.C * samples.length * o.cfg.tol) (hμ2 : 2 * R * μ ≤ o.cfg.tol ^ 2)
    (hmax : o.cfg.C * S < ((o.cfg.maxIter : ℚ) - 1) * μ) :
    ∃ st fl, LatentSSVM.fit L (oneSlackBase L.m qp eq) same (n + 1) o samples hInit = .ok (st, fl) ∧
      LatentDescent L (oneSlackBase L.m qp eq) same (problemOf L.m outputs) o.cfg.C (o.cfg.C * samples.length * o.cfg.tol)
        samples completions (n + 1) st fl ∧
      ∀ a ∈ st.hist, (problemOf L.m outputs).NearOptimal o.cfg.C ((samples.map Prod.fst).zip a.1)
        (o.cfg.C * samples.length * o.cfg.tol) ((oneSlackBase (X := X) L.m qp eq).w a.2) := by
  obtain ⟨best, hb⟩ := (htrain _ hinit).attained
  have hp := (htrain _ hinit).plain
  obtain ⟨bestC, hbc⟩ := hlat'
  have hkey := latent_fit_outside L (oneSlackBase L.m qp eq) (oneSlackBase (onBall L.m V best) qp eq) rfl rfl hV.zero best bestC
    same (n + 1) o samples hInit hinit.length_eq.symm (fun warm b => warm = true → OneAttrsAll V samples.length b) (by simp) (by
      intro b hs warm hJ hlen
      exact one_call_in hV hp hψ best (by rw [List.length_zip, List.length_map, hlen, min_self]) hJ)
  obtain ⟨hk1, hk2⟩ := hkey
  have hlat2 : ∀ w, InBall L.m.dim r w →
      (problemOf L.m outputs).ExactCompletionAt completions (outsideL L V best bestC).latent samples w := by
    intro w hw s hs
    by_cases hVw : V w
    · rw [outsideL_latent hVw]
      exact hlat w hw hVw s hs
    · have e : (outsideL L V best bestC).latent s.1 s.2 w = bestC s.1 s.2 w := by
        unfold outsideL
        simp only
        rw [if_neg hVw]
      rw [e]
      exact hbc w s hs
  obtain ⟨st, fl, h1, h2, h3⟩ := C134_one_slack (outsideL L V best bestC) qp hqp hcomp eq same n samples hInit outputs completions hlab
    o R S r hr hlat2 hinit (fun hs hmem => (htrain hs hmem).outside hb) hcache hC htol htol1 hneg hthr hbr hwin hmi μ hμ hμ1 hμ2 hmax
  exact ⟨st, fl, hk1.trans h1, LatentDescent.ofOutside (B := oneSlackBase L.m qp eq) (B' := oneSlackBase (onBall L.m V best) qp eq) rfl
    (hk2 st fl h1) h2, h3⟩

/-- `C134_n_slack` for inference that is exact on a linear space `V` of weights that contains all joint features. -/
theorem C135_n_slack (L : LModel X Y H) (qp : QP.Solver) (hqp : QP.Exact qp) (hcomp : QP.Complete qp)
    (eq : H → H → Bool) (same : H → H → Bool) (n : ℕ)
    (samples : List (X × Y)) (hInit : Option (List H)) (outputs : X → Set H) (completions : X → Y → Set H)
    (hlab : (problemOf L.m outputs).LabelOnly completions samples) (o : NSlack.Obj H) (R S r δ : ℚ)
    (hr : 2 * (o.cfg.C * S + 2 * o.cfg.C * samples.length * δ) ≤ r) (V : W → Prop) (hV : LinearSpace V)
    (hψ : ∀ x h, V (L.m.jointFeature x h))
    (hlat : ∀ w, InBall L.m.dim r w → V w → (problemOf L.m outputs).ExactCompletionAt completions L.latent samples w)
    (hlat' : ∃ lat, ∀ w, (problemOf L.m outputs).ExactCompletionAt completions lat samples w)
    (hzero : ∀ s ∈ samples, ∀ h ∈ completions s.1 s.2, ∀ z ∈ outputs s.1, (problemOf L.m outputs).loss h z ≤ 0 →
      z ∈ completions s.1 s.2)
    (hinit : List.Forall₂ (fun s h => h ∈ completions s.1 s.2) samples (hInit.getD (L.initLatent samples)))
    (htrain : ∀ hs, List.Forall₂ (fun s h => h ∈ completions s.1 s.2) samples hs →
      TrainableOn (fun w => InBall L.m.dim r w ∧ V w) L.m outputs ((samples.map Prod.fst).zip hs) R S)
    (heq : ∀ hs, List.Forall₂ (fun s h => h ∈ completions s.1 s.2) samples hs →
      EqSound L.m outputs eq ((samples.map Prod.fst).zip hs))
    (hbig : ∃ s ∈ samples, ∀ h ∈ completions s.1 s.2, ∃ ŷ ∈ outputs s.1, 1 / 10 ^ 5 ≤ (problemOf L.m outputs).loss h ŷ)
    (hC : 0 < o.cfg.C) (htol : 0 < o.cfg.tol) (hneg : o.cfg.negativity = none)
    (hbr : o.cfg.breakOnBad = false) (hbat : o.cfg.batchSize = -1 ∨ 0 < o.cfg.batchSize) (hwin : o.cfg.inactiveWindow = 0)
    (hmi : o.cfg.maxIter ≠ 0) (hδ : 1 / 10 ^ 5 ≤ δ) (h1 : 2 * o.cfg.tol ≤ o.cfg.C * δ)
    (h2 : 2 * R * o.cfg.tol ≤ δ ^ 2) (hmax : o.cfg.C * S < ((o.cfg.maxIter : ℚ) - 2) * o.cfg.tol) :
    ∃ st fl, LatentSSVM.fit L (nSlackBase L.m qp eq) same (n + 1) o samples hInit = .ok (st, fl) ∧
      LatentDescent L (nSlackBase L.m qp eq) same (problemOf L.m outputs) o.cfg.C (2 * o.cfg.C * samples.length * δ)
        samples completions (n + 1) st fl := by
  obtain ⟨best, hb⟩ := (htrain _ hinit).attained
  have hp := (htrain _ hinit).plain
  obtain ⟨bestC, hbc⟩ := hlat'
  obtain ⟨hk1, hk2⟩ := latent_fit_outside L (nSlackBase L.m qp eq) (nSlackBase (onBall L.m V best) qp eq) rfl rfl hV.zero best bestC
    same (n + 1) o samples hInit hinit.length_eq.symm (fun _ _ => True) trivial (by
      intro b hs warm _ hlen
      obtain ⟨c1, c2⟩ := n_call_in (b := b) (warm := warm) (data := (samples.map Prod.fst).zip hs) (qp := qp) (eq := eq) hV hp hψ best
        (cs := if warm then ((nSlackBase (X := X) L.m qp eq).constraints b).map
            (recomputed L.m samples hs ((nSlackBase (X := X) L.m qp eq).w b)) else none) (by
          intro l hl
          cases warm with
          | false => cases hl
          | true =>
            rw [if_pos rfl, Option.map_eq_some_iff] at hl
            obtain ⟨cs, -, rfl⟩ := hl
            exact recomputed_in hV hp hψ)
      exact ⟨c1, fun b' hb' => ⟨trivial, c2 b' hb'⟩⟩)
  have hlat2 : ∀ w, InBall L.m.dim r w →
      (problemOf L.m outputs).ExactCompletionAt completions (outsideL L V best bestC).latent samples w := by
    intro w hw s hs
    by_cases hVw : V w
    · rw [outsideL_latent hVw]
      exact hlat w hw hVw s hs
    · have e : (outsideL L V best bestC).latent s.1 s.2 w = bestC s.1 s.2 w := by
        unfold outsideL
        simp only
        rw [if_neg hVw]
      rw [e]
      exact hbc w s hs
  obtain ⟨st, fl, g1, g2⟩ := C134_n_slack (outsideL L V best bestC) qp hqp hcomp eq same n samples hInit outputs completions hlab
    o R S r δ hr hlat2 hzero hinit (fun hs hmem => (htrain hs hmem).outside hb) heq hbig hC htol hneg hbr hbat hwin hmi hδ h1 h2 hmax
  exact ⟨st, fl, hk1.trans g1, LatentDescent.ofOutside (B := nSlackBase L.m qp eq) (B' := nSlackBase (onBall L.m V best) qp eq) rfl
    (hk2 st fl g1) g2⟩

end Verif.Props
