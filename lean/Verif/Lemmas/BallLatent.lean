import Verif.Lemmas.Ball

/-!
# LatentSSVM with a model whose inference is exact for short weights only
-/

namespace Verif.Props

open Finset Verif.Spec Verif.Learner Verif.LatentSSVM

variable {σ X Y H : Type}

/-- The latent model with loss-augmented inference replaced for weights that are not `good`. -/
noncomputable def onBallL (L : LModel X Y H) (good : W → Prop) (best : X → H → W → H) : LModel X Y H :=
  { L with m := onBall L.m good best }

/-- If the base learner behaves in the same way on completed data, and returns good weights, so does `LatentSSVM`. -/
theorem latent_fit_onBall (L : LModel X Y H) (B B' : Base σ X H) (hw : B'.w = B.w) (hc : B'.constraints = B.constraints)
    (good : W → Prop) (best : X → H → W → H) (same : H → H → Bool) (n : ℕ) (base : σ) (samples : List (X × Y))
    (hInit : Option (List H)) (completions : X → Y → Set H)
    (hlat : ∀ w, good w → ∀ s ∈ samples, L.latent s.1 s.2 w ∈ completions s.1 s.2)
    (hinit : List.Forall₂ (fun s h => h ∈ completions s.1 s.2) samples (hInit.getD (L.initLatent samples)))
    (J : Bool → σ → Prop) (h0 : J false base)
    (hB : ∀ b hs warm, J warm b → List.Forall₂ (fun s h => h ∈ completions s.1 s.2) samples hs →
      B.fit b ((samples.map Prod.fst).zip hs)
        (if warm then (B.constraints b).map (recomputed L.m samples hs (B.w b)) else none) warm =
      B'.fit b ((samples.map Prod.fst).zip hs)
        (if warm then (B.constraints b).map (recomputed L.m samples hs (B.w b)) else none) warm ∧
      ∀ b', B'.fit b ((samples.map Prod.fst).zip hs)
        (if warm then (B.constraints b).map (recomputed L.m samples hs (B.w b)) else none) warm = .ok b' →
        J true b' ∧ good (B.w b')) :
    LatentSSVM.fit L B same n base samples hInit = LatentSSVM.fit (onBallL L good best) B' same n base samples hInit := by
  have hstep : ∀ fuel it (st : LatentSSVM.St σ H), 0 < it → J true st.base → good st.w → st.w = B.w st.base →
      LatentSSVM.loop L B same samples fuel it st = LatentSSVM.loop (onBallL L good best) B' same samples fuel it st := by
    intro fuel
    induction fuel with
    | zero => intros; rfl
    | succ fuel ih =>
      intro it st hit hJ hg hwst
      unfold LatentSSVM.loop LatentSSVM.iteration
      have hit0 : ¬ it = 0 := by omega
      rw [if_neg hit0, if_neg hit0]
      have e1 : LatentSSVM.completions (onBallL L good best) samples st.w = LatentSSVM.completions L samples st.w := rfl
      rw [e1]
      by_cases hs : (((LatentSSVM.completions L samples st.w).zip st.hs).all fun p => same p.1 p.2) = true
      · rw [if_pos hs, if_pos hs]
      · rw [if_neg hs, if_neg hs]
        have hmem : List.Forall₂ (fun s h => h ∈ completions s.1 s.2) samples (LatentSSVM.completions L samples st.w) := by
          unfold LatentSSVM.completions
          rw [List.forall₂_map_right_iff, List.forall₂_same]
          exact hlat _ hg
        obtain ⟨f1, f2⟩ := hB st.base _ true hJ hmem
        rw [if_pos rfl] at f1 f2
        have e2 : ((B'.constraints st.base).map (recomputed (onBallL L good best).m samples
            (LatentSSVM.completions L samples st.w) st.w)) =
            (B.constraints st.base).map (recomputed L.m samples (LatentSSVM.completions L samples st.w) st.w) := by
          rw [hc]
          rfl
        rw [e2]
        unfold refit
        rw [← hwst] at f1 f2
        rw [f1]
        cases hf : B'.fit st.base ((samples.map Prod.fst).zip (LatentSSVM.completions L samples st.w))
          ((B.constraints st.base).map (recomputed L.m samples (LatentSSVM.completions L samples st.w) st.w)) true with
        | error e => rfl
        | ok b =>
          obtain ⟨g1, g2⟩ := f2 b hf
          simp only [hw]
          exact ih (it + 1) _ (by omega) g1 g2 rfl
  unfold LatentSSVM.fit
  cases n with
  | zero => rfl
  | succ n =>
    unfold LatentSSVM.loop LatentSSVM.iteration
    rw [if_pos rfl, if_pos rfl]
    obtain ⟨f1, f2⟩ := hB base _ false h0 hinit
    rw [if_neg (by simp)] at f1 f2
    unfold refit
    simp only
    rw [f1]
    have e3 : (onBallL L good best).initLatent = L.initLatent := rfl
    rw [e3]
    cases hf : B'.fit base ((samples.map Prod.fst).zip (hInit.getD (L.initLatent samples))) none false with
    | error e => rfl
    | ok b =>
      obtain ⟨g1, g2⟩ := f2 b hf
      simp only [hw]
      exact hstep n 1 _ (by omega) g1 g2 rfl

theorem LatentDescent.ofBall {L : LModel X Y H} {good : W → Prop} {best : X → H → W → H} {B B' : Base σ X H} (hw : B'.w = B.w)
    {same : H → H → Bool} {P : Problem X H} {C ε : ℚ} {samples : List (X × Y)} {completions : X → Y → Set H} {n : ℕ}
    {st : LatentSSVM.St σ H} {fl : Bool}
    (h : LatentDescent (onBallL L good best) B' same P C ε samples completions n st fl) :
    LatentDescent L B same P C ε samples completions n st fl := by
  obtain ⟨h1, h2, h3, h4, h5⟩ := h
  rw [hw] at h2 h3 h4
  exact ⟨h1, h2, h3, h4, h5⟩

theorem TrainableOn.nonneg {good : W → Prop} {m : SModel X Y} {outputs : X → Set Y} {samples : List (X × Y)} {R L : ℚ}
    (h : TrainableOn good m outputs samples R L) : 0 ≤ L := by
  obtain ⟨c, hc, hL⟩ := h.cost
  refine le_trans (List.sum_nonneg fun v hv => ?_) hL
  obtain ⟨s, hs, rfl⟩ := List.mem_map.mp hv
  have := hc s hs _ (h.labelled s hs).1
  rwa [(h.labelled s hs).2] at this

/-- nearly optimal weights are short. -/
theorem inBall_of_normNear {m : SModel X Y} {outputs : X → Set Y} {samples : List (X × Y)} {R L : ℚ}
    (h : Trainable m outputs samples R L) {C ε : ℚ} (hC : 0 ≤ C) {w : W} (hw : (problemOf m outputs).NormNear C samples ε w) :
    InBall m.dim (2 * (C * L + ε)) w := by
  obtain ⟨B, hB, hle⟩ := h.zero hC
  have := hw _ _ hB
  unfold InBall
  change (∑ k ∈ range m.dim, w k * w k) / 2 ≤ _ at this
  linarith

/-- **C134, LatentSSVM with OneSlackSSVM, inference exact for short weights.** As `C121_one_slack`; loss-augmented inference
and completion need to be exact only for weights with `‖w‖² ≤ 2 (C S + C n tol)`. -/
theorem C134_one_slack (L : LModel X Y H) (qp : QP.Solver) (hqp : QP.Exact qp) (hcomp : QP.Complete qp)
    (eq : H → H → Except PyErr Bool) (same : H → H → Bool) (n : ℕ)
    (samples : List (X × Y)) (hInit : Option (List H)) (outputs : X → Set H) (completions : X → Y → Set H)
    (hlab : (problemOf L.m outputs).LabelOnly completions samples) (o : OneSlack.Obj H) (R S r : ℚ)
    (hr : 2 * (o.cfg.C * S + o.cfg.C * samples.length * o.cfg.tol) ≤ r)
    (hlat : ∀ w, InBall L.m.dim r w → (problemOf L.m outputs).ExactCompletionAt completions L.latent samples w)
    (hinit : List.Forall₂ (fun s h => h ∈ completions s.1 s.2) samples (hInit.getD (L.initLatent samples)))
    (htrain : ∀ hs, List.Forall₂ (fun s h => h ∈ completions s.1 s.2) samples hs →
      TrainableOn (InBall L.m.dim r) L.m outputs ((samples.map Prod.fst).zip hs) R S)
    (hcache : o.cfg.inferenceCache = 0) (hC : 0 < o.cfg.C) (htol : 0 < o.cfg.tol)
    (htol1 : o.cfg.tol ≤ 1) (hneg : o.cfg.negativity = none) (hthr : o.cfg.inactiveThreshold ≤ 1)
    (hbr : o.cfg.breakOnBad = false) (hwin : o.cfg.inactiveWindow = 0) (hmi : o.cfg.maxIter ≠ 0) (μ : ℚ) (hμ : 0 ≤ μ)
    (hμ1 : 2 * μ ≤ o.cfg.C * samples.length * o.cfg.tol) (hμ2 : 2 * R * μ ≤ o.cfg.tol ^ 2)
    (hmax : o.cfg.C * S < ((o.cfg.maxIter : ℚ) - 1) * μ) :
    ∃ st fl, LatentSSVM.fit L (oneSlackBase L.m qp eq) same (n + 1) o samples hInit = .ok (st, fl) ∧
      LatentDescent L (oneSlackBase L.m qp eq) same (problemOf L.m outputs) o.cfg.C (o.cfg.C * samples.length * o.cfg.tol)
        samples completions (n + 1) st fl ∧
      ∀ a ∈ st.hist, (problemOf L.m outputs).NearOptimal o.cfg.C ((samples.map Prod.fst).zip a.1)
        (o.cfg.C * samples.length * o.cfg.tol) ((oneSlackBase (X := X) L.m qp eq).w a.2) := by
  obtain ⟨best, hb⟩ := (htrain _ hinit).attained
  have hL := (htrain _ hinit).nonneg
  have hball : ∀ w, InBall L.m.dim (2 * (o.cfg.C * S)) w → InBall L.m.dim r w := fun w hw => by
    have : 0 ≤ o.cfg.C * samples.length * o.cfg.tol := by positivity
    unfold InBall at hw ⊢
    linarith
  have hkey := latent_fit_onBall L (oneSlackBase L.m qp eq) (oneSlackBase (onBall L.m (InBall L.m.dim r) best) qp eq) rfl rfl
    (InBall L.m.dim r) best same (n + 1) o samples hInit completions (fun w hw s hs => ((hlat w hw) s hs).1) hinit
    (fun warm b => b.cfg = o.cfg ∧ (warm = true → ∀ a, b.attrs = some a → a.cache = none)) ⟨rfl, by simp⟩ (by
      intro b hs warm hJ hmem
      obtain ⟨h1, h2⟩ := one_fit_onBall (htrain hs hmem) hL hb hqp hcomp eq b (by rw [hJ.1]; exact hball)
        (by rw [hJ.1]; exact hcache) (by rw [hJ.1]; exact hC.le) (by rw [hJ.1]; exact hneg) (by rw [hJ.1]; exact hwin)
        (if warm then .soft else .no) (by
          cases warm with
          | false => exact .inl rfl
          | true => exact .inr ⟨rfl, hJ.2 rfl⟩)
      refine ⟨h1, fun b' hb' => ?_⟩
      obtain ⟨g1, a, ga, g2, g3⟩ := h2 b' hb'
      refine ⟨⟨g1.trans hJ.1, fun _ a' ha' => ?_⟩, ?_⟩
      · rw [ga] at ha'
        cases ha'
        exact g2
      · change InBall L.m.dim r ((b'.attrs.map OneSlack.Attrs.w).getD fun _ => 0)
        rw [ga]
        rw [hJ.1] at g3
        exact hball _ g3)
  have htr : ∀ hs, List.Forall₂ (fun s h => h ∈ completions s.1 s.2) samples hs →
      Trainable (onBall L.m (InBall L.m.dim r) best) outputs ((samples.map Prod.fst).zip hs) R S :=
    fun hs hmem => (htrain hs hmem).onBall hb
  obtain ⟨st, fl, h1, h2, h3⟩ := C121_one_slack (onBallL L (InBall L.m.dim r) best) qp hqp hcomp eq same n samples hInit outputs
    completions hlab (InBall L.m.dim r) hlat hinit R S htr o (fun hs hmem w hw => by
      have := inBall_of_normNear (htr hs hmem) hC.le hw
      change InBall L.m.dim _ w at this
      unfold InBall at this ⊢
      linarith) hcache hC htol htol1 hneg hthr hbr hwin hmi μ hμ hμ1 hμ2 hmax
  exact ⟨st, fl, hkey.trans h1, LatentDescent.ofBall (B := oneSlackBase L.m qp eq) (B' := oneSlackBase (onBall L.m (InBall L.m.dim r) best) qp eq) rfl h2, h3⟩

/-- **C134, LatentSSVM with NSlackSSVM, inference exact for short weights.** As `C121_n_slack`; loss-augmented inference
and completion need to be exact only for weights with `‖w‖² ≤ 2 (C S + 2 C n δ)`. -/
theorem C134_n_slack (L : LModel X Y H) (qp : QP.Solver) (hqp : QP.Exact qp) (hcomp : QP.Complete qp)
    (eq : H → H → Bool) (same : H → H → Bool) (n : ℕ)
    (samples : List (X × Y)) (hInit : Option (List H)) (outputs : X → Set H) (completions : X → Y → Set H)
    (hlab : (problemOf L.m outputs).LabelOnly completions samples) (o : NSlack.Obj H) (R S r δ : ℚ)
    (hr : 2 * (o.cfg.C * S + 2 * o.cfg.C * samples.length * δ) ≤ r)
    (hlat : ∀ w, InBall L.m.dim r w → (problemOf L.m outputs).ExactCompletionAt completions L.latent samples w)
    (hzero : ∀ s ∈ samples, ∀ h ∈ completions s.1 s.2, ∀ z ∈ outputs s.1, (problemOf L.m outputs).loss h z ≤ 0 →
      z ∈ completions s.1 s.2)
    (hinit : List.Forall₂ (fun s h => h ∈ completions s.1 s.2) samples (hInit.getD (L.initLatent samples)))
    (htrain : ∀ hs, List.Forall₂ (fun s h => h ∈ completions s.1 s.2) samples hs →
      TrainableOn (InBall L.m.dim r) L.m outputs ((samples.map Prod.fst).zip hs) R S)
    (heq : ∀ hs, List.Forall₂ (fun s h => h ∈ completions s.1 s.2) samples hs →
      EqSound L.m outputs eq ((samples.map Prod.fst).zip hs))
    (hbig : ∃ s ∈ samples, ∀ h ∈ completions s.1 s.2, ∃ ŷ ∈ outputs s.1, 1 / 10 ^ 5 ≤ (problemOf L.m outputs).loss h ŷ)
    (hC : 0 < o.cfg.C) (htol : 0 < o.cfg.tol) (hneg : o.cfg.negativity = none)
    (hbr : o.cfg.breakOnBad = false) (hbat : o.cfg.batchSize = -1 ∨ 0 < o.cfg.batchSize) (hwin : o.cfg.inactiveWindow = 0)
    (hmi : o.cfg.maxIter ≠ 0) (hδ : 1 / 10 ^ 5 ≤ δ) (h1 : 2 * o.cfg.tol ≤ o.cfg.C * δ)
    (h2 : 2 * R * o.cfg.tol ≤ δ ^ 2) (hmax : o.cfg.C * S < ((o.cfg.maxIter : ℚ) - 2) * o.cfg.tol) :
    ∃ st fl, LatentSSVM.fit L (nSlackBase L.m qp eq) same (n + 1) o samples hInit = .ok (st, fl) ∧
      LatentDescent L (nSlackBase L.m qp eq) same (problemOf L.m outputs) o.cfg.C (2 * o.cfg.C * samples.length * δ)
        samples completions (n + 1) st fl := by
  obtain ⟨best, hb⟩ := (htrain _ hinit).attained
  have hL := (htrain _ hinit).nonneg
  have hδ0 : 0 ≤ δ := le_trans (by norm_num) hδ
  have hball : ∀ w, InBall L.m.dim (2 * (o.cfg.C * S)) w → InBall L.m.dim r w := fun w hw => by
    have : 0 ≤ 2 * o.cfg.C * samples.length * δ := by positivity
    unfold InBall at hw ⊢
    linarith
  have hkey := latent_fit_onBall L (nSlackBase L.m qp eq) (nSlackBase (onBall L.m (InBall L.m.dim r) best) qp eq) rfl rfl
    (InBall L.m.dim r) best same (n + 1) o samples hInit completions (fun w hw s hs => ((hlat w hw) s hs).1) hinit
    (fun warm b => b.cfg = o.cfg ∧ (warm = true → ∃ a, b.attrs = some a ∧ a.n = samples.length ∧
      ∀ i s, samples[i]? = some s → ∀ c ∈ a.constraints i, c.yhat ∈ outputs s.1)) ⟨rfl, by simp⟩ (by
      intro b hs warm hJ hmem
      have hhs : hs.length = samples.length := hmem.length_eq.symm
      have hlen : ((samples.map Prod.fst).zip hs).length = samples.length := by rw [List.length_zip, hhs]; simp
      have hgiven : GivenHold L.m outputs ((samples.map Prod.fst).zip hs)
          (if warm then ((nSlackBase (X := X) L.m qp eq).constraints b).map
            (recomputed L.m samples hs ((nSlackBase (X := X) L.m qp eq).w b)) else none) := by
        cases warm with
        | false => intro cs h; cases h
        | true =>
          obtain ⟨a, ha, hn, hcs⟩ := hJ.2 rfl
          rw [if_pos rfl]
          change GivenHold _ _ _ ((b.attrs.map fun a => (List.range a.n).map a.constraints).map _)
          rw [ha, Option.map_some, Option.map_some, hn]
          exact recomputed_holds hhs hcs
      obtain ⟨h1, h2⟩ := n_fit_onBall (htrain hs hmem) hL hb hqp hcomp eq b (by rw [hJ.1]; exact hball)
        (by rw [hJ.1]; exact hC.le) (by rw [hJ.1]; exact hneg) (by rw [hJ.1]; exact hwin) _ hgiven
      constructor
      · change nSlackFit _ _ _ _ _ _ = nSlackFit _ _ _ _ _ _
        unfold nSlackFit
        rw [h1]
      · intro b' hb'
        change nSlackFit _ _ _ _ _ _ = _ at hb'
        unfold nSlackFit at hb'
        split at hb'
        · cases hb'
        rename_i q hq
        cases hb'
        obtain ⟨g1, a, ga, g2, g3, g4⟩ := h2 q hq
        refine ⟨⟨g1.trans hJ.1, fun _ => ⟨a, ga, g2.trans hlen, fun i s hs' c hc => ?_⟩⟩, ?_⟩
        · have hi := (List.getElem?_eq_some_iff.mp hs').1
          have e : ((samples.map Prod.fst).zip hs)[i]? = some (s.1, hs[i]'(by omega)) := by
            rw [List.getElem?_eq_getElem (by omega), List.getElem_zip, List.getElem_map, (List.getElem?_eq_some_iff.mp hs').2]
          exact g4 i _ e c hc
        · change InBall L.m.dim r ((q.1.attrs.map NSlack.Attrs.w).getD fun _ => 0)
          rw [ga]
          rw [hJ.1] at g3
          exact hball _ g3)
  have htr : ∀ hs, List.Forall₂ (fun s h => h ∈ completions s.1 s.2) samples hs →
      Trainable (onBall L.m (InBall L.m.dim r) best) outputs ((samples.map Prod.fst).zip hs) R S :=
    fun hs hmem => (htrain hs hmem).onBall hb
  obtain ⟨st, fl, g1, g2⟩ := C121_n_slack (onBallL L (InBall L.m.dim r) best) qp hqp hcomp eq same n samples hInit outputs
    completions hlab (InBall L.m.dim r) hlat hzero hinit R S htr heq hbig o hC htol hneg hbr hbat hwin hmi δ hδ h1 h2 hmax
    (fun hs hmem w hw => by
      have := inBall_of_normNear (htr hs hmem) hC.le hw
      change InBall L.m.dim _ w at this
      unfold InBall at this ⊢
      linarith)
  exact ⟨st, fl, hkey.trans g1, LatentDescent.ofBall (B := nSlackBase L.m qp eq) (B' := nSlackBase (onBall L.m (InBall L.m.dim r) best) qp eq) rfl g2⟩

end Verif.Props
