import Verif.Model.LatentBases
import Verif.Props.C57
import Verif.Props.C70P
import Verif.Props.C120

/-!
# C80: the base learners with which `LatentSSVM` works
-/

namespace Verif.Props

open Finset Verif.Spec Verif.Learner Verif.LatentSSVM
open Verif.NSlack (NCon WS offset)

variable {X Y H σ : Type}

/-! ### the outer loop -/

/-- a call of the base learner goes well, or fails with an error in `E`. -/
def GoesWell (r : Except PyErr σ) (I : σ → Prop) (E : PyErr → Prop) : Prop :=
  (∃ b, r = .ok b ∧ I b) ∨ ∃ e, r = .error e ∧ E e

theorem latent_loop_total {L : LModel X Y H} {B : Base σ X H} {same : H → H → Bool} {samples : List (X × Y)}
    (I : σ → Prop) (E : PyErr → Prop)
    (hstep : ∀ b, I b → GoesWell (B.fit b ((samples.map Prod.fst).zip (completions L samples (B.w b)))
      ((B.constraints b).map (recomputed L.m samples (completions L samples (B.w b)) (B.w b))) true) I E)
    (fuel it : ℕ) (hit : it ≠ 0) (st : LatentSSVM.St σ H) (hw : st.w = B.w st.base) (hI : I st.base) :
    (∃ r, LatentSSVM.loop L B same samples fuel it st = .ok r) ∨
      ∃ e, LatentSSVM.loop L B same samples fuel it st = .error e ∧ E e := by
  induction fuel generalizing it st with
  | zero => exact .inl ⟨_, rfl⟩
  | succ fuel ih =>
    unfold LatentSSVM.loop LatentSSVM.iteration
    rw [if_neg hit]
    by_cases hall : (((completions L samples st.w).zip st.hs).all fun p => same p.1 p.2) = true
    · rw [if_pos hall]
      exact .inl ⟨_, rfl⟩
    · rw [if_neg hall]
      unfold refit
      rw [hw]
      rcases hstep st.base hI with ⟨b, hb, hI'⟩ | ⟨e, he, hE⟩
      · rw [hb]
        exact ih (it + 1) (by omega) _ rfl hI'
      · rw [he]
        exact .inr ⟨e, rfl, hE⟩

theorem latent_fit_total {L : LModel X Y H} {B : Base σ X H} {same : H → H → Bool} {samples : List (X × Y)}
    (I : σ → Prop) (E : PyErr → Prop) (base : σ) (hInit : Option (List H))
    (hfirst : GoesWell (B.fit base ((samples.map Prod.fst).zip (hInit.getD (L.initLatent samples))) none false) I E)
    (hstep : ∀ b, I b → GoesWell (B.fit b ((samples.map Prod.fst).zip (completions L samples (B.w b)))
      ((B.constraints b).map (recomputed L.m samples (completions L samples (B.w b)) (B.w b))) true) I E)
    (n : ℕ) :
    (∃ r, LatentSSVM.fit L B same n base samples hInit = .ok r) ∨
      ∃ e, LatentSSVM.fit L B same n base samples hInit = .error e ∧ E e := by
  unfold LatentSSVM.fit
  cases n with
  | zero => exact .inl ⟨_, rfl⟩
  | succ n =>
    unfold LatentSSVM.loop LatentSSVM.iteration
    rw [if_pos rfl]
    unfold refit
    rcases hfirst with ⟨b, hb, hI⟩ | ⟨e, he, hE⟩
    · rw [hb]
      exact latent_loop_total I E hstep n 1 (by omega) _ rfl hI
    · rw [he]
      exact .inr ⟨e, rfl, hE⟩

/-- the first call of the base learner has to succeed. -/
theorem latent_fit_first {L : LModel X Y H} {B : Base σ X H} {same : H → H → Bool} {samples : List (X × Y)} {base : σ}
    {hInit : Option (List H)} {n : ℕ} (hn : n ≠ 0) {r : LatentSSVM.St σ H × Bool}
    (h : LatentSSVM.fit L B same n base samples hInit = .ok r) :
    ∃ b, B.fit base ((samples.map Prod.fst).zip (hInit.getD (L.initLatent samples))) none false = .ok b := by
  obtain ⟨k, rfl⟩ := Nat.exists_eq_succ_of_ne_zero hn
  unfold LatentSSVM.fit LatentSSVM.loop LatentSSVM.iteration at h
  rw [if_pos rfl] at h
  unfold refit at h
  cases hb : B.fit base ((samples.map Prod.fst).zip (hInit.getD (L.initLatent samples))) none false with
  | ok b => exact ⟨b, rfl⟩
  | error e => rw [hb] at h; cases h

theorem zip_ne_nil {α β : Type} {l : List α} {l' : List β} (h : l ≠ []) (hl : l'.length = l.length) : l.zip l' ≠ [] := by
  intro h0
  have := congrArg List.length h0
  rw [List.length_zip, hl, min_self, List.length_nil, List.length_eq_zero_iff] at this
  exact h this

/-! ### SubgradientSSVM -/

/-- **C80, `SubgradientSSVM` as base learner.** `LatentSSVM.fit` returns if and only if there is nothing to do or the
options of the base learner are legal. -/
theorem C80_subgradient_partial (L : LModel X Y H) (order : List (X × H) → ℕ → List (X × H))
    (same : H → H → Bool) (n : ℕ) (o : Subgradient.Obj) (samples : List (X × Y)) (hne : samples ≠ [])
    (hInit : Option (List H)) (hlen : (hInit.getD (L.initLatent samples)).length = samples.length)
    (hord : ∀ data it, (order data it).Perm data) :
    (∃ r, LatentSSVM.fit L (subgradientBase L.m order) same n o samples hInit = .ok r) ↔
      n = 0 ∨ o.cfg.maxIter = 0 ∨ LegalJobs o.cfg L.m.rescaleC := by
  have hd0 : (samples.map Prod.fst).zip (hInit.getD (L.initLatent samples)) ≠ [] :=
    zip_ne_nil (by simpa using hne) (by simpa using hlen)
  constructor
  · rintro ⟨r, hr⟩
    by_cases hn : n = 0
    · exact .inl hn
    · obtain ⟨b, hb⟩ := latent_fit_first hn hr
      exact .inr ((C120_subgradient L.m (order _) o _ hd0 (fun _ it => hord _ it) false).mp ⟨b, hb⟩).1
  · rintro (rfl | hj)
    · exact ⟨_, rfl⟩
    · have key : ∀ (o' : Subgradient.Obj) (data : List (X × H)) (warm : Bool), data ≠ [] → o'.cfg = o.cfg →
          (warm = true → o'.lr ≠ none) →
          GoesWell (Subgradient.fit L.m (order data) o' data warm) (fun b => b.cfg = o.cfg ∧ b.lr ≠ none) (fun _ => False) := by
        intro o' data warm hd hcfg hw
        obtain ⟨b, hb⟩ := (C120_subgradient L.m (order data) o' data hd (fun _ it => hord data it) warm).mpr
          ⟨by rw [hcfg]; exact hj, hw⟩
        refine .inl ⟨b, hb, ?_⟩
        unfold Subgradient.fit at hb
        simp only at hb
        split at hb
        · cases hb
        · split at hb
          · cases hb
          · split at hb
            · cases hb
            · cases hb
              exact ⟨hcfg, by simp⟩
      rcases latent_fit_total (L := L) (B := subgradientBase L.m order) (same := same) (samples := samples)
        (fun b => b.cfg = o.cfg ∧ b.lr ≠ none) (fun _ => False) o hInit
        (key o _ false hd0 rfl (by simp))
        (fun b hb => key b _ true (zip_ne_nil (by simpa using hne) (by simp [completions])) hb.1 fun _ => hb.2) n with
        h | ⟨e, -, h⟩
      · exact h
      · exact h.elim

/-! ### OneSlackSSVM -/

theorem cache_none {m : SModel X H} {qp : QP.Solver} {eq : H → H → Except PyErr Bool} {o o' : OneSlack.Obj H}
    {data : List (X × H)} {warm : OneSlack.Warm} (hc : o.cfg.inferenceCache = 0)
    (h0 : warm = .no ∨ ∀ a, o.attrs = some a → a.cache = none)
    (h : OneSlack.fit m qp eq none (fun _ => none) o data warm = .ok o') :
    o'.cfg = o.cfg ∧ ∀ a, o'.attrs = some a → a.cache = none := by
  unfold OneSlack.fit at h
  cases hs : OneSlack.start m o warm with
  | error e => rw [hs] at h; cases h
  | ok st =>
    rw [hs] at h
    simp only at h
    have hst : st.cache = none := by
      unfold OneSlack.start at hs
      rcases h0 with rfl | h0
      · cases hs; rfl
      · cases ha : o.attrs with
        | none =>
          rw [ha] at hs
          cases warm with
          | no => cases hs; rfl
          | soft => cases hs
          | yes => cases hs
        | some a =>
          have hac := h0 a ha
          rw [ha] at hs
          obtain ⟨w, cs, al, oc, pc, fl, cache⟩ := a
          cases warm with
          | no => cases hs; rfl
          | soft => cases hs; exact hac
          | yes =>
            cases cs with
            | none => cases hs
            | some cs => cases hs; exact hac
    cases hl : OneSlack.loop qp eq none o.cfg data (OneSlack.jointFeatureGt m data) (fun _ => none) o.cfg.maxIter 0 st with
    | error e => rw [hl] at h; cases h
    | ok st' =>
      have hst' : st'.cache = none := by
        refine OneSlack.loop_induct (fun st => st.cache = none) ?_ _ _ _ _ hst hl
        intro it st st' b hI hi
        rcases OneSlack.iteration_ok hi with ⟨rfl, -, -⟩ | ⟨la, inf, -, -, -, -, rfl⟩ | ⟨-, f, cd, cache, hfind, hadd⟩
        · exact hI
        · exact hI
        · rw [(OneSlack.addConstraint_ok hadd).2.2.1]
          rcases hfind with ⟨-, -, rfl⟩ | ⟨-, -, hu⟩
          · exact hI
          · unfold OneSlack.updateCache at hu
            rw [if_pos hc] at hu
            cases hu
            exact hI
      rw [hl] at h
      simp only at h
      split at h
      · cases h
      · split at h
        · cases h
        · cases h
          refine ⟨rfl, fun a ha => ?_⟩
          cases ha
          exact hst'

/-- **C80, `OneSlackSSVM` as base learner.** With an exact QP solver, no sign constraints, no `break_on_bad` and no
inference cache, `LatentSSVM.fit` returns if for any completions of the training data something is to be learnt at zero
weights: loss-augmented inference returns an output with a positive loss for one of the samples. -/
theorem C80_one_slack_partial (L : LModel X Y H) (qp : QP.Solver) (hqp : QP.Exact qp) (hcomp : QP.Complete qp)
    (eq : H → H → Except PyErr Bool) (same : H → H → Bool) (n : ℕ) (o : OneSlack.Obj H)
    (hcache : o.cfg.inferenceCache = 0) (hC : 0 ≤ o.cfg.C) (hneg : o.cfg.negativity = none)
    (hthr : o.cfg.inactiveThreshold ≤ 1) (hbr : o.cfg.breakOnBad = false) (htol : o.cfg.tol ≤ 1)
    (hit : o.cfg.maxIter ≠ 0) (samples : List (X × Y)) (hne : samples ≠ [])
    (hInit : Option (List H)) (hlen : (hInit.getD (L.initLatent samples)).length = samples.length)
    (hloss : ∀ x h, 0 ≤ L.m.lossOf h (L.m.lossAug x h (fun _ => 0) true))
    (hlearn : ∀ hs : List H, hs.length = samples.length → ∃ s ∈ (samples.map Prod.fst).zip hs,
      L.m.lossOf s.2 (L.m.lossAug s.1 s.2 (fun _ => 0) true) ≠ 0) :
    ∃ r, LatentSSVM.fit L (oneSlackBase L.m qp eq) same n o samples hInit = .ok r := by
  have key : ∀ (o' : OneSlack.Obj H) (hs : List H) (warm : Bool), hs.length = samples.length → o'.cfg = o.cfg →
      (warm = true → ∃ a, o'.attrs = some a ∧ a.cache = none) →
      GoesWell (OneSlack.fit L.m qp eq none (fun _ => none) o' ((samples.map Prod.fst).zip hs)
        (if warm then .soft else .no)) (fun b => b.cfg = o.cfg ∧ ∃ a, b.attrs = some a ∧ a.cache = none) (fun _ => False) := by
    intro o' hs warm hl hcfg hw
    have hret := (C67_soft_iff_partial L.m qp hqp hcomp eq o' (by rw [hcfg]; exact .inl hcache) (by rw [hcfg]; exact hC)
      (by rw [hcfg]; exact hneg) (by rw [hcfg]; exact hthr) (by rw [hcfg]; exact hbr) (by rw [hcfg]; exact htol)
      ((samples.map Prod.fst).zip hs) (zip_ne_nil (by simpa using hne) (by simpa using hl)) (if warm then .soft else .no)
      (by
        cases warm with
        | true => exact .inr ⟨rfl, hw rfl⟩
        | false => exact .inl rfl)
      (fun s _ => hloss s.1 s.2)).mpr ⟨by rw [hcfg]; exact hit, .inl (hlearn hs hl)⟩
    obtain ⟨b, hb⟩ := hret
    refine .inl ⟨b, hb, ?_⟩
    obtain ⟨h1, h2⟩ := cache_none (by rw [hcfg]; exact hcache) (by
      cases warm with
      | false => exact .inl rfl
      | true =>
        obtain ⟨a, ha, hac⟩ := hw rfl
        refine .inr fun a' ha' => ?_
        rw [ha] at ha'
        cases ha'
        exact hac) hb
    refine ⟨h1.trans hcfg, ?_⟩
    cases ha : b.attrs with
    | some a => exact ⟨a, rfl, h2 a ha⟩
    | none =>
      exfalso
      unfold OneSlack.fit at hb
      split at hb
      · cases hb
      · split at hb
        · cases hb
        · split at hb
          · cases hb
          · split at hb
            · cases hb
            · cases hb
              cases ha
  rcases latent_fit_total (L := L) (B := oneSlackBase L.m qp eq) (same := same) (samples := samples)
    (fun b => b.cfg = o.cfg ∧ ∃ a, b.attrs = some a ∧ a.cache = none) (fun _ => False) o hInit
    (key o _ false hlen rfl (by simp)) (fun b hb => key b _ true (by simp [completions]) hb.1 fun _ => hb.2) n with
    h | ⟨e, -, h⟩
  · exact h
  · exact h.elim

/-! ### NSlackSSVM -/

/-- what a fit of `NSlackSSVM` leaves behind: the counters match the constraints if there is pruning; there is a
constraint if there is none. -/
def NResumable (cfg : NSlack.Config) (n : ℕ) (b : NSlack.Obj H) : Prop :=
  b.cfg = cfg ∧ ∃ a, b.attrs = some a ∧ a.n = n ∧ (cfg.inactiveWindow = 0 ∨ Counted cfg n a.constraints a.lastActive) ∧
    (cfg.inactiveWindow = 0 → ∃ i < n, a.constraints i ≠ [])

/-- the same for the state of the loop. -/
def NKept (cfg : NSlack.Config) (n : ℕ) (st : NSlack.St X H) : Prop :=
  (cfg.inactiveWindow = 0 ∨ Counted cfg n st.ws st.lastActive) ∧
    (cfg.inactiveWindow = 0 → st.objective ≠ none → ∃ i < n, st.ws i ≠ [])

theorem offset_pos {ws : WS H} {n : ℕ} (h : offset ws n ≠ 0) : ∃ i < n, ws i ≠ [] := by
  by_contra hc
  push Not at hc
  refine h ?_
  unfold NSlack.offset
  refine List.sum_eq_zero fun v hv => ?_
  obtain ⟨i, hi, rfl⟩ := List.mem_map.mp hv
  rw [hc i (List.mem_range.mp hi)]
  rfl

theorem solveQP_some {qp : QP.Solver} {dim : ℕ} {neg : Option (List ℕ)} {C : ℚ} {n : ℕ} {ws : WS H} {sol : QP.Solution}
    (h : NSlack.solveQP qp dim neg C n ws = .ok sol) : ∃ i < n, ws i ≠ [] := by
  unfold NSlack.solveQP at h
  by_cases he : (NSlack.flat n ws).isEmpty = true
  · rw [if_pos he] at h; cases h
  · by_contra hc
    push Not at hc
    refine he ?_
    rw [List.isEmpty_iff]
    unfold NSlack.flat
    rw [List.flatMap_eq_nil_iff]
    intro i hi
    rw [hc i (List.mem_range.mp hi)]
    rfl

theorem solve_kept {qp : QP.Solver} {cfg : NSlack.Config} {n : ℕ} {st st' : NSlack.St X H}
    (h : NSlack.solve qp cfg n st = .ok st') (hw : cfg.inactiveWindow = 0) : ∃ i < n, st'.ws i ≠ [] := by
  obtain ⟨sol, hq, hp, -⟩ := NSlack.solve_ok h
  unfold NSlack.prune at hp
  rw [if_pos hw] at hp
  simp only [Except.ok.injEq, Prod.mk.injEq] at hp
  rw [← hp.1]
  exact solveQP_some hq

theorem nfit_kept {m : SModel X H} {qp : QP.Solver} (hqp : QP.Sound qp) {eq : H → H → Bool} {o o' : NSlack.Obj H}
    {data : List (X × H)} {cons : Option (List (List (NCon H)))} {out : NSlack.Outcome}
    (hcons : ∀ cs, cons = some cs → ∀ a, o.attrs = some a → o.cfg.inactiveWindow ≠ 0 → ∀ i < data.length,
      (a.lastActive i).length = (cs.getD i []).length)
    (h : NSlack.fit m qp eq none (fun _ _ => none) o data cons = .ok (o', out)) :
    NResumable o.cfg data.length o' := by
  obtain ⟨st0, st, obj, primal, hs, hl, -, -, hob, rfl⟩ := NSlack.fit_ok h
  have hk0 : NKept o.cfg data.length st0 := by
    rcases NSlack.start_ok hs with ⟨-, rfl⟩ | ⟨cs, a, hcs, ha, hlen, hn, hsol⟩
    · exact ⟨.inr fun i _ => ⟨rfl, by simp⟩, by simp⟩
    · refine ⟨?_, fun hw _ => solve_kept hsol hw⟩
      by_cases hw : o.cfg.inactiveWindow = 0
      · exact .inl hw
      · right
        obtain ⟨sol, hq, hp, -⟩ := NSlack.solve_ok hsol
        have hlenx : sol.x.length = offset (fun i => cs.getD i []) data.length := by
          obtain ⟨eps, -, -, hf, -⟩ := solveQP_feasible hqp hq
          exact ((NSlack.feasible_qpOf _ _ _ _ _ _ _).mp hf).1
        obtain ⟨ws, la, h1, h2⟩ := prune_counted hw (la := a.lastActive) hlenx (fun i hi => by
          have := hcons cs hcs a ha hw i hi
          omega)
        simp only at hp
        rw [h1] at hp
        cases hp
        exact h2
  have hk : NKept o.cfg data.length st := by
    refine NSlack.loop_induct (NKept o.cfg data.length) ?_ hk0 hl
    intro it st st' out hI hi
    refine NSlack.iteration_induct (NKept o.cfg data.length) ?_ (fun st obj lc pc hI _ => hI) (fun st la inf hI _ => hI) hI hi
    intro j b hb st s k st' s' k' fl hI hr
    refine ⟨?_, ?_⟩
    · by_cases hw : o.cfg.inactiveWindow = 0
      · exact .inl hw
      · exact .inr (counted_batch hqp hw hb (hI.1.resolve_left hw) hr)
    · intro hw hob
      rcases NSlack.runBatch_ok hr with ⟨hs, -⟩ | ⟨-, ws, new, ha, hc⟩
      · cases hs
      · rcases hc with ⟨hs, -⟩ | ⟨-, hn, rfl, -⟩ | ⟨-, -, hs, -⟩
        · cases hs
        · obtain ⟨a1, a2, -, -, a5, -⟩ := NSlack.addAll_ok hb.1 ha
          have := (a5 hn).1
          simp only at this
          simp only [this]
          exact hI.2 hw hob
        · exact solve_kept hs hw
  refine ⟨rfl, _, rfl, rfl, hk.1, fun hw => hk.2 hw ?_⟩
  rw [hob]
  simp

theorem recomputed_length (m : SModel X H) (samples : List (X × Y)) (hNew : List H) (w : W) (cs : List (List (NCon H))) :
    (recomputed m samples hNew w cs).length = samples.length := by
  unfold recomputed
  simp

theorem recomputed_getD (m : SModel X H) (samples : List (X × Y)) (hNew : List H) (w : W) (ws : WS H)
    (hl : hNew.length = samples.length) (i : ℕ) (hi : i < samples.length) :
    ((recomputed m samples hNew w ((List.range samples.length).map ws)).getD i []).length = (ws i).length := by
  unfold recomputed
  have h1 : ((List.range samples.length).map ws)[i]? = some (ws i) := by
    rw [List.getElem?_map, List.getElem?_range hi]
    rfl
  have h2 : hNew[i]? = some (hNew[i]'(by omega)) := List.getElem?_eq_getElem _
  have h3 : samples[i]? = some samples[i] := List.getElem?_eq_getElem hi
  rw [List.getD_eq_getElem?_getD, List.getElem?_map, List.getElem?_range hi]
  simp only [Option.map_some, Option.getD_some, h1, h2, h3, List.length_map]

/-- a call of `NSlackSSVM.fit` on given constraints, after another call. -/
theorem nslack_step (m : SModel X H) (qp : QP.Solver) (hqp : QP.Exact qp) (hcomp : QP.Complete qp) (eq : H → H → Bool)
    (o : NSlack.Obj H) (hbr : o.cfg.breakOnBad = false) (hbat : o.cfg.batchSize = -1 ∨ 0 < o.cfg.batchSize) (hC : 0 ≤ o.cfg.C)
    (hneg : ∀ k ∈ o.cfg.negativity.getD [], k < m.dim) (samples : List (X × Y)) (hne : samples ≠ [])
    (hit : o.cfg.maxIter ≠ 0) (hs : List H) (hcl : hs.length = samples.length) (b : NSlack.Obj H)
    (hb : NResumable o.cfg samples.length b) :
    GoesWell ((nSlackBase m qp eq).fit b ((samples.map Prod.fst).zip hs)
      (((nSlackBase (X := X) m qp eq).constraints b).map (recomputed m samples hs ((nSlackBase (X := X) m qp eq).w b))) true)
      (NResumable o.cfg samples.length) (fun e => o.cfg.inactiveWindow ≠ 0 ∧ e = .valueError) := by
  generalize (nSlackBase (X := X) m qp eq).w b = w
  obtain ⟨hcfg, a, ha, han, hcnt, hsome⟩ := hb
  have hcon : (nSlackBase (X := X) m qp eq).constraints b = some ((List.range samples.length).map a.constraints) := by
    change b.attrs.map _ = _
    rw [ha, ← han]
    rfl
  rw [hcon]
  change GoesWell (nSlackFit m qp eq b ((samples.map Prod.fst).zip hs)
    (some (recomputed m samples hs w ((List.range samples.length).map a.constraints)))) _ _
  have hget := recomputed_getD m samples hs w a.constraints hcl
  have hrl := recomputed_length m samples hs w ((List.range samples.length).map a.constraints)
  generalize recomputed m samples hs w ((List.range samples.length).map a.constraints) = cs at hget hrl ⊢
  have hdne : (samples.map Prod.fst).zip hs ≠ [] := zip_ne_nil (by simpa using hne) (by simpa using hcl)
  have hdl : ((samples.map Prod.fst).zip hs).length = samples.length := by rw [List.length_zip, hcl]; simp
  generalize (samples.map Prod.fst).zip hs = data at hdne hdl ⊢
  rw [← hdl] at hget hrl han hsome hcnt ⊢
  have hlast : o.cfg.inactiveWindow ≠ 0 → ∀ i < data.length, (a.lastActive i).length = (cs.getD i []).length := by
    intro hw i hi
    rw [hget i hi]
    exact ((hcnt.resolve_left hw) i hi).1
  by_cases hex : ∃ i < data.length, a.constraints i ≠ []
  · obtain ⟨i, hi, hci⟩ := hex
    obtain ⟨b', out, hb'⟩ := C70_returns_partial m qp hqp hcomp eq none (fun _ _ => none) b (by rw [hcfg]; exact hbr)
      (by rw [hcfg]; exact hbat) (by rw [hcfg]; exact hC) (by rw [hcfg]; exact hneg) (by rw [hcfg]; exact hit) data a ha
      han.ge cs hrl ⟨cs.getD i [], by
        rw [List.getD_eq_getElem?_getD, List.getElem?_eq_getElem (by omega)]
        exact List.getElem_mem _, by
        intro h0
        have := hget i hi
        rw [h0, List.length_nil] at this
        exact hci (List.length_eq_zero_iff.mp this.symm)⟩ (by
        rw [hcfg]
        by_cases hw : o.cfg.inactiveWindow = 0
        · exact .inl hw
        · right
          intro j l hj
          have hjl := (List.getElem?_eq_some_iff.mp hj).1
          have := hlast hw j (by omega)
          rw [List.getD_eq_getElem?_getD, hj, Option.getD_some] at this
          omega)
    refine .inl ⟨b', by unfold nSlackFit; rw [hb'], ?_⟩
    have := nfit_kept hqp.1 (o := b) (fun cs' hcs' a' ha' hw i hi => by
      cases hcs'
      rw [ha] at ha'
      cases ha'
      exact hlast (by rw [hcfg] at hw; exact hw) i hi) hb'
    rw [hcfg] at this
    exact this
  · push Not at hex
    have hw : o.cfg.inactiveWindow ≠ 0 := by
      intro hw
      obtain ⟨i, hi, hci⟩ := hsome hw
      exact hci (hex i hi)
    refine .inr ⟨.valueError, ?_, hw, rfl⟩
    have hq : NSlack.solveQP qp m.dim b.cfg.negativity b.cfg.C data.length (fun i => cs.getD i []) =
        .error .valueError := by
      unfold NSlack.solveQP
      rw [if_pos]
      rw [List.isEmpty_iff]
      unfold NSlack.flat
      rw [List.flatMap_eq_nil_iff]
      intro i hi
      have := hget i (List.mem_range.mp hi)
      rw [hex i (List.mem_range.mp hi), List.length_nil, List.length_eq_zero_iff] at this
      simp only [this, List.map_nil]
    unfold nSlackFit NSlack.fit NSlack.start
    simp only
    rw [if_neg (not_not.mpr hrl), hq]

/-- **C80, `NSlackSSVM` as base learner.** With an exact QP solver and legal options, `LatentSSVM.fit` returns, or
raises `UnboundLocalError` in its first iteration because there is nothing to learn at zero weights, or raises
`ValueError` after pruning removed all constraints. Without pruning (`inactive_window=0`) it returns if and only if
something is to be learnt, with the initial completions, at zero weights. -/
theorem C80_n_slack_partial (L : LModel X Y H) (qp : QP.Solver) (hqp : QP.Exact qp) (hcomp : QP.Complete qp)
    (eq : H → H → Bool) (same : H → H → Bool) (n : ℕ) (o : NSlack.Obj H) (hbr : o.cfg.breakOnBad = false)
    (hbat : o.cfg.batchSize = -1 ∨ 0 < o.cfg.batchSize) (hC : 0 ≤ o.cfg.C)
    (hneg : ∀ k ∈ o.cfg.negativity.getD [], k < L.m.dim) (samples : List (X × Y)) (hne : samples ≠ [])
    (hInit : Option (List H)) (hlen : (hInit.getD (L.initLatent samples)).length = samples.length) :
    ((∃ r, LatentSSVM.fit L (nSlackBase L.m qp eq) same n o samples hInit = .ok r) ∨
      LatentSSVM.fit L (nSlackBase L.m qp eq) same n o samples hInit = .error .unboundLocalError ∨
      o.cfg.inactiveWindow ≠ 0 ∧ LatentSSVM.fit L (nSlackBase L.m qp eq) same n o samples hInit = .error .valueError) ∧
    (o.cfg.inactiveWindow = 0 →
      ((∃ r, LatentSSVM.fit L (nSlackBase L.m qp eq) same n o samples hInit = .ok r) ↔
        n = 0 ∨ o.cfg.maxIter ≠ 0 ∧ ∃ s ∈ (samples.map Prod.fst).zip (hInit.getD (L.initLatent samples)),
          1 / 10 ^ 5 ≤ L.m.lossOf s.2 (L.m.lossAug s.1 s.2 (fun _ => 0) true))) := by
  have hd : ∀ hs : List H, hs.length = samples.length → (samples.map Prod.fst).zip hs ≠ [] ∧
      ((samples.map Prod.fst).zip hs).length = samples.length := fun hs hl =>
    ⟨zip_ne_nil (by simpa using hne) (by simpa using hl), by rw [List.length_zip, hl]; simp⟩
  -- later calls
  have hstep := fun b (hb : NResumable o.cfg samples.length b) (hit : o.cfg.maxIter ≠ 0) =>
    nslack_step L.m qp hqp hcomp eq o hbr hbat hC hneg samples hne hit
      (completions L samples ((nSlackBase (X := X) L.m qp eq).w b)) (by simp [completions]) b hb
  -- the first call
  obtain ⟨hd0, hdl0⟩ := hd _ hlen
  have hfirst : GoesWell ((nSlackBase L.m qp eq).fit o ((samples.map Prod.fst).zip (hInit.getD (L.initLatent samples)))
      none false) (fun b => NResumable o.cfg samples.length b ∧ o.cfg.maxIter ≠ 0) (fun e => e = .unboundLocalError) := by
    change GoesWell (nSlackFit L.m qp eq o _ none) _ _
    unfold nSlackFit
    rcases C67_nslack_returns_partial L.m qp hqp hcomp eq none (fun _ _ => none) o hbr hbat hC hneg _ hd0 with
      ⟨o', out, h⟩ | h
    · rw [h]
      refine .inl ⟨o', rfl, ?_, (NSlack.fit_ok h).choose_spec.choose_spec.choose_spec.choose_spec.2.2.1⟩
      have := nfit_kept hqp.1 (fun cs hcs => by cases hcs) h
      rw [hdl0] at this
      exact this
    · rw [h]
      exact .inr ⟨_, rfl, rfl⟩
  have htotal := latent_fit_total (L := L) (B := nSlackBase L.m qp eq) (same := same) (samples := samples)
    (fun b => NResumable o.cfg samples.length b ∧ o.cfg.maxIter ≠ 0)
    (fun e => e = .unboundLocalError ∨ o.cfg.inactiveWindow ≠ 0 ∧ e = .valueError) o hInit
    (hfirst.imp id fun ⟨e, h1, h2⟩ => ⟨e, h1, .inl h2⟩) (fun b hb => by
      rcases hstep b hb.1 hb.2 with ⟨b', h1, h2⟩ | ⟨e, h1, h2⟩
      · exact .inl ⟨b', h1, h2, hb.2⟩
      · exact .inr ⟨e, h1, .inr h2⟩) n
  refine ⟨?_, fun hw => ?_⟩
  · rcases htotal with h | ⟨e, h, rfl | ⟨hw, rfl⟩⟩
    · exact .inl h
    · exact .inr (.inl h)
    · exact .inr (.inr ⟨hw, h⟩)
  · have hiff := C67_nslack_returns_iff_partial L.m qp hqp hcomp eq none o hbr hbat hC hneg _ hd0
    constructor
    · rintro ⟨r, hr⟩
      by_cases hn : n = 0
      · exact .inl hn
      · right
        refine hiff.mp ?_
        obtain ⟨b, hb⟩ := latent_fit_first hn hr
        change nSlackFit L.m qp eq o _ none = _ at hb
        unfold nSlackFit at hb
        split at hb
        · cases hb
        · rename_i r hr
          exact ⟨r.1, r.2, hr⟩
    · rintro (rfl | h)
      · exact ⟨_, rfl⟩
      · obtain ⟨o', out, ho⟩ := hiff.mpr h
        have hf' : GoesWell ((nSlackBase L.m qp eq).fit o ((samples.map Prod.fst).zip
            (hInit.getD (L.initLatent samples))) none false)
            (fun b => NResumable o.cfg samples.length b ∧ o.cfg.maxIter ≠ 0) (fun _ => False) := by
          rcases hfirst with h1 | ⟨e, h1, -⟩
          · exact .inl h1
          · change nSlackFit L.m qp eq o _ none = _ at h1
            unfold nSlackFit at h1
            rw [ho] at h1
            cases h1
        rcases latent_fit_total (L := L) (B := nSlackBase L.m qp eq) (same := same) (samples := samples)
          (fun b => NResumable o.cfg samples.length b ∧ o.cfg.maxIter ≠ 0) (fun _ => False) o hInit hf' (fun b hb => by
            rcases hstep b hb.1 hb.2 with ⟨b', h1, h2⟩ | ⟨e, -, h2, -⟩
            · exact .inl ⟨b', h1, h2, hb.2⟩
            · exact absurd hw h2) n with h | ⟨e, -, h⟩
        · exact h
        · exact h.elim

/-- **C80 violated.** With `StructuredPerceptron` as base learner `fit` raises `TypeError` at once. -/
theorem C80_violated_perceptron (L : LModel X Y H) (same : H → H → Bool) (n : ℕ) (o : Perceptron.Obj)
    (samples : List (X × Y)) (hInit : Option (List H)) :
    LatentSSVM.fit L perceptronBase same (n + 1) o samples hInit = .error .typeError := rfl

/-! ### an example -/

theorem hidden_learnable (x : Unit) (h : ℕ) :
    hiddenModel.lossOf h (hiddenModel.lossAug x h (fun _ => 0) true) = 1 := by
  cases x
  by_cases hy : h = 2
  · subst hy
    decide +kernel
  · have : hiddenModel.lossAug () h (fun _ => 0) true = hiddenModel.lossAug () 0 (fun _ => 0) true := by
      simp [hiddenModel, hy]
    rw [this]
    have h2 : hiddenModel.lossAug () 0 (fun _ => 0) true = 2 := by decide +kernel
    rw [h2]
    change (if (h = 2) ↔ (2 = 2) then (0 : ℚ) else 1) = 1
    simp [hy]

/-- With an ideal QP solver, training the model with hidden states returns with `OneSlackSSVM` ... -/
example (n : ℕ) : ∃ r, LatentSSVM.fit hiddenLatent (oneSlackBase hiddenModel QP.ideal natEq) natBeq n
    (exampleOS 10 1 0 50) [((), 0), ((), 1)] none = .ok r :=
  C80_one_slack_partial hiddenLatent QP.ideal QP.ideal_exact.1 QP.ideal_exact.2 natEq natBeq n (exampleOS 10 1 0 50) rfl
    (by decide +kernel) rfl (by decide +kernel) rfl (by decide +kernel) (by decide +kernel) _ (by simp) none (by decide +kernel)
    (fun x h => by rw [show hiddenLatent.m = hiddenModel from rfl, hidden_learnable]; exact zero_le_one)
    (fun hs hl => by
      obtain ⟨a, b, rfl⟩ := List.length_eq_two.mp hl
      exact ⟨((), a), by simp, by
        rw [show hiddenLatent.m = hiddenModel from rfl, hidden_learnable]; exact one_ne_zero⟩)

/-- ... with `NSlackSSVM` without pruning ... -/
example (n : ℕ) : ∃ r, LatentSSVM.fit hiddenLatent (nSlackBase hiddenModel QP.ideal natBeq) natBeq n
    { exampleNS 10 1 100 0 with cfg := { (exampleNS 10 1 100 0).cfg with breakOnBad := false } }
    [((), 0), ((), 1)] none = .ok r :=
  ((C80_n_slack_partial hiddenLatent QP.ideal QP.ideal_exact.1 QP.ideal_exact.2 natBeq natBeq n _ rfl
    (.inr (by decide +kernel)) (by decide +kernel) (by decide +kernel) _ (by simp) none (by decide +kernel)).2 rfl).mpr
    (.inr ⟨by decide +kernel, ((), 0), by decide +kernel, by
      rw [show hiddenLatent.m = hiddenModel from rfl, hidden_learnable]; norm_num⟩)

/-- ... and with `SubgradientSSVM` with two jobs. -/
example (n : ℕ) (o : Subgradient.Obj) (hj : o.cfg.nJobs = 2) (hb : o.cfg.batchSize = none) :
    ∃ r, LatentSSVM.fit hiddenLatent (subgradientBase hiddenModel fun data _ => data) natBeq n o
      [((), 0), ((), 1)] none = .ok r :=
  (C80_subgradient_partial hiddenLatent _ natBeq n o _ (by simp) none (by decide +kernel) (fun _ _ => List.Perm.refl _)).mpr
    (.inr (.inr (.inr ⟨by omega, hb⟩)))

end Verif.Props
