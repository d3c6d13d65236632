import Verif.Props.C123
import Verif.Props.C47
import Verif.Props.C57
import Verif.Props.C116

/-!
# C123 for `NSlackSSVM`, `LatentSSVM`, `SubgradientLatentSSVM`, `FrankWolfeSSVM`
-/

namespace Verif.Props

open Finset Verif.Learner Verif.Logger Verif.TrainingLog

variable {X Y H σ γ : Type}

/-- The number of a call, none for `'final'`. -/
def callNumber (p : Logger.Learner σ γ × Iter) : Option ℕ :=
  match p.2 with
  | .num k => some k
  | .final => none

/-- Calls numbered from `it` on. -/
def callsFrom (L : ℕ → Logger.Learner σ γ) (it n : ℕ) : List (Logger.Learner σ γ × Iter) :=
  (List.range n).map fun i => (L i, .num (it + i))

theorem callsFrom_zero (L : ℕ → Logger.Learner σ γ) (n : ℕ) : callsFrom L 0 n = trainingCalls L n := by
  unfold callsFrom trainingCalls
  simp only [Nat.zero_add]

/-- Putting a call in front. -/
def consCall (l : Logger.Learner σ γ) (L : ℕ → Logger.Learner σ γ) : ℕ → Logger.Learner σ γ
  | 0 => l
  | i + 1 => L i

theorem callsFrom_cons (l : Logger.Learner σ γ) (L : ℕ → Logger.Learner σ γ) (it n : ℕ) :
    (l, Iter.num it) :: callsFrom L (it + 1) n = callsFrom (consCall l L) it (n + 1) := by
  unfold callsFrom
  rw [List.range_succ_eq_map, List.map_cons, List.map_map]
  refine congrArg₂ List.cons rfl ?_
  apply List.map_congr_left
  intro i _
  simp only [Function.comp, Nat.succ_eq_add_one, consCall]
  rw [show it + 1 + i = it + (i + 1) from by omega]

/-! ### `NSlackSSVM` -/

theorem runBatches_switched {qp : QP.Solver} {eq : Y → Y → Bool} {cfg : NSlack.Config} {n : ℕ}
    {intr : ℕ → Option OneSlack.Phase} {bs : List (List (ℕ × X × Y))} {j : ℕ} {st st' : NSlack.St X Y} {s s' : ℚ} {k k' : ℕ}
    {fl : Bool} (h : NSlack.runBatches qp eq cfg n intr bs j (st, s, k) = .ok ((st', s', k'), fl)) :
    st'.switched = st.switched := by
  refine NSlack.runBatches_induct (fun st' _ => st'.switched = st.switched) ?_ rfl h
  intro j b _ st1 s1 k1 st2 s2 k2 f hI hb
  rcases NSlack.runBatch_ok hb with ⟨-, rfl, -⟩ | ⟨-, _, _, -, ⟨-, rfl, -⟩ | ⟨-, -, rfl, -⟩ | ⟨-, -, hs, -⟩⟩
  · exact hI
  · exact hI
  · exact hI
  · obtain ⟨_, -, -, h3⟩ := NSlack.solve_ok hs
    rw [h3]
    exact hI

theorem nLoopCalls_spec (qp : QP.Solver) (eq : Y → Y → Bool) (cfg : NSlack.Config)
    (samples : List (X × Y)) (intr : ℕ → ℕ → Option OneSlack.Phase) (old : Option (NSlack.WS Y)) :
    ∀ (fuel it : ℕ) (st : NSlack.St X Y), ∃ L n, n ≤ fuel ∧
      nLoopCalls qp eq none cfg samples intr old fuel it st = callsFrom L it n ∧
      (∀ i < n, (L i).state.constraints = old ∧ (L i).state.objectiveCurve.length = st.objectiveCurve.length + (i + 1)) ∧
      ∀ st' out, NSlack.loop qp eq none cfg samples intr fuel it st = .ok (st', out) →
        (out = .goOn → n = fuel) ∧
        (∀ b, out = .stopped b → st'.objectiveCurve.length = st.objectiveCurve.length + (n + 1))
  | 0, it, st => ⟨fun _ => nSnapshot old st, 0, le_refl _, rfl, fun i hi => absurd hi (by omega),
      fun st' out h => ⟨fun _ => rfl, fun b hr => by
        simp only [NSlack.loop, Except.ok.injEq, Prod.mk.injEq] at h
        rw [← h.2] at hr
        cases hr⟩⟩
  | fuel + 1, it, st => by
    unfold nLoopCalls NSlack.loop
    cases hi : NSlack.iteration qp eq none cfg samples it (intr it) st with
    | error e =>
      refine ⟨fun _ => nSnapshot old st, 0, by omega, rfl, fun i hi => absurd hi (by omega), fun st' out h => ?_⟩
      cases h
    | ok r =>
      obtain ⟨st', out⟩ := r
      have hiter := NSlack.iteration_ok hi
      obtain ⟨bs, -, st1, s, k, fl, hrun, hcase⟩ := hiter
      have hkeep := runBatches_keep hrun
      cases out with
      | interrupted =>
        refine ⟨fun _ => nSnapshot old st, 0, by omega, rfl, fun i hi => absurd hi (by omega), fun st2 out h => ?_⟩
        simp only [Except.ok.injEq, Prod.mk.injEq] at h
        rw [← h.2]
        exact ⟨(fun h => by cases h), (fun b h => by cases h)⟩
      | stopped b0 =>
        refine ⟨fun _ => nSnapshot old st, 0, by omega, rfl, fun i hi => absurd hi (by omega), fun st2 out h => ?_⟩
        simp only [Except.ok.injEq, Prod.mk.injEq] at h
        rw [← h.1, ← h.2]
        refine ⟨(fun h => by cases h), fun b _ => ?_⟩
        rcases hcase with ⟨-, -, h0⟩ | ⟨-, obj, lc, -, ⟨-, -, h0, -⟩ | ⟨-, ⟨la, inf, h0, -⟩ | ⟨-, -, rfl⟩⟩⟩
        · cases h0
        · cases h0
        · cases h0
        · simp only [List.length_append, List.length_singleton, hkeep.2.1]
      | goOn =>
        have hst' : st'.switched = st1.switched ∧ st'.objectiveCurve.length = st.objectiveCurve.length + 1 := by
          rcases hcase with ⟨-, -, h0⟩ | ⟨-, obj, lc, -, ⟨-, -, -, rfl⟩ | ⟨-, ⟨la, inf, h0, -⟩ | ⟨-, h0, -⟩⟩⟩
          · cases h0
          · exact ⟨rfl, by simp only [List.length_append, List.length_singleton, hkeep.2.1]⟩
          · cases h0
          · cases h0
        have hsw : st1.switched = st.switched := runBatches_switched hrun
        obtain ⟨L, n, hn, hcalls, hL, hend⟩ := nLoopCalls_spec qp eq cfg samples intr old fuel (it + 1) st'
        refine ⟨consCall (nSnapshot old st') L, n + 1, by omega, ?_, fun i hi' => ?_, fun st2 out h => ?_⟩
        · simp only [hst'.1, hsw, if_true, hcalls]
          exact callsFrom_cons _ _ _ _
        · cases i with
          | zero => exact ⟨rfl, hst'.2⟩
          | succ i =>
            obtain ⟨h1, h2⟩ := hL i (by omega)
            refine ⟨h1, h2.trans ?_⟩
            rw [hst'.2]; omega
        · simp only at h
          obtain ⟨h1, h2⟩ := hend st2 out h
          refine ⟨fun ho => by rw [h1 ho], fun b hb => ?_⟩
          rw [h2 b hb, hst'.2]; omega

/-- **C123**, `NSlackSSVM` without `switch_to`: a training that returns calls the logger with the iterations `0, …, n - 1`, in this
order, and once with `'final'`; it makes all `max_iter` calls if it ran out of iterations, and makes no call in the iteration in
which it stops. In none of the numbered calls has the learner its new constraints: `constraints_` is that of an earlier training, or
missing. -/
theorem C123_n_slack_partial (m : SModel X Y) (qp : QP.Solver) (eq : Y → Y → Bool) (intr : ℕ → ℕ → Option OneSlack.Phase)
    (o o' : NSlack.Obj Y) (samples : List (X × Y)) (cs : Option (List (List (NSlack.NCon Y)))) (out : NSlack.Outcome)
    (h : NSlack.fit m qp eq none intr o samples cs = .ok (o', out)) :
    ∃ L n a, n ≤ o.cfg.maxIter ∧ o'.attrs = some a ∧
      nCalls m qp eq none intr o samples cs = trainingCalls L n ++ [(nFinal a o'.lossCurve, .final)] ∧
      (∀ i < n, (L i).state.constraints = o.attrs.map (·.constraints)) ∧
      (out = .goOn → n = o.cfg.maxIter) := by
  obtain ⟨st0, hst⟩ : ∃ st0, NSlack.start m qp o samples.length cs = .ok st0 := by
    unfold NSlack.fit at h
    cases hst : NSlack.start m qp o samples.length cs with
    | error e => rw [hst] at h; cases h
    | ok st0 => exact ⟨st0, rfl⟩
  obtain ⟨L, n, hn, hcalls, hL, hend⟩ :=
    nLoopCalls_spec qp eq o.cfg samples intr (o.attrs.map (·.constraints)) o.cfg.maxIter 0 st0
  have hfit := h
  unfold NSlack.fit at h
  rw [hst] at h
  simp only at h
  cases hl : NSlack.loop qp eq none o.cfg samples intr o.cfg.maxIter 0 st0 with
  | error e => rw [hl] at h; cases h
  | ok r =>
    obtain ⟨st, out'⟩ := r
    rw [hl] at h
    simp only at h
    by_cases h0 : o.cfg.maxIter = 0
    · rw [if_pos h0] at h; cases h
    · rw [if_neg h0] at h
      split at h
      · cases h
      · split at h
        · cases h
        · simp only [Except.ok.injEq, Prod.mk.injEq] at h
          obtain ⟨rfl, rfl⟩ := h
          refine ⟨L, n, _, hn, rfl, ?_, fun i hi => (hL i hi).1, (hend _ _ hl).1⟩
          unfold nCalls
          rw [hst, hfit]
          simp only [hcalls, callsFrom_zero]

/-! ### `LatentSSVM` -/

theorem latentCalls_spec (L : LatentSSVM.LModel X Y H) (B : LatentSSVM.Base σ X H) (same : H → H → Bool)
    (samples : List (X × Y)) : ∀ (fuel it : ℕ) (st st' : LatentSSVM.St σ H) (b : Bool),
      LatentSSVM.loop L B same samples fuel it st = .ok (st', b) →
      ∃ l : List (List H × σ), st'.hist = st.hist ++ l ∧ st'.base = (l.getLast?.map (·.2)).getD st.base ∧
        latentCalls L B same samples fuel it st = (l.zipIdx it).map fun p => (⟨p.1.2, none⟩, .num p.2)
  | 0, it, st, st', b, h => by
    simp only [LatentSSVM.loop, Except.ok.injEq, Prod.mk.injEq] at h
    exact ⟨[], by rw [h.1, List.append_nil], by rw [h.1]; rfl, rfl⟩
  | fuel + 1, it, st, st', b, h => by
    unfold LatentSSVM.loop at h
    unfold latentCalls
    cases hi : LatentSSVM.iteration L B same samples it st with
    | error e => rw [hi] at h; cases h
    | ok r =>
      obtain ⟨st1, stop⟩ := r
      rw [hi] at h
      have hh : (stop = true ∧ st1 = st) ∨ (stop = false ∧ ∃ hs, st1.hist = st.hist ++ [(hs, st1.base)]) := by
        have href : ∀ (hs : List H) cs w, ∀ s, LatentSSVM.refit B samples st hs cs w = .ok s → s.hist = st.hist ++ [(hs, s.base)] := by
          intro hs cs w s hs'
          unfold LatentSSVM.refit at hs'
          split at hs'
          · cases hs'
          · cases hs'
            rfl
        unfold LatentSSVM.iteration at hi
        by_cases h0 : it = 0
        · rw [if_pos h0] at hi
          split at hi
          · cases hi
          · rename_i s hs
            simp only [Except.ok.injEq, Prod.mk.injEq] at hi
            exact .inr ⟨hi.2.symm, _, by rw [← hi.1]; exact href _ _ _ _ hs⟩
        · rw [if_neg h0] at hi
          split_ifs at hi with h1
          · simp only [Except.ok.injEq, Prod.mk.injEq] at hi
            exact .inl ⟨hi.2.symm, hi.1.symm⟩
          · split at hi
            · cases hi
            · rename_i s hs
              simp only [Except.ok.injEq, Prod.mk.injEq] at hi
              exact .inr ⟨hi.2.symm, _, by rw [← hi.1]; exact href _ _ _ _ hs⟩
      rcases hh with ⟨rfl, rfl⟩ | ⟨rfl, hs, hhist⟩
      · simp only [Except.ok.injEq, Prod.mk.injEq] at h
        exact ⟨[], by rw [h.1, List.append_nil], by rw [h.1]; rfl, rfl⟩
      · simp only at h
        obtain ⟨l, h1, h2, h3⟩ := latentCalls_spec L B same samples fuel (it + 1) st1 st' b h
        refine ⟨(hs, st1.base) :: l, by rw [h1, hhist]; simp, ?_, ?_⟩
        · rw [h2]
          cases l with
          | nil => rfl
          | cons y l =>
            rw [List.getLast?_cons_cons, List.getLast?_eq_getLast_of_ne_nil (by simp)]
            rfl
        · simp only [h3, List.zipIdx_cons, List.map_cons]

/-- **C123**, `LatentSSVM`: a training that returns calls the logger once for every training of the base learner, with the number
of the iteration and the base learner it ended with. There is no call with `'final'`. -/
theorem C123_latent (L : LatentSSVM.LModel X Y H) (B : LatentSSVM.Base σ X H) (same : H → H → Bool) (samples : List (X × Y))
    (latentIter : ℕ) (base : σ) (hInit : Option (List H)) (st' : LatentSSVM.St σ H) (b : Bool)
    (h : LatentSSVM.fit L B same latentIter base samples hInit = .ok (st', b)) :
    ∃ K, latentCalls L B same samples latentIter 0 ⟨base, fun _ => 0, hInit.getD (L.initLatent samples), []⟩ =
        trainingCalls K st'.hist.length ∧
      (∀ i r, st'.hist[i]? = some r → (K i).state = r.2) ∧ (st'.hist ≠ [] → (K (st'.hist.length - 1)).state = st'.base) := by
  obtain ⟨l, h1, h2, h3⟩ := latentCalls_spec L B same samples latentIter 0 _ st' b h
  simp only [List.nil_append] at h1
  have hK : ∀ (i : ℕ) (r : List H × σ), l[i]? = some r → (l[i]?.map (·.2)).getD base = r.2 := by
    intro i r hi
    rw [hi]
    rfl
  refine ⟨fun i => ⟨(l[i]?.map (·.2)).getD base, none⟩, ?_, ?_, ?_⟩
  · rw [h3, h1]
    unfold trainingCalls
    apply List.ext_getElem?
    intro i
    simp only [List.getElem?_map, List.getElem?_zipIdx, List.getElem?_range', Nat.zero_add]
    by_cases hi : i < l.length
    · simp [hi]
    · simp [hi]
  · intro i r hi
    rw [h1] at hi
    exact hK i r hi
  · intro hne
    rw [h1] at hne
    rw [h2, h1, List.getLast?_eq_getElem?]

/-- **C123**, the file after a training of `LatentSSVM`: it holds the base learner of the last iteration whose number is a multiple of
`save_every`, which need not be the trained one. -/
theorem C123_latent_file (env : Env σ Empty) (henv : NoFailures env) (lg : SaveLogger) (he : 1 ≤ lg.saveEvery)
    (hname : NoPercent lg.fileName) (files : Files σ Empty) (L : LatentSSVM.LModel X Y H) (B : LatentSSVM.Base σ X H)
    (same : H → H → Bool) (samples : List (X × Y)) (latentIter : ℕ) (base : σ) (hInit : Option (List H))
    (st' : LatentSSVM.St σ H) (b : Bool) (h : LatentSSVM.fit L B same latentIter base samples hInit = .ok (st', b))
    (hne : st'.hist ≠ []) :
    ∃ files' l r, run env lg files
        (latentCalls L B same samples latentIter 0 ⟨base, fun _ => 0, hInit.getD (L.initLatent samples), []⟩) = .ok files' ∧
      load lg files' = .ok l ∧ st'.hist[(st'.hist.length - 1) / lg.saveEvery * lg.saveEvery]? = some r ∧ l.state = r.2 := by
  obtain ⟨K, hcalls, hK, -⟩ := C123_latent L B same samples latentIter base hInit st' b h
  have hpos : 0 < st'.hist.length := List.length_pos_iff.mpr hne
  obtain ⟨k, hk⟩ : ∃ k, st'.hist.length = k + 1 := ⟨st'.hist.length - 1, by omega⟩
  obtain ⟨files', hf, hload⟩ := file_after env henv lg he hname files K k
  have hle : k / lg.saveEvery * lg.saveEvery ≤ k := Nat.div_mul_le_self k lg.saveEvery
  have hget : st'.hist[k / lg.saveEvery * lg.saveEvery]? = some (st'.hist[k / lg.saveEvery * lg.saveEvery]'(by omega)) :=
    List.getElem?_eq_getElem _
  refine ⟨files', _, _, by rw [hcalls, hk]; exact hf, hload, by rw [hk, Nat.add_sub_cancel]; exact hget, ?_⟩
  have := hK _ _ hget
  generalize K (k / lg.saveEvery * lg.saveEvery) = l at this ⊢
  obtain ⟨s, c⟩ := l
  cases c <;> exact this

/-- **C123 violated** for `LatentSSVM`: after a training of two iterations with the default `save_every=10`, the file holds the base
learner of the first iteration, with other weights than the trained learner. -/
theorem C123_violated_latent (env : Env ℚ Empty) (henv : NoFailures env) (lg : SaveLogger) (he : lg.saveEvery = 10)
    (hname : NoPercent lg.fileName) (files : Files ℚ Empty) :
    ∃ st' files' l, LatentSSVM.fit hiddenLatent hiddenBase natBeq 5 0 [((), 0)] none = .ok (st', true) ∧
      run env lg files (latentCalls hiddenLatent hiddenBase natBeq [((), 0)] 5 0
        ⟨0, fun _ => 0, hiddenLatent.initLatent [((), 0)], []⟩) = .ok files' ∧
      load lg files' = .ok l ∧ l.state = 1 / 2 ∧ st'.base = 1 := by
  have hfit : ∃ st', LatentSSVM.fit hiddenLatent hiddenBase natBeq 5 0 [((), 0)] none = .ok (st', true) ∧
      st'.hist.map (·.2) = [1 / 2, 1] ∧ st'.base = 1 := by
    have : (LatentSSVM.fit hiddenLatent hiddenBase natBeq 5 0 [((), 0)] none).map
        (fun r => (r.2, r.1.hist.map (·.2), r.1.base)) = .ok (true, [1 / 2, 1], 1) := by
      decide +kernel
    generalize LatentSSVM.fit hiddenLatent hiddenBase natBeq 5 0 [((), 0)] none = r at this
    obtain e | ⟨st', b⟩ := r
    · cases this
    · simp only [Except.map, Except.ok.injEq, Prod.mk.injEq] at this
      obtain ⟨rfl, h1, h2⟩ := this
      exact ⟨st', rfl, h1, h2⟩
  obtain ⟨st', hfit, hh, hb⟩ := hfit
  have hlen : st'.hist.length = 2 := by
    rw [← List.length_map (f := (·.2)), hh]; rfl
  obtain ⟨files', l, r, h1, h2, h3, h4⟩ := C123_latent_file env henv lg (by omega) hname files hiddenLatent hiddenBase natBeq
    [((), 0)] 5 0 none st' true hfit (by intro h0; rw [h0] at hlen; cases hlen)
  refine ⟨st', files', l, hfit, h1, h2, ?_, hb⟩
  rw [hlen, he] at h3
  have h5 : (st'.hist.map (·.2))[0]? = some r.2 := by
    rw [List.getElem?_map]
    change Option.map _ (st'.hist[0]?) = _
    rw [show st'.hist[0]? = some r from h3]
    rfl
  rw [hh] at h5
  rw [h4]
  exact (Option.some.inj h5).symm

/-! ### `FrankWolfeSSVM` -/

theorem fwBatchCalls_spec (m : SModel X Y) (cfg : FrankWolfe.Config) (samples : List (X × Y)) (selfL : ℚ) :
    ∀ (fuel it : ℕ) (w : W) (l : ℚ) (c : FrankWolfe.Curves), ∃ L n, n ≤ fuel ∧ (0 < fuel → 0 < n) ∧
      fwBatchCalls m cfg samples selfL fuel it w l c = callsFrom L it n ∧
      (FrankWolfe.batchLoop m cfg samples fuel it w l c).2.dual.length = c.dual.length + n ∧
      (0 < n → (L (n - 1)).state = ⟨cfg, some (FrankWolfe.batchLoop m cfg samples fuel it w l c).1, some selfL,
        (FrankWolfe.batchLoop m cfg samples fuel it w l c).2⟩)
  | 0, it, w, l, c => ⟨fun _ => ⟨⟨cfg, some w, some selfL, c⟩, none⟩, 0, le_refl _, fun h => absurd h (by omega), rfl, rfl,
      fun h => absurd h (by omega)⟩
  | fuel + 1, it, w, l, c => by
    unfold fwBatchCalls FrankWolfe.batchLoop
    simp only
    generalize FrankWolfe.batchStep m cfg samples it w l = r
    by_cases hg : r.1.2.1 < cfg.tol
    · refine ⟨fun _ => ⟨⟨cfg, some r.2.1, some selfL, ⟨c.dual ++ [r.1.1], c.primal ++ [r.1.2.2]⟩⟩, none⟩, 1, by omega,
        fun _ => by omega, ?_, ?_, fun _ => ?_⟩
      · rw [if_pos hg]; rfl
      · rw [if_pos hg]; simp
      · rw [if_pos hg]
    · obtain ⟨L, n, hn, hpos, hcalls, hlen, hlast⟩ := fwBatchCalls_spec m cfg samples selfL fuel (it + 1) r.2.1 r.2.2
        ⟨c.dual ++ [r.1.1], c.primal ++ [r.1.2.2]⟩
      refine ⟨consCall ⟨⟨cfg, some r.2.1, some selfL, ⟨c.dual ++ [r.1.1], c.primal ++ [r.1.2.2]⟩⟩, none⟩ L, n + 1, by omega,
        fun _ => by omega, ?_, ?_, fun _ => ?_⟩
      · rw [if_neg hg, hcalls]
        exact callsFrom_cons _ _ _ _
      · rw [if_neg hg, hlen]; simp; omega
      · rw [if_neg hg]
        cases fuel with
        | zero =>
          obtain rfl : n = 0 := by omega
          rfl
        | succ fuel =>
          have := hpos (by omega)
          obtain ⟨k, rfl⟩ : ∃ k, n = k + 1 := ⟨n - 1, by omega⟩
          exact hlast (by omega)

theorem fwCalls_spec (m : SModel X Y) (cfg : FrankWolfe.Config) (order : ℕ → List ℕ) (samples : List (X × Y)) :
    ∀ (fuel it : ℕ) (st : FrankWolfe.BC) (gap : Option ℚ) (c : FrankWolfe.Curves) (st' : FrankWolfe.BC) (c' : FrankWolfe.Curves),
      FrankWolfe.bcLoop m cfg order samples fuel it st gap c = .ok (st', c') →
      ∃ L n, n ≤ fuel ∧ (0 < fuel → 0 < n) ∧ fwCalls m cfg order samples fuel it st gap c = callsFrom L it n ∧
        (0 < n → (L (n - 1)).state = ⟨cfg, some st'.selfW, some st'.selfL, c'⟩)
  | 0, it, st, gap, c, st', c', _ => ⟨fun _ => ⟨⟨cfg, some st.selfW, some st.selfL, c⟩, none⟩, 0, le_refl _,
      fun h => absurd h (by omega), rfl, fun h => absurd h (by omega)⟩
  | fuel + 1, it, st, gap, c, st', c', h => by
    unfold FrankWolfe.bcLoop at h
    unfold fwCalls
    simp only at h ⊢
    generalize (order it).foldl (FrankWolfe.bcStep m cfg samples) st = st1 at h ⊢
    have key : ∀ (g : ℚ) (c1 : FrankWolfe.Curves),
        (if g < cfg.tol then (Except.ok (st1, c1) : Except PyErr (FrankWolfe.BC × FrankWolfe.Curves))
          else FrankWolfe.bcLoop m cfg order samples fuel (it + 1) st1 (some g) c1) = .ok (st', c') →
        ∃ L n, n ≤ fuel + 1 ∧ (0 < fuel + 1 → 0 < n) ∧
          ((⟨⟨cfg, some st1.selfW, some st1.selfL, c1⟩, none⟩, Iter.num it) ::
            if g < cfg.tol then [] else fwCalls m cfg order samples fuel (it + 1) st1 (some g) c1) = callsFrom L it n ∧
          (0 < n → (L (n - 1)).state = ⟨cfg, some st'.selfW, some st'.selfL, c'⟩) := by
      intro g c1 h1
      by_cases hg : g < cfg.tol
      · rw [if_pos hg] at h1
        simp only [Except.ok.injEq, Prod.mk.injEq] at h1
        rw [← h1.1, ← h1.2]
        refine ⟨fun _ => ⟨⟨cfg, some st1.selfW, some st1.selfL, c1⟩, none⟩, 1, by omega, fun _ => by omega, ?_, fun _ => rfl⟩
        rw [if_pos hg]; rfl
      · rw [if_neg hg] at h1
        obtain ⟨L, n, hn, hpos, hcalls, hlast⟩ := fwCalls_spec m cfg order samples fuel (it + 1) st1 (some g) c1 st' c' h1
        refine ⟨consCall ⟨⟨cfg, some st1.selfW, some st1.selfL, c1⟩, none⟩ L, n + 1, by omega, fun _ => by omega, ?_, fun _ => ?_⟩
        · rw [if_neg hg, hcalls]
          exact callsFrom_cons _ _ _ _
        · cases fuel with
          | zero =>
            obtain rfl : n = 0 := by omega
            simp only [FrankWolfe.bcLoop, Except.ok.injEq, Prod.mk.injEq] at h1
            rw [← h1.1, ← h1.2]
            rfl
          | succ fuel =>
            have := hpos (by omega)
            obtain ⟨k, rfl⟩ : ∃ k, n = k + 1 := ⟨n - 1, by omega⟩
            exact hlast (by omega)
    by_cases hc : cfg.checkDualEvery ≠ 0 ∧ it % cfg.checkDualEvery = 0
    · rw [if_pos hc] at h ⊢
      cases hd : FrankWolfe.calcDualGap m cfg.C samples st1.selfW st1.selfL with
      | error e => rw [hd] at h; cases h
      | ok r =>
        obtain ⟨d, g, p⟩ := r
        rw [hd] at h
        exact key g _ h
    · rw [if_neg hc] at h ⊢
      cases gap with
      | none => cases h
      | some g => exact key g _ h

/-- **C123**, `FrankWolfeSSVM`, both modes: a training that returns calls the logger with the iterations `0, …, n - 1` and once with
`'final'`, and `n ≥ 1`. The iteration in which the loop stops makes its call, so the last numbered call sees the trained weights; the
final call only adds the last entries of the curves. -/
theorem C123_frank_wolfe (m : SModel X Y) (order : ℕ → List ℕ) (o o' : FrankWolfe.Obj) (samples : List (X × Y))
    (h : FrankWolfe.fit m order o samples = .ok o') :
    ∃ L n, n + 1 ≤ o.cfg.maxIter ∧ fwFitCalls m order o samples = trainingCalls L (n + 1) ++ [(⟨o', none⟩, .final)] ∧
      (L n).state.w = o'.w ∧ (L n).state.l = o'.l ∧ ∃ d p, o'.curves = ⟨(L n).state.curves.dual ++ [d], (L n).state.curves.primal ++ [p]⟩ := by
  have hsame : FrankWolfe.fit m order o samples =
      FrankWolfe.fit m order { o with w := some (o.w.getD fun _ => 0), l := some (o.l.getD 0) } samples := by
    obtain ⟨cfg, w, l, c⟩ := o
    cases w <;> cases l <;> rfl
  unfold fwFitCalls
  rw [h]
  rw [hsame] at h
  unfold FrankWolfe.fit at h
  simp only at h
  generalize o.w.getD (fun _ => 0) = w0 at h ⊢
  generalize o.l.getD 0 = l0 at h ⊢
  have fin : ∀ (w : W) (l : ℚ) (c : FrankWolfe.Curves) (calls : List (Call FrankWolfe.Obj Empty)),
      (match objectivePrimal m w samples o.cfg.C true with
        | .error err => (.error err : Except PyErr FrankWolfe.Obj)
        | .ok p => match c.dual.getLast? with
          | none => .error .indexError
          | some d => .ok ⟨o.cfg, some w, some l, ⟨c.dual ++ [d], c.primal ++ [p]⟩⟩) = .ok o' →
      (∃ L n, n ≤ o.cfg.maxIter ∧ (c.dual ≠ [] → 0 < n) ∧ calls = callsFrom L 0 n ∧
        (0 < n → (L (n - 1)).state = ⟨o.cfg, some w, some l, c⟩)) →
      ∃ L n, n + 1 ≤ o.cfg.maxIter ∧ calls ++ [(⟨o', none⟩, .final)] = trainingCalls L (n + 1) ++ [(⟨o', none⟩, .final)] ∧
        (L n).state.w = o'.w ∧ (L n).state.l = o'.l ∧
        ∃ d p, o'.curves = ⟨(L n).state.curves.dual ++ [d], (L n).state.curves.primal ++ [p]⟩ := by
    intro w l c calls h1 h2
    obtain ⟨L, n, hn, hpos, rfl, hlast⟩ := h2
    cases hp : objectivePrimal m w samples o.cfg.C true with
    | error e => rw [hp] at h1; cases h1
    | ok p =>
      rw [hp] at h1
      simp only at h1
      cases hd : c.dual.getLast? with
      | none => rw [hd] at h1; cases h1
      | some d =>
        rw [hd] at h1
        simp only [Except.ok.injEq] at h1
        have hne : c.dual ≠ [] := by
          intro h0
          rw [h0] at hd
          cases hd
        have h0 := hpos hne
        obtain ⟨k, rfl⟩ : ∃ k, n = k + 1 := ⟨n - 1, by omega⟩
        have h3 := hlast (by omega)
        rw [Nat.add_sub_cancel] at h3
        refine ⟨L, k, hn, by rw [callsFrom_zero], ?_, ?_, d, p, ?_⟩
        · rw [h3, ← h1]
        · rw [h3, ← h1]
        · rw [h3, ← h1]
  by_cases hb : o.cfg.batchMode = true
  · rw [if_pos hb] at h ⊢
    by_cases hr : m.rescaleC = true ∧ o.cfg.maxIter ≠ 0
    · rw [if_pos hr] at h; cases h
    · rw [if_neg hr] at h ⊢
      simp only at h
      refine fin _ _ _ _ h ?_
      obtain ⟨L, n, hn, -, h1, h2, h3⟩ := fwBatchCalls_spec m o.cfg samples l0 o.cfg.maxIter 0 w0 0 ⟨[], []⟩
      refine ⟨L, n, hn, fun hne => ?_, h1, h3⟩
      rcases Nat.eq_zero_or_pos n with rfl | h0
      · exact absurd (List.length_eq_zero_iff.mp h2) hne
      · exact h0
  · rw [if_neg hb] at h ⊢
    cases hl : FrankWolfe.bcLoop m o.cfg order samples o.cfg.maxIter 0 (FrankWolfe.bcStart w0 l0) none ⟨[], []⟩ with
    | error e => rw [hl] at h; cases h
    | ok r =>
      obtain ⟨st', c'⟩ := r
      rw [hl] at h
      simp only at h
      refine fin _ _ _ _ h ?_
      obtain ⟨L, n, hn, hpos, h1, h2⟩ := fwCalls_spec m o.cfg order samples o.cfg.maxIter 0 _ none ⟨[], []⟩ st' c' hl
      refine ⟨L, n, hn, fun hne => hpos ?_, h1, h2⟩
      rcases Nat.eq_zero_or_pos o.cfg.maxIter with h0 | h0
      · rw [h0] at hl
        simp only [FrankWolfe.bcLoop, Except.ok.injEq, Prod.mk.injEq] at hl
        rw [← hl.2] at hne
        exact absurd rfl hne
      · exact h0

/-- **C123 violated** for `NSlackSSVM`: the checkpoint written by the first call of a first training has weights and curves, but no
`constraints_` to resume the training with. -/
theorem C123_violated_n_slack :
    ∃ l rest, nCalls exampleTable exampleNSolver natBeq none (fun _ _ => none) (exampleNS 1 1 1 50) [((), 0), ((), 0)] none =
      (l, .num 0) :: rest ∧ l.state.constraints = none ∧ l.state.w 0 = 1 / 2 := by
  have key : ((nCalls exampleTable exampleNSolver natBeq none (fun _ _ => none) (exampleNS 1 1 1 50) [((), 0), ((), 0)] none).map
      fun p => (callNumber p, p.1.state.constraints.isNone, p.1.state.w 0)).head? = some (some 0, true, 1 / 2) := by decide +kernel
  generalize nCalls exampleTable exampleNSolver natBeq none (fun _ _ => none) (exampleNS 1 1 1 50) [((), 0), ((), 0)] none = calls at key
  match calls, key with
  | [], key => cases key
  | (l, .final) :: rest, key => simp [callNumber] at key
  | (l, .num k) :: rest, key =>
    simp only [callNumber, List.map_cons, List.head?_cons, Option.some.injEq, Prod.mk.injEq, Option.isNone_iff_eq_none] at key
    obtain ⟨rfl, h1, h2⟩ := key
    exact ⟨l, rest, rfl, h1, h2⟩

/-! ### examples -/

/-- A training of `OneSlackSSVM` with three numbered calls and the final one. -/
example : (oneCalls prunedTable prunedSolver natEq none (fun _ => none) (Resume.oneIters (exampleOS 1 (1 / 2) 0 1) 3) [((), 0)]
    .no).map callNumber = [some 0, some 1, some 2, none] := by decide +kernel

/-- One of `SubgradientSSVM`. -/
example : (subCalls (multiClassModel exampleClf) (fun _ => sgB) (exampleSG 2 1 none .none) sgB false).map callNumber =
    [some 0, some 1, none] := by decide +kernel

/-- One of `FrankWolfeSSVM`. -/
example : (fwFitCalls (multiClassModel exampleClf) (fun _ => [1, 0]) (exampleFW 2 false true false) exampleSamples).map
    callNumber = [some 0, some 1, none] := by decide +kernel

/-- One of `LatentSSVM`: no final call. -/
example : (latentCalls hiddenLatent hiddenBase natBeq [((), 0)] 5 0 ⟨0, fun _ => 0, [0], []⟩).map callNumber =
    [some 0, some 1] := by decide +kernel

end Verif.Props
