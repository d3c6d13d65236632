import Verif.Model.Interrupt
import Verif.Props.C65

/-!
# C143: interrupting `FrankWolfeSSVM.fit`
-/

namespace Verif.Props

open Finset Verif.Learner Verif.FrankWolfe Verif.Interrupt Verif.Spec

variable {X Y : Type}

/-! ### the interrupted loop is the loop of `fit` up to the interrupt -/

/-- The samples visited in `n` iterations from iteration `it` on. -/
def visitsFrom (order : ℕ → List ℕ) (it n : ℕ) : List ℕ := ((List.range n).map fun i => order (it + i)).flatten

theorem visitsFrom_succ (order : ℕ → List ℕ) (it n : ℕ) :
    visitsFrom order it (n + 1) = order it ++ visitsFrom order (it + 1) n := by
  unfold visitsFrom
  rw [List.range_succ_eq_map, List.map_cons, List.flatten_cons, List.map_map]
  congr 3
  funext i
  simp only [Function.comp, Nat.succ_eq_add_one]
  congr 1; omega

/-- what the interrupted block-coordinate loop leaves. -/
theorem fwBcLoop_eq (m : SModel X Y) (cfg : Config) (order : ℕ → List ℕ) (samples : List (X × Y)) (stop j : ℕ)
    (n it : ℕ) (st : BC) (gap : Option ℚ) (c : Curves) (hle : it ≤ stop) (st' : BC) (c' : Curves) (hit : Bool)
    (h : fwBcLoop m cfg order samples stop j n it st gap c = .ok (st', c', hit)) :
    (hit = false → bcLoop m cfg order samples n it st gap c = .ok (st', c')) ∧
    (hit = true → stop < it + n ∧ ∃ st1, bcLoop m cfg order samples (stop - it) it st gap c = .ok (st1, c') ∧
      st1 = (visitsFrom order it (stop - it)).foldl (bcStep m cfg samples) st ∧
      st' = ((order stop).take j).foldl (bcStep m cfg samples) st1) := by
  induction n generalizing it st gap c with
  | zero =>
    unfold fwBcLoop at h
    simp only [Except.ok.injEq, Prod.mk.injEq] at h
    obtain ⟨rfl, rfl, rfl⟩ := h
    exact ⟨fun _ => rfl, fun h => (by cases h)⟩
  | succ n ih =>
    unfold fwBcLoop at h
    by_cases hs : it = stop
    · rw [if_pos hs] at h
      simp only [Except.ok.injEq, Prod.mk.injEq] at h
      obtain ⟨rfl, rfl, rfl⟩ := h
      refine ⟨fun h => (by cases h), fun _ => ⟨by omega, st, ?_, ?_, by rw [hs]⟩⟩
      · rw [hs, Nat.sub_self]; rfl
      · rw [hs, Nat.sub_self]; rfl
    · rw [if_neg hs] at h
      simp only at h
      have hlt : it + 1 ≤ stop := by omega
      obtain ⟨k, hk⟩ : ∃ k, stop - it = k + 1 := ⟨stop - it - 1, by omega⟩
      have hk' : stop - (it + 1) = k := by omega
      have next : ∀ gap c, fwBcLoop m cfg order samples stop j n (it + 1)
            ((order it).foldl (bcStep m cfg samples) st) gap c = .ok (st', c', hit) →
          (hit = false → bcLoop m cfg order samples n (it + 1) ((order it).foldl (bcStep m cfg samples) st) gap c =
            .ok (st', c')) ∧
          (hit = true → stop < it + (n + 1) ∧ ∃ st1, bcLoop m cfg order samples k (it + 1)
              ((order it).foldl (bcStep m cfg samples) st) gap c = .ok (st1, c') ∧
            st1 = (visitsFrom order it (k + 1)).foldl (bcStep m cfg samples) st ∧
            st' = ((order stop).take j).foldl (bcStep m cfg samples) st1) := by
        intro gap c h
        obtain ⟨i1, i2⟩ := ih (it + 1) _ gap c hlt h
        refine ⟨i1, fun hh => ?_⟩
        obtain ⟨a1, st1, a2, a3, a4⟩ := i2 hh
        rw [hk'] at a2 a3
        exact ⟨by omega, st1, a2, by rw [a3, visitsFrom_succ, List.foldl_append], a4⟩
      rw [hk]
      unfold bcLoop
      simp only
      by_cases hck : cfg.checkDualEvery ≠ 0 ∧ it % cfg.checkDualEvery = 0
      · rw [if_pos hck] at h
        simp only [if_pos hck]
        cases hg : calcDualGap m cfg.C samples ((order it).foldl (bcStep m cfg samples) st).selfW
            ((order it).foldl (bcStep m cfg samples) st).selfL with
        | error err => rw [hg] at h; cases h
        | ok r =>
          obtain ⟨d, g, p⟩ := r
          rw [hg] at h
          simp only at h ⊢
          by_cases hlt : g < cfg.tol
          · rw [if_pos hlt] at h
            simp only [Except.ok.injEq, Prod.mk.injEq] at h
            obtain ⟨rfl, rfl, rfl⟩ := h
            simp only [if_pos hlt]
            exact ⟨fun _ => trivial, fun h => (by cases h)⟩
          · rw [if_neg hlt] at h
            simp only [if_neg hlt]
            exact next _ _ h
      · rw [if_neg hck] at h
        simp only [if_neg hck]
        cases gap with
        | none => cases h
        | some g =>
          simp only at h ⊢
          by_cases hlt : g < cfg.tol
          · rw [if_pos hlt] at h
            simp only [Except.ok.injEq, Prod.mk.injEq] at h
            obtain ⟨rfl, rfl, rfl⟩ := h
            simp only [if_pos hlt]
            exact ⟨fun _ => trivial, fun h => (by cases h)⟩
          · rw [if_neg hlt] at h
            simp only [if_neg hlt]
            exact next _ _ h

/-- what the interrupted batch loop leaves. -/
theorem fwBatchLoop_eq (m : SModel X Y) (cfg : Config) (samples : List (X × Y)) (stop : ℕ) (n it : ℕ) (w : W) (l : ℚ)
    (c : Curves) (hle : it ≤ stop) :
    ((fwBatchLoop m cfg samples stop n it w l c).2.2 = false →
      batchLoop m cfg samples n it w l c =
        ((fwBatchLoop m cfg samples stop n it w l c).1, (fwBatchLoop m cfg samples stop n it w l c).2.1)) ∧
    ((fwBatchLoop m cfg samples stop n it w l c).2.2 = true → stop < it + n ∧
      batchLoop m cfg samples (stop - it) it w l c =
        ((fwBatchLoop m cfg samples stop n it w l c).1, (fwBatchLoop m cfg samples stop n it w l c).2.1)) := by
  induction n generalizing it w l c with
  | zero => exact ⟨fun _ => rfl, fun h => (by cases h)⟩
  | succ n ih =>
    unfold fwBatchLoop
    by_cases hs : it = stop
    · simp only [if_pos hs]
      refine ⟨fun h => (by cases h), fun _ => ⟨by omega, ?_⟩⟩
      rw [hs, Nat.sub_self]; rfl
    · simp only [if_neg hs]
      obtain ⟨k, hk⟩ : ∃ k, stop - it = k + 1 := ⟨stop - it - 1, by omega⟩
      have hk' : stop - (it + 1) = k := by omega
      rw [hk]
      unfold batchLoop
      simp only
      by_cases hlt : (FrankWolfe.batchStep m cfg samples it w l).1.2.1 < cfg.tol
      · simp only [if_pos hlt]
        exact ⟨fun _ => trivial, fun h => (by cases h)⟩
      · simp only [if_neg hlt]
        obtain ⟨i1, i2⟩ := ih (it + 1) (FrankWolfe.batchStep m cfg samples it w l).2.1
          (FrankWolfe.batchStep m cfg samples it w l).2.2
          ⟨c.dual ++ [(FrankWolfe.batchStep m cfg samples it w l).1.1],
            c.primal ++ [(FrankWolfe.batchStep m cfg samples it w l).1.2.2]⟩ (by omega)
        refine ⟨i1, fun hh => ?_⟩
        obtain ⟨a1, a2⟩ := i2 hh
        rw [hk'] at a2
        exact ⟨by omega, a2⟩

/-- what training leaves before the final objective, without interrupt. -/
def fwRunFull (m : SModel X Y) (order : ℕ → List ℕ) (n : ℕ) (o : FrankWolfe.Obj) (samples : List (X × Y)) :
    Except PyErr (W × ℚ × Curves) :=
  if o.cfg.batchMode then
    if m.rescaleC ∧ n ≠ 0 then .error .valueError
    else
      let r := batchLoop m o.cfg samples n 0 (o.w.getD fun _ => 0) 0 ⟨[], []⟩
      .ok (r.1, o.l.getD 0, r.2)
  else
    match bcLoop m o.cfg order samples n 0 (bcStart (o.w.getD fun _ => 0) (o.l.getD 0)) none ⟨[], []⟩ with
    | .error err => .error err
    | .ok (st, c) => .ok (st.selfW, st.selfL, c)

/-- the end of `fit`. -/
def fwFinish (m : SModel X Y) (o : FrankWolfe.Obj) (samples : List (X × Y)) (r : W × ℚ × Curves) :
    Except PyErr FrankWolfe.Obj :=
  match objectivePrimal m r.1 samples o.cfg.C true with
  | .error err => .error err
  | .ok p =>
    match r.2.2.dual.getLast? with
    | none => .error .indexError
    | some d => .ok ⟨o.cfg, some r.1, some r.2.1, ⟨r.2.2.dual ++ [d], r.2.2.primal ++ [p]⟩⟩

theorem fwFit_full (m : SModel X Y) (order : ℕ → List ℕ) (o : FrankWolfe.Obj) (samples : List (X × Y)) :
    FrankWolfe.fit m order o samples =
      (fwRunFull m order o.cfg.maxIter o samples).bind (fwFinish m o samples) := by
  unfold FrankWolfe.fit fwRunFull
  cases hw : o.w <;> cases hl : o.l <;>
  · simp only [Option.getD_none, Option.getD_some]
    by_cases hb : o.cfg.batchMode = true
    · simp only [hb, if_true]
      by_cases hr : m.rescaleC = true ∧ o.cfg.maxIter ≠ 0
      · rw [if_pos hr]; rfl
      · rw [if_neg hr]; rfl
    · rw [if_neg hb, if_neg hb]
      generalize bcLoop m o.cfg order samples o.cfg.maxIter 0 _ none ⟨[], []⟩ = q
      cases q <;> rfl

theorem fwFit_interrupted (m : SModel X Y) (order : ℕ → List ℕ) (stop j : ℕ) (o : FrankWolfe.Obj)
    (samples : List (X × Y)) :
    fwFit m order stop j o samples =
      (fwRun m order stop j o samples).bind fun r =>
        (fwFinish m o samples (r.1, r.2.1, r.2.2.1)).map fun o' => (o', r.2.2.2) := by
  unfold fwFit
  cases h : fwRun m order stop j o samples with
  | error err => rfl
  | ok r =>
    obtain ⟨w, l, c, hit⟩ := r
    simp only [Except.bind, fwFinish]
    cases hp : objectivePrimal m w samples o.cfg.C true with
    | error err => rfl
    | ok p =>
      simp only
      cases hd : c.dual.getLast? with
      | none => rfl
      | some d => rfl

/-- an interrupted run in terms of runs without interrupt. -/
theorem fwRun_eq {m : SModel X Y} {order : ℕ → List ℕ} {stop j : ℕ} {o : FrankWolfe.Obj} {samples : List (X × Y)}
    {w : W} {l : ℚ} {c : Curves} {hit : Bool} (h : fwRun m order stop j o samples = .ok (w, l, c, hit)) :
    (hit = false → stop ≠ 0 ∨ m.rescaleC = false ∨ o.cfg.maxIter = 0 →
      fwRunFull m order o.cfg.maxIter o samples = .ok (w, l, c)) ∧
    (hit = true → stop < o.cfg.maxIter ∧
      (o.cfg.batchMode = true → fwRunFull m order stop o samples = .ok (w, l, c)) ∧
      (o.cfg.batchMode = false → ∃ st1, bcLoop m o.cfg order samples stop 0
          (bcStart (o.w.getD fun _ => 0) (o.l.getD 0)) none ⟨[], []⟩ = .ok (st1, c) ∧
        st1 = (visitsFrom order 0 stop).foldl (bcStep m o.cfg samples) (bcStart (o.w.getD fun _ => 0) (o.l.getD 0)) ∧
        w = (((order stop).take j).foldl (bcStep m o.cfg samples) st1).selfW ∧
        l = (((order stop).take j).foldl (bcStep m o.cfg samples) st1).selfL)) := by
  unfold fwRun at h
  unfold fwRunFull
  by_cases hb : o.cfg.batchMode = true
  · rw [if_pos hb] at h
    by_cases hr : m.rescaleC = true ∧ o.cfg.maxIter ≠ 0 ∧ stop ≠ 0
    · rw [if_pos hr] at h; cases h
    · rw [if_neg hr] at h
      simp only [Except.ok.injEq, Prod.mk.injEq] at h
      obtain ⟨h1, h2, h3⟩ := h
      obtain ⟨e1, e2⟩ := fwBatchLoop_eq m o.cfg samples stop o.cfg.maxIter 0 (o.w.getD fun _ => 0) 0 ⟨[], []⟩
        (Nat.zero_le _)
      generalize fwBatchLoop m o.cfg samples stop o.cfg.maxIter 0 (o.w.getD fun _ => 0) 0 ⟨[], []⟩ = q at h1 h3 e1 e2
      obtain ⟨q1, q2, q3⟩ := q
      simp only [Prod.mk.injEq] at h1 h3 e1 e2
      obtain ⟨h3, h4⟩ := h3
      subst h1 h2 h3 h4
      simp only [if_pos hb]
      refine ⟨fun hh hn => ?_, fun hh => ?_⟩
      · rw [if_neg, e1 hh]
        rintro ⟨a, b⟩
        rcases hn with hn | hn | hn
        · exact hr ⟨a, b, hn⟩
        · rw [a] at hn; cases hn
        · exact b hn
      · obtain ⟨a1, a2⟩ := e2 hh
        refine ⟨by omega, fun _ => ?_, fun h => by rw [hb] at h; cases h⟩
        rw [if_neg, ← Nat.sub_zero stop, a2]
        rintro ⟨a, b⟩
        exact hr ⟨a, by omega, b⟩
  · rw [if_neg hb] at h
    cases hl : fwBcLoop m o.cfg order samples stop j o.cfg.maxIter 0 (bcStart (o.w.getD fun _ => 0) (o.l.getD 0)) none
        ⟨[], []⟩ with
    | error err => rw [hl] at h; cases h
    | ok q =>
      obtain ⟨st', c', hit'⟩ := q
      rw [hl] at h
      simp only [Except.ok.injEq, Prod.mk.injEq] at h
      obtain ⟨rfl, rfl, rfl, rfl⟩ := h
      obtain ⟨e1, e2⟩ := fwBcLoop_eq m o.cfg order samples stop j _ _ _ _ _ (Nat.zero_le _) _ _ _ hl
      simp only [if_neg hb]
      refine ⟨fun hh _ => by rw [e1 hh], fun hh => ?_⟩
      obtain ⟨a1, st1, a2, a3, a4⟩ := e2 hh
      rw [Nat.sub_zero] at a2 a3
      refine ⟨by omega, fun h => absurd h hb, fun _ => ⟨st1, a2, a3, by rw [a4], by rw [a4]⟩⟩

/-- what an interrupted `fit` that returns leaves. -/
theorem fwFit_ok {m : SModel X Y} {order : ℕ → List ℕ} {stop j : ℕ} {o o' : FrankWolfe.Obj} {samples : List (X × Y)}
    {hit : Bool} (h : fwFit m order stop j o samples = .ok (o', hit)) :
    ∃ w l c, fwRun m order stop j o samples = .ok (w, l, c, hit) ∧ fwFinish m o samples (w, l, c) = .ok o' := by
  rw [fwFit_interrupted] at h
  cases hr : fwRun m order stop j o samples with
  | error err => rw [hr] at h; cases h
  | ok r =>
    obtain ⟨w, l, c, hit'⟩ := r
    rw [hr] at h
    simp only [Except.bind] at h
    cases hf : fwFinish m o samples (w, l, c) with
    | error err => rw [hf] at h; cases h
    | ok o1 =>
      rw [hf] at h
      simp only [Except.map, Except.ok.injEq, Prod.mk.injEq] at h
      obtain ⟨rfl, rfl⟩ := h
      exact ⟨w, l, c, rfl, hf⟩

/-- what the end of `fit` needs and gives. -/
theorem fwFinish_ok {m : SModel X Y} {o o' : FrankWolfe.Obj} {samples : List (X × Y)} {w : W} {l : ℚ} {c : Curves}
    (h : fwFinish m o samples (w, l, c) = .ok o') :
    samples ≠ [] ∧ ∃ p d, objectivePrimal m w samples o.cfg.C true = .ok p ∧ c.dual.getLast? = some d ∧
      o' = ⟨o.cfg, some w, some l, ⟨c.dual ++ [d], c.primal ++ [p]⟩⟩ := by
  unfold fwFinish at h
  simp only at h
  cases hp : objectivePrimal m w samples o.cfg.C true with
  | error err => rw [hp] at h; cases h
  | ok p =>
    rw [hp] at h
    simp only at h
    cases hd : c.dual.getLast? with
    | none => rw [hd] at h; cases h
    | some d =>
      rw [hd] at h
      simp only [Except.ok.injEq] at h
      refine ⟨?_, p, d, rfl, rfl, h.symm⟩
      intro h0
      subst h0
      unfold objectivePrimal at hp
      simp at hp

/-- **C143, without interrupt.** If training ends before the interrupt, the result is that of `fit`. -/
theorem C143_no_interrupt (m : SModel X Y) (order : ℕ → List ℕ) (stop j : ℕ) (o o' : FrankWolfe.Obj)
    (samples : List (X × Y)) (h : fwFit m order stop j o samples = .ok (o', false)) :
    FrankWolfe.fit m order o samples = .ok o' := by
  obtain ⟨w, l, c, hr, hf⟩ := fwFit_ok h
  obtain ⟨hne, p, d, -, hd, -⟩ := fwFinish_ok hf
  rw [fwFit_full, (fwRun_eq hr).1 rfl]
  · exact hf
  · by_contra hn
    rw [not_or, not_or, not_not] at hn
    obtain ⟨n1, n2, n3⟩ := hn
    obtain ⟨k, hk⟩ := Nat.exists_eq_succ_of_ne_zero n3
    unfold fwRun at hr
    rw [n1, hk] at hr
    by_cases hb : o.cfg.batchMode = true
    · simp [hb, fwBatchLoop] at hr
    · simp [hb, fwBcLoop] at hr

/-- **C143 does not hold in the first iteration**: an interrupt there, at any place and in both modes, makes `fit` fail
with `IndexError` from `objective_curve_[-1]`. -/
theorem C143_violated_first_iteration (m : SModel X Y) (order : ℕ → List ℕ) (j : ℕ) (o : FrankWolfe.Obj)
    (samples : List (X × Y)) (hm : o.cfg.maxIter ≠ 0) :
    fwFit m order 0 j o samples = .error .indexError := by
  obtain ⟨k, hk⟩ := Nat.exists_eq_succ_of_ne_zero hm
  have key : ∃ w l, fwRun m order 0 j o samples = .ok (w, l, ⟨[], []⟩, true) := by
    unfold fwRun
    rw [hk]
    by_cases hb : o.cfg.batchMode = true
    · refine ⟨o.w.getD fun _ => 0, o.l.getD 0, ?_⟩
      simp [hb, fwBatchLoop]
    · rw [if_neg hb]
      simp only [fwBcLoop, if_true]
      exact ⟨_, _, rfl⟩
  obtain ⟨w, l, hr⟩ := key
  unfold fwFit
  rw [hr]
  simp only [List.getLast?_nil]
  by_cases hne : samples = []
  · subst hne; rfl
  · rw [objectivePrimal_ok m w samples o.cfg.C true hne]

theorem fwBatchLoop_curve (m : SModel X Y) (cfg : Config) (samples : List (X × Y)) (stop n it : ℕ) (w : W) (l : ℚ)
    (c : Curves) (h : (n ≠ 0 ∧ it ≠ stop) ∨ c.dual ≠ []) :
    (fwBatchLoop m cfg samples stop n it w l c).2.1.dual ≠ [] := by
  induction n generalizing it w l c with
  | zero => simpa [fwBatchLoop] using h
  | succ n ih =>
    unfold fwBatchLoop
    by_cases hs : it = stop
    · rw [if_pos hs]
      rcases h with h | h
      · exact absurd hs h.2
      · exact h
    · rw [if_neg hs]
      simp only
      split
      · simp
      · exact ih _ _ _ _ (.inr (by simp))

theorem fwBcLoop_ok (m : SModel X Y) (cfg : Config) (order : ℕ → List ℕ) (samples : List (X × Y))
    (hr : m.rescaleC = false) (stop j n it : ℕ) (st : BC) (gap : Option ℚ) (c : Curves)
    (hgap : (it = 0 ∧ cfg.checkDualEvery ≠ 0) ∨ ∃ g, gap = some g) (h : (n ≠ 0 ∧ it ≠ stop) ∨ c.dual ≠ [])
    (hg : (∃ g, gap = some g) → c.dual ≠ []) :
    ∃ r, fwBcLoop m cfg order samples stop j n it st gap c = .ok r ∧ r.2.1.dual ≠ [] := by
  induction n generalizing it st gap c with
  | zero => exact ⟨_, rfl, by simpa using h⟩
  | succ n ih =>
    unfold fwBcLoop
    by_cases hs : it = stop
    · rw [if_pos hs]
      rcases h with h | h
      · exact absurd hs h.2
      · exact ⟨_, rfl, h⟩
    · rw [if_neg hs]
      simp only
      by_cases hck : cfg.checkDualEvery ≠ 0 ∧ it % cfg.checkDualEvery = 0
      · rw [if_pos hck]
        unfold calcDualGap
        simp only [hr, Bool.false_eq_true, if_false]
        split
        · exact ⟨_, rfl, by simp⟩
        · exact ih _ _ _ _ (.inr ⟨_, rfl⟩) (.inr (by simp)) (fun _ => by simp)
      · rw [if_neg hck]
        rcases hgap with ⟨h0, h1⟩ | ⟨g, hg'⟩
        · exact absurd ⟨h1, by rw [h0, Nat.zero_mod]⟩ hck
        · subst hg'
          simp only
          have hc := hg ⟨g, rfl⟩
          split
          · exact ⟨_, rfl, hc⟩
          · exact ih _ _ _ _ (.inr ⟨_, rfl⟩) (.inr hc) (fun _ => hc)

/-- **C143, an interrupted `fit` returns** if it returns when it is not interrupted, unless the interrupt comes in the
first iteration. -/
theorem C143_returns_partial (m : SModel X Y) (order : ℕ → List ℕ) (stop j : ℕ) (o o' : FrankWolfe.Obj)
    (samples : List (X × Y)) (hstop : stop ≠ 0) (h : FrankWolfe.fit m order o samples = .ok o') :
    ∃ r, fwFit m order stop j o samples = .ok r := by
  obtain ⟨hne, hm, hr, hb⟩ := (C65_fit_succeeds_partial m order o samples).mp ⟨o', h⟩
  have key : ∃ w l c hit, fwRun m order stop j o samples = .ok (w, l, c, hit) ∧ c.dual ≠ [] := by
    unfold fwRun
    by_cases hbm : o.cfg.batchMode = true
    · rw [if_pos hbm, if_neg (by rw [hr]; simp)]
      exact ⟨_, _, _, _, rfl, fwBatchLoop_curve m o.cfg samples stop o.cfg.maxIter 0 _ _ _ (.inl ⟨hm, hstop.symm⟩)⟩
    · rw [if_neg hbm]
      obtain ⟨⟨st, c, hit⟩, e1, e2⟩ := fwBcLoop_ok m o.cfg order samples hr stop j o.cfg.maxIter 0
        (bcStart (o.w.getD fun _ => 0) (o.l.getD 0)) none ⟨[], []⟩ (.inl ⟨rfl, hb.resolve_left hbm⟩)
        (.inl ⟨hm, hstop.symm⟩) (by rintro ⟨g, hg⟩; cases hg)
      rw [e1]
      exact ⟨_, _, _, _, rfl, e2⟩
  obtain ⟨w, l, c, hit, e1, e2⟩ := key
  unfold fwFit
  rw [e1]
  simp only
  rw [objectivePrimal_ok m w samples o.cfg.C true hne]
  obtain ⟨d, hd⟩ := Option.ne_none_iff_exists'.mp (fun h => e2 (List.getLast?_eq_none_iff.mp h))
  rw [hd]
  exact ⟨_, rfl⟩

/-! ### an interrupt at the start of an iteration -/

/-- The object with another number of iterations. -/
def fwIters (o : FrankWolfe.Obj) (n : ℕ) : FrankWolfe.Obj := { o with cfg := { o.cfg with maxIter := n } }

theorem batchLoop_iters (m : SModel X Y) (cfg : Config) (k : ℕ) (samples : List (X × Y)) (n it : ℕ) (w : W) (l : ℚ)
    (c : Curves) : batchLoop m { cfg with maxIter := k } samples n it w l c = batchLoop m cfg samples n it w l c := by
  induction n generalizing it w l c with
  | zero => rfl
  | succ n ih =>
    have e : FrankWolfe.batchStep m { cfg with maxIter := k } samples it w l = FrankWolfe.batchStep m cfg samples it w l :=
      rfl
    unfold batchLoop
    simp only [e, ih]

theorem bcLoop_iters (m : SModel X Y) (cfg : Config) (k : ℕ) (order : ℕ → List ℕ) (samples : List (X × Y)) (n it : ℕ)
    (st : BC) (gap : Option ℚ) (c : Curves) :
    bcLoop m { cfg with maxIter := k } order samples n it st gap c = bcLoop m cfg order samples n it st gap c := by
  induction n generalizing it st gap c with
  | zero => rfl
  | succ n ih =>
    have e : bcStep m { cfg with maxIter := k } samples = bcStep m cfg samples := rfl
    unfold bcLoop
    simp only [e, ih]

theorem fwRunFull_iters (m : SModel X Y) (order : ℕ → List ℕ) (n k : ℕ) (o : FrankWolfe.Obj) (samples : List (X × Y)) :
    fwRunFull m order n (fwIters o k) samples = fwRunFull m order n o samples := by
  unfold fwRunFull fwIters
  simp only [batchLoop_iters, bcLoop_iters]

/-- **C143, an interrupt at the start of iteration `stop`** gives exactly the learner that a training with
`max_iter = stop` gives. In batch mode all inference comes before the step, so that every interrupt is of this kind. -/
theorem C143_start_of_iteration (m : SModel X Y) (order : ℕ → List ℕ) (stop j : ℕ) (o o' : FrankWolfe.Obj)
    (samples : List (X × Y)) (hj : o.cfg.batchMode = true ∨ j = 0)
    (h : fwFit m order stop j o samples = .ok (o', true)) :
    FrankWolfe.fit m order (fwIters o stop) samples = .ok (fwIters o' stop) := by
  obtain ⟨w, l, c, hr, hf⟩ := fwFit_ok h
  obtain ⟨-, e1, e2⟩ := (fwRun_eq hr).2 rfl
  have hrun : fwRunFull m order stop o samples = .ok (w, l, c) := by
    by_cases hb : o.cfg.batchMode = true
    · exact e1 hb
    · have hb' : o.cfg.batchMode = false := by simpa using hb
      obtain ⟨st1, a1, -, a3, a4⟩ := e2 hb'
      rw [hj.resolve_left hb] at a3 a4
      unfold fwRunFull
      rw [if_neg hb, a1, a3, a4]
      rfl
  rw [fwFit_full, fwRunFull_iters]
  simp only [fwIters, hrun, Except.bind]
  obtain ⟨-, p, d, hp, hd, rfl⟩ := fwFinish_ok hf
  unfold fwFinish
  simp only [hp, hd]

/-! ### what the weights are -/

/-- **C143, the visits.** In block-coordinate mode an interrupt during inference for the `j`-th visit of iteration
`stop` leaves the weights of all visits before it: without averaging the last iterate, with averaging the weighted mean
of all iterates. -/
theorem C143_visits (m : SModel X Y) (order : ℕ → List ℕ) (stop j : ℕ) (o o' : FrankWolfe.Obj)
    (samples : List (X × Y)) (hb : o.cfg.batchMode = false) (ho : ValidOrder samples.length order)
    (h : fwFit m order stop j o samples = .ok (o', true)) :
    ∃ (visits : List ℕ) (w : W), visits = visitsFrom order 0 stop ++ (order stop).take j ∧ visits ≠ [] ∧
      visits.length = samples.length * stop + min j samples.length ∧ o'.w = some w ∧
      (o.cfg.averaging = false →
        w = (visits.foldl (bcStep m o.cfg samples) (bcStart (o.w.getD fun _ => 0) (o.l.getD 0))).w) ∧
      (o.cfg.averaging = true → ∀ k, w k = (∑ t ∈ range visits.length, ((t : ℚ) + 1) *
          ((visits.take (t + 1)).foldl (bcStep m o.cfg samples) (bcStart (o.w.getD fun _ => 0) (o.l.getD 0))).w k) /
        ∑ t ∈ range visits.length, ((t : ℚ) + 1)) := by
  obtain ⟨w, l, c, hr, hf⟩ := fwFit_ok h
  obtain ⟨hne, p, d, hp, hd, rfl⟩ := fwFinish_ok hf
  obtain ⟨-, -, e2⟩ := (fwRun_eq hr).2 rfl
  obtain ⟨st1, a1, a2, a3, -⟩ := e2 hb
  have hstop : stop ≠ 0 := by
    intro h0
    subst h0
    simp only [bcLoop, Except.ok.injEq, Prod.mk.injEq] at a1
    rw [← a1.2] at hd
    simp at hd
  have hlen : ∀ n it, (visitsFrom order it n).length = samples.length * n := by
    intro n
    induction n with
    | zero => intro it; rfl
    | succ n ih =>
      intro it
      rw [visitsFrom_succ, List.length_append, (ho it).1, ih]; ring
  have hlt : ∀ i ∈ visitsFrom order 0 stop ++ (order stop).take j, i < samples.length := by
    intro i hi
    rcases List.mem_append.mp hi with hi | hi
    · unfold visitsFrom at hi
      rw [List.mem_flatten] at hi
      obtain ⟨q, hq, hi⟩ := hi
      rw [List.mem_map] at hq
      obtain ⟨t, -, rfl⟩ := hq
      exact (ho _).2 i hi
    · exact (ho stop).2 i (List.mem_of_mem_take hi)
  have hpos := List.length_pos_of_ne_nil hne
  have hvlen : (visitsFrom order 0 stop ++ (order stop).take j).length = samples.length * stop + min j samples.length := by
    rw [List.length_append, hlen, List.length_take, (ho stop).1]
  have hvne : visitsFrom order 0 stop ++ (order stop).take j ≠ [] := by
    intro h0
    rw [h0, List.length_nil] at hvlen
    have := Nat.mul_pos hpos (Nat.pos_of_ne_zero hstop)
    omega
  have hw : w = ((visitsFrom order 0 stop ++ (order stop).take j).foldl (bcStep m o.cfg samples)
      (bcStart (o.w.getD fun _ => 0) (o.l.getD 0))).selfW := by
    rw [a3, a2, List.foldl_append]
  refine ⟨_, w, rfl, hvne, hvlen, rfl, ?_, ?_⟩
  · intro ha
    rw [hw]
    obtain ⟨ys, y, hy⟩ := List.eq_nil_or_concat _ |>.resolve_left hvne
    have hlt' := hlt
    rw [hy, List.concat_eq_append] at hlt' ⊢
    rw [List.foldl_append]
    exact (bcStep_plain m o.cfg ha samples _ y (hlt' y (by simp))).1
  · intro ha k
    rw [hw]
    exact C49_frankwolfe m o.cfg ha samples _ _ _ hlt hvne k

/-! ### certificates -/

/-- the dual values recorded by the block-coordinate loop with line search are at most that of its last iterate. -/
theorem bcLoop_reached (m : SModel X Y) (cfg : Config) (hls : cfg.lineSearch = true) (ha : cfg.averaging = false)
    (order : ℕ → List ℕ) (samples : List (X × Y)) (hne : samples ≠ []) (ho : ValidOrder samples.length order) (n it : ℕ)
    (st : BC) (gap : Option ℚ) (c : Curves) (h2 : ∀ d ∈ c.dual, d ≤ fwDual m.dim samples.length cfg.C st.w st.l)
    (hself : n ≠ 0 ∨ (st.selfW = st.w ∧ st.selfL = st.l))
    (st' : BC) (c' : Curves) (h : bcLoop m cfg order samples n it st gap c = .ok (st', c')) :
    (∀ d ∈ c'.dual, d ≤ fwDual m.dim samples.length cfg.C st'.w st'.l) ∧ st'.selfW = st'.w ∧ st'.selfL = st'.l := by
  induction n generalizing it st gap c with
  | zero =>
    unfold bcLoop at h
    simp only [Except.ok.injEq, Prod.mk.injEq] at h
    obtain ⟨rfl, rfl⟩ := h
    exact ⟨h2, hself.resolve_left (by simp)⟩
  | succ n ih =>
    have hone : order it ≠ [] := by
      intro h0
      have := (ho it).1
      rw [h0, List.length_nil] at this
      exact hne (List.length_eq_zero_iff.mp this.symm)
    obtain ⟨f1, f2⟩ := bcFold_plain m cfg hls ha samples (order it) (ho it).2 st
    have f2 := f2 hone
    have h2' : ∀ d ∈ c.dual, d ≤ fwDual m.dim samples.length cfg.C ((order it).foldl (bcStep m cfg samples) st).w
        ((order it).foldl (bcStep m cfg samples) st).l := fun d hd => (h2 d hd).trans f1
    unfold bcLoop at h
    simp only at h
    by_cases hck : cfg.checkDualEvery ≠ 0 ∧ it % cfg.checkDualEvery = 0
    · rw [if_pos hck] at h
      cases hg : calcDualGap m cfg.C samples ((order it).foldl (bcStep m cfg samples) st).selfW
          ((order it).foldl (bcStep m cfg samples) st).selfL with
      | error err => rw [hg] at h; cases h
      | ok r =>
        obtain ⟨d, g, p⟩ := r
        rw [hg] at h
        simp only at h
        have hd := (calcDualGap_dual hg).1
        have h3 : ∀ d' ∈ c.dual ++ [d], d' ≤ fwDual m.dim samples.length cfg.C
            ((order it).foldl (bcStep m cfg samples) st).w ((order it).foldl (bcStep m cfg samples) st).l := by
          intro d' hd'
          rcases List.mem_append.mp hd' with hd' | hd'
          · exact h2' d' hd'
          · rw [List.mem_singleton] at hd'
            rw [hd', hd, f2.1, f2.2]
        by_cases hlt : g < cfg.tol
        · rw [if_pos hlt] at h
          simp only [Except.ok.injEq, Prod.mk.injEq] at h
          obtain ⟨rfl, rfl⟩ := h
          exact ⟨h3, f2⟩
        · rw [if_neg hlt] at h
          exact ih _ _ _ _ h3 (.inr f2) h
    · rw [if_neg hck] at h
      cases gap with
      | none => cases h
      | some g =>
        simp only at h
        by_cases hlt : g < cfg.tol
        · rw [if_pos hlt] at h
          simp only [Except.ok.injEq, Prod.mk.injEq] at h
          obtain ⟨rfl, rfl⟩ := h
          exact ⟨h2', f2⟩
        · rw [if_neg hlt] at h
          exact ih _ _ _ _ h2' (.inr f2) h

/-- the weights of the batch loop belong to a dual point, whose value with line search is the largest. -/
theorem batchLoop_reached (m : SModel X Y) (outputs : X → Set Y) (cfg : Config) (hC : 0 < cfg.C)
    (samples : List (X × Y)) (hne : samples ≠ []) (hr : m.rescaleC = false)
    (hadm : Admissible m outputs) (hl : (problemOf m outputs).Labelled samples) (n it : ℕ) (w : W) (l : ℚ)
    (c : Curves) (h : (problemOf m outputs).DualPoint cfg.C samples w (samples.length * l))
    (h2 : cfg.lineSearch = true → ∀ d ∈ c.dual, d ≤ fwDual m.dim samples.length cfg.C w l) :
    ∃ L, (problemOf m outputs).DualPoint cfg.C samples (batchLoop m cfg samples n it w l c).1 (samples.length * L) ∧
      (cfg.lineSearch = true → ∀ d ∈ (batchLoop m cfg samples n it w l c).2.dual,
        d ≤ fwDual m.dim samples.length cfg.C (batchLoop m cfg samples n it w l c).1 L) := by
  induction n generalizing it w l c with
  | zero => exact ⟨l, h, h2⟩
  | succ n ih =>
    have h' := batchStep_dualPoint m outputs cfg samples hne hr hadm hl it w l h
    have hd : (FrankWolfe.batchStep m cfg samples it w l).1.1 = fwDual m.dim samples.length cfg.C w l := by
      unfold FrankWolfe.batchStep fwDual; simp only; ring
    have h2' : cfg.lineSearch = true → ∀ d ∈ c.dual ++ [(FrankWolfe.batchStep m cfg samples it w l).1.1],
        d ≤ fwDual m.dim samples.length cfg.C (FrankWolfe.batchStep m cfg samples it w l).2.1
          (FrankWolfe.batchStep m cfg samples it w l).2.2 := by
      intro hls d hd'
      have hstep := C46_batch_step m cfg hls hC samples hne it w l
      rcases List.mem_append.mp hd' with hd' | hd'
      · exact (h2 hls d hd').trans hstep
      · rw [List.mem_singleton] at hd'
        rw [hd', hd]; exact hstep
    unfold batchLoop
    simp only
    by_cases hlt : (FrankWolfe.batchStep m cfg samples it w l).1.2.1 < cfg.tol
    · simp only [if_pos hlt]
      exact ⟨_, h', h2'⟩
    · simp only [if_neg hlt]
      exact ih _ _ _ _ h' h2'

/-- **C143, certificates.** Let the training of a fresh learner with exact loss-augmented inference be interrupted after
the first iteration. Then the weights are dual feasible; the last recorded primal value `p` is their risk; all recorded
dual values bound the risk of all weight vectors from below, so that the weights are at most `p` minus the last dual
value from optimal; and with line search and without averaging no recorded dual value is larger than that of the
returned weights. -/
theorem C143_certificate (m : SModel X Y) (outputs : X → Set Y) (order : ℕ → List ℕ) (stop j : ℕ)
    (o o' : FrankWolfe.Obj) (samples : List (X × Y)) (hfresh : o.w = none ∧ o.l = none) (hC : 0 < o.cfg.C)
    (ho : ValidOrder samples.length order)
    (hLA : (problemOf m outputs).ExactLossAug (fun x y w => m.lossAug x y w true))
    (hl : (problemOf m outputs).Labelled samples) (h : fwFit m order stop j o samples = .ok (o', true)) :
    ∃ w L ds d ps p, o'.w = some w ∧ o'.curves.dual = ds ++ [d] ∧ o'.curves.primal = ps ++ [p] ∧
      (problemOf m outputs).DualPoint o.cfg.C samples w L ∧
      (o.cfg.batchMode = false → ∃ l, o'.l = some l ∧ L = samples.length * l) ∧
      (problemOf m outputs).IsObjective o.cfg.C samples w p ∧
      (∀ d' ∈ o'.curves.dual, ∀ w' obj,
        (problemOf m outputs).IsObjective o.cfg.C samples w' obj → d' ≤ obj) ∧
      (∀ w' obj, (problemOf m outputs).IsObjective o.cfg.C samples w' obj → p ≤ obj + (p - d)) ∧
      (o.cfg.lineSearch = true → o.cfg.batchMode = true ∨ o.cfg.averaging = false →
        ∀ d' ∈ o'.curves.dual, d' ≤ (problemOf m outputs).dualValue o.cfg.C w L) := by
  obtain ⟨w, l, c, hr, hf⟩ := fwFit_ok h
  obtain ⟨hne, p, d, hp, hd, rfl⟩ := fwFinish_ok hf
  have hadm := exact_admissible hLA
  obtain ⟨hmax, e1, e2⟩ := (fwRun_eq hr).2 rfl
  obtain ⟨obj, ho1, ho2⟩ := C30_objective m outputs hLA samples hl hne w o.cfg.C true
  rw [ho1] at hp
  injection hp with hp
  subst hp
  obtain ⟨ds0, hds0⟩ := List.getLast?_eq_some_iff.mp hd
  have hd0 := dualPoint_true (problemOf m outputs) o.cfg.C samples hl
  have key : ∃ l', (problemOf m outputs).DualPoint o.cfg.C samples w (samples.length * l') ∧
      (o.cfg.batchMode = false → l' = l) ∧
      (∀ d ∈ c.dual, ∀ w' obj, (problemOf m outputs).IsObjective o.cfg.C samples w' obj → d ≤ obj) ∧
      (o.cfg.lineSearch = true → o.cfg.batchMode = true ∨ o.cfg.averaging = false →
        ∀ d ∈ c.dual, d ≤ fwDual m.dim samples.length o.cfg.C w l') := by
    by_cases hb : o.cfg.batchMode = true
    · have hrun := e1 hb
      unfold fwRunFull at hrun
      rw [if_pos hb, hfresh.1] at hrun
      by_cases hs : stop = 0
      · rw [hs] at hrun
        simp only [ne_eq, not_true_eq_false, and_false, if_false, batchLoop, Except.ok.injEq, Prod.mk.injEq] at hrun
        rw [← hrun.2.2] at hd
        simp at hd
      · by_cases hrc : m.rescaleC = true
        · rw [if_pos ⟨hrc, hs⟩] at hrun; cases hrun
        · rw [if_neg (by simp [hrc])] at hrun
          simp only [Option.getD_none, Except.ok.injEq, Prod.mk.injEq] at hrun
          obtain ⟨h1, -, h3⟩ := hrun
          have hrc' : m.rescaleC = false := by simpa using hrc
          obtain ⟨L, g1, g2⟩ := batchLoop_reached m outputs o.cfg hC samples hne hrc' hadm hl stop 0 (fun _ => 0) 0
            ⟨[], []⟩ (by rw [mul_zero]; exact hd0) (by simp)
          have g3 := batchLoop_certificates m outputs o.cfg hC.le samples hne hrc' hadm hl stop 0 (fun _ => 0) 0
            ⟨[], []⟩ (by rw [mul_zero]; exact hd0) (by simp)
          rw [h1] at g1 g2
          rw [h3] at g2 g3
          exact ⟨L, g1, fun h => (by rw [hb] at h; cases h), g3, fun hls _ => g2 hls⟩
    · have hb' : o.cfg.batchMode = false := by simpa using hb
      obtain ⟨st1, a1, a2, a3, a4⟩ := e2 hb'
      rw [hfresh.1, hfresh.2] at a1
      simp only [Option.getD_none] at a1
      have hst : SelfDual (problemOf m outputs) o.cfg.C samples (bcStart (fun _ => 0) 0) := by
        refine ⟨bcStart_blocks m outputs o.cfg.C samples hl 0, ?_⟩
        simp only [bcStart]
        rw [mul_zero]; exact hd0
      obtain ⟨g1, -, g3, -⟩ := bcLoop_certificates m outputs o.cfg hC.le order samples ho hLA hl
        _ 0 _ none ⟨[], []⟩ hst (by simp) rfl (by simp) (by simp) st1 c a1
      have hlt : ∀ i ∈ (order stop).take j, i < samples.length :=
        fun i hi => (ho stop).2 i (List.mem_of_mem_take hi)
      have g5 := bcFold_selfDual m outputs o.cfg samples hadm hl _ hlt st1 g1
      refine ⟨l, ?_, fun _ => rfl, g3, ?_⟩
      · rw [a3, a4]; exact g5.2
      · intro hls ha
        have ha := ha.resolve_left hb
        have hstop : stop ≠ 0 := by
          intro h0
          subst h0
          simp only [bcLoop, Except.ok.injEq, Prod.mk.injEq] at a1
          rw [← a1.2] at hd
          simp at hd
        obtain ⟨r1, r2⟩ := bcLoop_reached m o.cfg hls ha order samples hne ho stop 0 _ none ⟨[], []⟩ (by simp)
          (.inl hstop) st1 c a1
        obtain ⟨f1, f2⟩ := bcFold_plain m o.cfg hls ha samples ((order stop).take j) hlt st1
        have f3 : (((order stop).take j).foldl (bcStep m o.cfg samples) st1).selfW =
              (((order stop).take j).foldl (bcStep m o.cfg samples) st1).w ∧
            (((order stop).take j).foldl (bcStep m o.cfg samples) st1).selfL =
              (((order stop).take j).foldl (bcStep m o.cfg samples) st1).l := by
          by_cases hv : (order stop).take j = []
          · rw [hv]; exact r2
          · exact f2 hv
        intro d' hd'
        rw [a3, a4, f3.1, f3.2]
        exact (r1 d' hd').trans f1
  obtain ⟨l', k1, k2, k3, k4⟩ := key
  have hmem : ∀ d' ∈ c.dual ++ [d], d' ∈ c.dual := by
    intro d' hd'
    rcases List.mem_append.mp hd' with hd' | hd'
    · exact hd'
    · rw [List.mem_singleton] at hd'
      rw [hd', hds0]; simp
  refine ⟨w, samples.length * l', c.dual, d, c.primal, obj, rfl, rfl, rfl, k1, ?_, ho2, ?_, ?_, ?_⟩
  · intro hb
    exact ⟨l, rfl, by rw [k2 hb]⟩
  · intro d' hd' w' obj' hob
    exact k3 d' (hmem d' hd') w' obj' hob
  · intro w' obj' hob
    have := k3 d (by rw [hds0]; simp) w' obj' hob
    linarith
  · intro hls ha d' hd'
    rw [← fwDual_eq]
    exact k4 hls ha d' (hmem d' hd')

/-! ### non-vacuity -/

/-- Interrupts in the second of three iterations, before and after its visit, block by block and in batch mode. -/
example :
    (([(false, 0), (false, 1), (true, 0)].map fun q =>
      (fwFit (multiClassModel exampleClf) (fun _ => [0]) 1 q.2 (exampleFW 3 q.1 false false) sampleB).toOption.map
        fun r => (r.1.curves.dual, r.1.curves.primal, r.2))) =
      [some ([0, 0], [1, 1], true), some ([0, 0], [1, 7 / 9], true), some ([0, 0], [1, 1], true)] := by
  decide +kernel

end Verif.Props
