import Verif.Lemmas.NSlack
import Verif.Props.C50

/-!
# The structure of the loop of the n-slack learner
-/

namespace Verif.NSlack

open Finset Verif.Learner Verif.OneSlack Verif.Spec Verif.Props

variable {X Y : Type}

/-- the constraint found for a sample. -/
def found (m : SModel X Y) (w : W) (s : X × Y) : Constraint Y := findConstraint m s.1 s.2 w none true true

/-- the constraint found for the sample is not added. -/
def Rejected (cfg : Config) (eq : Y → Y → Bool) (m : SModel X Y) (w : W) (l : List (NCon Y)) (s : X × Y) :
    Prop :=
  ¬ 0 < (found m w s).loss ∨
    checkBad cfg eq m.dim w (found m w s).yhat (found m w s).slack l = .ok true

/-- the constraint found for the sample is added. -/
def Added (cfg : Config) (eq : Y → Y → Bool) (m : SModel X Y) (w : W) (l : List (NCon Y)) (s : X × Y)
    (l' : List (NCon Y)) : Prop :=
  0 < (found m w s).loss ∧
    checkBad cfg eq m.dim w (found m w s).yhat (found m w s).slack l = .ok false ∧
    l' = l ++ [⟨(found m w s).yhat, (found m w s).delta, (found m w s).loss⟩]

theorem addNew_ok {cfg : Config} {eq : Y → Y → Bool} {m : SModel X Y} {w : W} {acc acc' : WS Y × ℚ × ℕ}
    {p : ℕ × X × Y} (h : addNew cfg eq m w acc p = .ok acc') :
    acc'.2.1 = acc.2.1 + (found m w p.2).slack ∧
    (Rejected cfg eq m w (acc.1 p.1) p.2 ∧ acc'.1 = acc.1 ∧ acc'.2.2 = acc.2.2 ∨
      ∃ l', Added cfg eq m w (acc.1 p.1) p.2 l' ∧ acc'.1 = Function.update acc.1 p.1 l' ∧
        acc'.2.2 = acc.2.2 + 1) := by
  unfold addNew at h
  simp only at h
  by_cases h1 : 0 < (findConstraint m p.2.1 p.2.2 w none true true).loss
  · rw [if_neg (not_not.mpr h1)] at h
    split at h
    · cases h
    · rename_i hc
      rw [Except.ok.injEq] at h
      subst h
      exact ⟨rfl, .inl ⟨.inr hc, rfl, rfl⟩⟩
    · rename_i hc
      rw [Except.ok.injEq] at h
      subst h
      exact ⟨rfl, .inr ⟨_, ⟨h1, hc, rfl⟩, rfl, rfl⟩⟩
  · rw [if_pos h1, Except.ok.injEq] at h
    subst h
    exact ⟨rfl, .inl ⟨.inl h1, rfl, rfl⟩⟩

/-- what the loop over the samples of a batch does. -/
theorem addAll_ok {cfg : Config} {eq : Y → Y → Bool} {m : SModel X Y} {w : W} {b : List (ℕ × X × Y)}
    (hnd : (b.map Prod.fst).Nodup) {acc acc' : WS Y × ℚ × ℕ} (h : addAll cfg eq m w b acc = .ok acc') :
    (∀ i, i ∉ b.map Prod.fst → acc'.1 i = acc.1 i) ∧
    (∀ p ∈ b, Rejected cfg eq m w (acc.1 p.1) p.2 ∧ acc'.1 p.1 = acc.1 p.1 ∨
      Added cfg eq m w (acc.1 p.1) p.2 (acc'.1 p.1)) ∧
    acc'.2.1 = acc.2.1 + (b.map fun p => (found m w p.2).slack).sum ∧
    acc.2.2 ≤ acc'.2.2 ∧
    (acc'.2.2 = acc.2.2 → acc'.1 = acc.1 ∧ ∀ p ∈ b, Rejected cfg eq m w (acc.1 p.1) p.2) ∧
    (∀ n, (∀ p ∈ b, p.1 < n) → offset acc'.1 n + acc.2.2 = offset acc.1 n + acc'.2.2) := by
  induction b generalizing acc with
  | nil =>
    simp only [addAll, Except.ok.injEq] at h
    subst h
    refine ⟨fun _ _ => rfl, fun p hp => absurd hp (by simp), by simp, le_rfl,
      fun _ => ⟨rfl, fun p hp => absurd hp (by simp)⟩, fun _ _ => rfl⟩
  | cons p b ih =>
    rw [List.map_cons, List.nodup_cons] at hnd
    unfold addAll at h
    cases hn : addNew cfg eq m w acc p with
    | error err => rw [hn] at h; cases h
    | ok acc1 =>
      rw [hn] at h
      simp only at h
      obtain ⟨i1, i2, i3, i4, i5, i6⟩ := ih hnd.2 h
      obtain ⟨e1, e2⟩ := addNew_ok hn
      have hother : ∀ i, i ≠ p.1 → acc1.1 i = acc.1 i := by
        intro i hi
        rcases e2 with ⟨-, e, -⟩ | ⟨l', -, e, -⟩
        · rw [e]
        · rw [e, Function.update_of_ne hi]
      have hself : acc'.1 p.1 = acc1.1 p.1 := i1 _ hnd.1
      refine ⟨?_, ?_, ?_, ?_, ?_, ?_⟩
      · intro i hi
        rw [List.map_cons, List.mem_cons, not_or] at hi
        rw [i1 i hi.2, hother i hi.1]
      · intro q hq
        rcases List.mem_cons.mp hq with rfl | hq
        · rw [hself]
          rcases e2 with ⟨e, e', -⟩ | ⟨l', e, e', -⟩
          · exact .inl ⟨e, by rw [e']⟩
          · right
            rw [e', Function.update_self]
            exact e
        · have hne : q.1 ≠ p.1 := fun he => hnd.1 (he ▸ List.mem_map_of_mem hq)
          have := i2 q hq
          rwa [hother _ hne] at this
      · rw [i3, e1, List.map_cons, List.sum_cons]
        ring
      · rcases e2 with ⟨-, -, e⟩ | ⟨l', -, -, e⟩ <;> omega
      · intro he
        rcases e2 with ⟨e, e', e''⟩ | ⟨l', -, -, e⟩
        · obtain ⟨j1, j2⟩ := i5 (by omega)
          refine ⟨by rw [j1, e'], ?_⟩
          intro q hq
          rcases List.mem_cons.mp hq with rfl | hq
          · exact e
          · have := j2 q hq
            rwa [e'] at this
        · omega
      · intro n hall
        have h6 := i6 n fun q hq => hall q (by simp [hq])
        rcases e2 with ⟨e, e', e''⟩ | ⟨l', ⟨-, -, hl'⟩, e', e''⟩
        · rw [e', e''] at h6
          exact h6
        · have hp := hall p (by simp)
          have hoff : offset acc1.1 n = offset acc.1 n + 1 := by
            rw [e']
            clear h6 i6 hall
            induction n with
            | zero => omega
            | succ n ih2 =>
              rw [offset_succ, offset_succ]
              rcases Nat.lt_succ_iff_lt_or_eq.mp hp with hlt | rfl
              · rw [ih2 hlt, Function.update_of_ne (by omega)]
                omega
              · have : offset (Function.update acc.1 p.1 l') p.1 = offset acc.1 p.1 := by
                  unfold offset
                  congr 1
                  apply List.map_congr_left
                  intro j hj
                  rw [Function.update_of_ne (by have := List.mem_range.mp hj; omega)]
                rw [this, Function.update_self, hl', List.length_append]
                simp
                omega
          omega

/-- a batch of samples with their indices. -/
def GoodBatch (samples : List (X × Y)) (b : List (ℕ × X × Y)) : Prop :=
  (b.map Prod.fst).Nodup ∧ ∀ p ∈ b, samples[p.1]? = some p.2

theorem indexed_fst (samples : List (X × Y)) : (indexed samples).map Prod.fst = List.range samples.length := by
  unfold indexed
  rw [List.map_fst_zip (by simp)]

theorem indexed_mem {samples : List (X × Y)} {p : ℕ × X × Y} (h : p ∈ indexed samples) :
    samples[p.1]? = some p.2 := by
  obtain ⟨i, hi, rfl⟩ := List.getElem_of_mem h
  unfold indexed at hi ⊢
  rw [List.length_zip, List.length_range] at hi
  simp only [List.getElem_zip, List.getElem_range]
  rw [List.getElem?_eq_getElem]

/-- the batches contain every sample once, in order. -/
theorem batches_ok {α : Type} {data : List α} {bsz : ℤ} {bs : List (List α)} (h : batches data bsz = .ok bs) :
    bs.flatten = data ∧ data ≠ [] ∧ (bsz = -1 ∨ 0 < bsz) ∧
    (∀ b ∈ bs, b ≠ [] ∧ (b.length : ℤ) ≤ if bsz = -1 then (data.length : ℤ) else bsz) ∧
    ∀ b ∈ bs, ∀ b' ∈ bs, b.length ≤ b'.length + 1 := by
  unfold batches at h
  simp only at h
  split_ifs at h with h1 h2 h3 h4
  · cases hs : Subgradient.evenSlices data.length (Subgradient.ceilDiv data.length data.length) with
    | error err => rw [hs] at h; cases h
    | ok sl =>
      rw [hs] at h
      simp only [Except.ok.injEq] at h
      subst h
      obtain ⟨e1, e2⟩ := even_slices (data.length : ℤ) data
      obtain ⟨e3, e4, e5, e6⟩ := e1 sl hs
      refine ⟨e4, (e2.mp ⟨sl, hs⟩).1, .inl h2, ?_, e6⟩
      rw [if_pos h2]
      exact e5
  · cases hs : Subgradient.evenSlices data.length (Subgradient.ceilDiv data.length bsz) with
    | error err => rw [hs] at h; cases h
    | ok sl =>
      rw [hs] at h
      simp only [Except.ok.injEq] at h
      subst h
      obtain ⟨e1, e2⟩ := even_slices bsz data
      obtain ⟨e3, e4, e5, e6⟩ := e1 sl hs
      refine ⟨e4, (e2.mp ⟨sl, hs⟩).1, .inr e3, ?_, e6⟩
      rw [if_neg h2]
      exact e5

theorem batches_good {samples : List (X × Y)} {bsz : ℤ} {bs : List (List (ℕ × X × Y))}
    (h : batches (indexed samples) bsz = .ok bs) : ∀ b ∈ bs, GoodBatch samples b := by
  intro b hb
  obtain ⟨hf, -⟩ := batches_ok h
  have hsub : b.Sublist (indexed samples) := by
    rw [← hf]
    exact List.sublist_flatten_of_mem hb
  refine ⟨?_, fun p hp => indexed_mem (hsub.subset hp)⟩
  have := hsub.map Prod.fst
  rw [indexed_fst] at this
  exact this.nodup List.nodup_range

theorem solve_ok {qp : QP.Solver} {cfg : Config} {n : ℕ} {st st' : St X Y} (h : solve qp cfg n st = .ok st') :
    ∃ sol, solveQP qp st.model.dim cfg.negativity cfg.C n st.ws = .ok sol ∧
      prune cfg n st.ws st.lastActive sol.x = .ok (st'.ws, st'.lastActive) ∧
      st' = { st with
        w := weightsOf (flat n st.ws) sol.x, ws := st'.ws, lastActive := st'.lastActive
        objective := some (-sol.primalObjective) } := by
  unfold solve at h
  cases hs : solveQP qp st.model.dim cfg.negativity cfg.C n st.ws with
  | error err => rw [hs] at h; cases h
  | ok sol =>
    rw [hs] at h
    simp only at h
    cases hp : prune cfg n st.ws st.lastActive sol.x with
    | error err => rw [hp] at h; cases h
    | ok r =>
      obtain ⟨ws, la⟩ := r
      rw [hp] at h
      simp only [Except.ok.injEq] at h
      subst h
      exact ⟨sol, rfl, hp, rfl⟩

theorem runBatch_ok {qp : QP.Solver} {eq : Y → Y → Bool} {cfg : Config} {n : ℕ} {intr : Option Phase}
    {b : List (ℕ × X × Y)} {st st' : St X Y} {s s' : ℚ} {k k' : ℕ} {fl : Bool}
    (h : runBatch qp eq cfg n intr b (st, s, k) = .ok ((st', s', k'), fl)) :
    intr = some .search ∧ st' = st ∧ s' = s ∧ k' = k ∧ fl = true ∨
    intr ≠ some .search ∧ ∃ ws new, addAll cfg eq st.model st.w b (st.ws, s, 0) = .ok (ws, s', new) ∧
      (intr = some .qp ∧ st' = { st with ws := ws } ∧ k' = k ∧ fl = true ∨
       intr ≠ some .qp ∧ new = 0 ∧ st' = { st with ws := ws } ∧ k' = k ∧ fl = decide (intr = some .after) ∨
       intr ≠ some .qp ∧ 0 < new ∧ solve qp cfg n { st with ws := ws } = .ok st' ∧ k' = k + new ∧
        fl = decide (intr = some .after)) := by
  unfold runBatch at h
  by_cases h1 : intr = some .search
  · rw [if_pos h1] at h
    simp only [Except.ok.injEq, Prod.mk.injEq] at h
    obtain ⟨⟨rfl, rfl, rfl⟩, rfl⟩ := h
    exact .inl ⟨h1, rfl, rfl, rfl, rfl⟩
  · rw [if_neg h1] at h
    simp only at h
    right
    refine ⟨h1, ?_⟩
    cases ha : addAll cfg eq st.model st.w b (st.ws, s, 0) with
    | error err => rw [ha] at h; cases h
    | ok r =>
      obtain ⟨ws, s1, new⟩ := r
      rw [ha] at h
      simp only at h
      by_cases h2 : intr = some .qp
      · rw [if_pos h2] at h
        simp only [Except.ok.injEq, Prod.mk.injEq] at h
        obtain ⟨⟨rfl, rfl, rfl⟩, rfl⟩ := h
        exact ⟨ws, new, rfl, .inl ⟨h2, rfl, rfl, rfl⟩⟩
      · rw [if_neg h2] at h
        by_cases h3 : new = 0
        · rw [if_pos h3] at h
          simp only [Except.ok.injEq, Prod.mk.injEq] at h
          obtain ⟨⟨rfl, rfl, rfl⟩, rfl⟩ := h
          exact ⟨ws, new, rfl, .inr (.inl ⟨h2, h3, rfl, rfl, rfl⟩)⟩
        · rw [if_neg h3] at h
          cases hs : solve qp cfg n { st with ws := ws } with
          | error err => rw [hs] at h; cases h
          | ok st1 =>
            rw [hs] at h
            simp only [Except.ok.injEq, Prod.mk.injEq] at h
            obtain ⟨⟨rfl, rfl, rfl⟩, rfl⟩ := h
            exact ⟨ws, new, rfl, .inr (.inr ⟨h2, Nat.pos_of_ne_zero h3, hs, rfl, rfl⟩)⟩

theorem runBatches_induct {qp : QP.Solver} {eq : Y → Y → Bool} {cfg : Config} {n : ℕ}
    {intr : ℕ → Option Phase} {bs : List (List (ℕ × X × Y))} (I : St X Y → ℕ → Prop)
    (hstep : ∀ j, ∀ b ∈ bs, ∀ st s k st' s' k' fl, I st k →
      runBatch qp eq cfg n (intr j) b (st, s, k) = .ok ((st', s', k'), fl) → I st' k')
    {j : ℕ} {st : St X Y} {s : ℚ} {k : ℕ} (h0 : I st k) {st' : St X Y} {s' : ℚ} {k' : ℕ} {fl : Bool}
    (h : runBatches qp eq cfg n intr bs j (st, s, k) = .ok ((st', s', k'), fl)) : I st' k' := by
  induction bs generalizing j st s k with
  | nil =>
    simp only [runBatches, Except.ok.injEq, Prod.mk.injEq] at h
    obtain ⟨⟨rfl, rfl, rfl⟩, rfl⟩ := h
    exact h0
  | cons b bs ih =>
    unfold runBatches at h
    cases hb : runBatch qp eq cfg n (intr j) b (st, s, k) with
    | error err => rw [hb] at h; cases h
    | ok r =>
      obtain ⟨⟨st1, s1, k1⟩, f1⟩ := r
      rw [hb] at h
      have h1 := hstep j b (by simp) _ _ _ _ _ _ _ h0 hb
      cases f1 with
      | true =>
        simp only [Except.ok.injEq, Prod.mk.injEq] at h
        obtain ⟨⟨rfl, rfl, rfl⟩, -⟩ := h
        exact h1
      | false =>
        simp only at h
        exact ih (fun j b hb => hstep j b (by simp [hb])) h1 h

/-- if no batch yields a new constraint, nothing changes and every sample was rejected. -/
theorem runBatches_quiet {qp : QP.Solver} {eq : Y → Y → Bool} {cfg : Config} {n : ℕ}
    {intr : ℕ → Option Phase} {samples : List (X × Y)} {bs : List (List (ℕ × X × Y))}
    (hbs : ∀ b ∈ bs, GoodBatch samples b) {j : ℕ} {st : St X Y} {s : ℚ} {k : ℕ} {st' : St X Y} {s' : ℚ}
    {k' : ℕ} (h : runBatches qp eq cfg n intr bs j (st, s, k) = .ok ((st', s', k'), false)) :
    k ≤ k' ∧ (k' = k → st' = st ∧ s' = s + (bs.flatten.map fun p => (found st.model st.w p.2).slack).sum ∧
      ∀ p ∈ bs.flatten, Rejected cfg eq st.model st.w (st.ws p.1) p.2) := by
  induction bs generalizing j st s k with
  | nil =>
    simp only [runBatches, Except.ok.injEq, Prod.mk.injEq] at h
    obtain ⟨⟨rfl, rfl, rfl⟩, -⟩ := h
    exact ⟨le_rfl, fun _ => ⟨rfl, by simp, by simp⟩⟩
  | cons b bs ih =>
    unfold runBatches at h
    cases hb : runBatch qp eq cfg n (intr j) b (st, s, k) with
    | error err => rw [hb] at h; cases h
    | ok r =>
      obtain ⟨⟨st1, s1, k1⟩, f1⟩ := r
      rw [hb] at h
      cases f1 with
      | true => simp at h
      | false =>
        simp only at h
        obtain ⟨i1, i2⟩ := ih (fun b hb => hbs b (by simp [hb])) h
        rcases runBatch_ok hb with ⟨-, -, -, -, hf⟩ | ⟨-, ws, new, ha, hc⟩
        · cases hf
        · obtain ⟨-, -, a3, -, a5, -⟩ := addAll_ok (hbs b (by simp)).1 ha
          rcases hc with ⟨-, -, -, hf⟩ | ⟨-, hn, hst, hk, -⟩ | ⟨-, hn, -, hk, -⟩
          · cases hf
          · obtain ⟨b1, b2⟩ := a5 hn
            simp only at b1 b2 a3
            have hst1 : st1 = st := by rw [hst, b1]
            subst hst1
            refine ⟨by omega, fun he => ?_⟩
            obtain ⟨c1, c2, c3⟩ := i2 (by omega)
            refine ⟨c1, ?_, ?_⟩
            · rw [c2, a3, List.flatten_cons, List.map_append, List.sum_append]
              ring
            · intro p hp
              rw [List.flatten_cons, List.mem_append] at hp
              rcases hp with hp | hp
              · exact b2 p hp
              · exact c3 p hp
          · exact ⟨by omega, fun he => by omega⟩

/-- what an iteration does. -/
theorem iteration_ok {qp : QP.Solver} {eq : Y → Y → Bool}
    {alt : Option ((X → Y → W → Bool → Y) × (X → W → Y))} {cfg : Config} {samples : List (X × Y)} {it : ℕ}
    {intr : ℕ → Option Phase} {st st' : St X Y} {out : Outcome}
    (h : iteration qp eq alt cfg samples it intr st = .ok (st', out)) :
    ∃ bs, batches (indexed samples) cfg.batchSize = .ok bs ∧ ∃ st1 s k fl,
      runBatches qp eq cfg samples.length intr bs 0 (st, 0, 0) = .ok ((st1, s, k), fl) ∧
      (fl = true ∧ st' = st1 ∧ out = .interrupted ∨
       fl = false ∧ ∃ obj lc, st1.objective = some obj ∧
        ((k ≠ 0 ∧ converged cfg.tol it st1.objectiveCurve obj = false ∧ out = .goOn ∧
            st' = { st1 with objectiveCurve := st1.objectiveCurve ++ [obj], lossCurve := lc,
                             primalCurve := st1.primalCurve ++
                              [cfg.C * s + (∑ k ∈ range st1.model.dim, st1.w k ^ 2) / 2] }) ∨
         ((k = 0 ∨ converged cfg.tol it st1.objectiveCurve obj = true) ∧
           ((∃ la inf, alt = some (la, inf) ∧ st1.switched = false ∧ out = .goOn ∧
              st' = { st1 with objectiveCurve := st1.objectiveCurve ++ [obj], lossCurve := lc,
                               primalCurve := st1.primalCurve ++
                                [cfg.C * s + (∑ k ∈ range st1.model.dim, st1.w k ^ 2) / 2],
                               model := { st1.model with lossAug := la, inference := inf },
                               switched := true }) ∨
            (st1.switched = true ∨ alt = none) ∧ out = .stopped (decide (k = 0)) ∧
              st' = { st1 with objectiveCurve := st1.objectiveCurve ++ [obj], lossCurve := lc,
                               primalCurve := st1.primalCurve ++
                                [cfg.C * s + (∑ k ∈ range st1.model.dim, st1.w k ^ 2) / 2] })))) := by
  unfold iteration at h
  cases hb : batches (indexed samples) cfg.batchSize with
  | error err => rw [hb] at h; cases h
  | ok bs =>
    rw [hb] at h
    simp only at h
    refine ⟨bs, rfl, ?_⟩
    cases hr : runBatches qp eq cfg samples.length intr bs 0 (st, 0, 0) with
    | error err => rw [hr] at h; cases h
    | ok r =>
      obtain ⟨⟨st1, s, k⟩, fl⟩ := r
      rw [hr] at h
      refine ⟨st1, s, k, fl, rfl, ?_⟩
      cases fl with
      | true =>
        simp only [Except.ok.injEq, Prod.mk.injEq] at h
        exact .inl ⟨rfl, h.1.symm, h.2.symm⟩
      | false =>
        right
        refine ⟨rfl, ?_⟩
        simp only at h
        cases ho : st1.objective with
        | none => rw [ho] at h; cases h
        | some obj =>
          rw [ho] at h
          simp only at h
          refine ⟨obj, computeTrainingLoss st1.model cfg.showLossEvery st1.w samples it st1.lossCurve, rfl, ?_⟩
          by_cases hstop : (decide (k = 0) || converged cfg.tol it st1.objectiveCurve obj) = true
          · rw [if_pos hstop] at h
            right
            refine ⟨by simpa using hstop, ?_⟩
            rcases hsw : st1.switched with _ | _
            · rcases halt : alt with _ | ⟨la, inf⟩
              · rw [halt, hsw] at h
                simp only [Except.ok.injEq, Prod.mk.injEq] at h
                exact .inr ⟨.inr rfl, h.2.symm, h.1.symm⟩
              · rw [halt, hsw] at h
                simp only [Except.ok.injEq, Prod.mk.injEq] at h
                exact .inl ⟨la, inf, rfl, rfl, h.2.symm, h.1.symm⟩
            · rw [hsw] at h
              simp only [Except.ok.injEq, Prod.mk.injEq] at h
              exact .inr ⟨.inl rfl, h.2.symm, h.1.symm⟩
          · rw [if_neg hstop] at h
            simp only [Except.ok.injEq, Prod.mk.injEq] at h
            simp only [Bool.or_eq_true, decide_eq_true_eq, not_or, Bool.not_eq_true] at hstop
            exact .inl ⟨hstop.1, hstop.2, h.2.symm, h.1.symm⟩

/-- invariants of an iteration. -/
theorem iteration_induct {qp : QP.Solver} {eq : Y → Y → Bool}
    {alt : Option ((X → Y → W → Bool → Y) × (X → W → Y))} {cfg : Config} {samples : List (X × Y)} {it : ℕ}
    {intr : ℕ → Option Phase} (I : St X Y → Prop)
    (hstep : ∀ j b, GoodBatch samples b → ∀ st s k st' s' k' fl, I st →
      runBatch qp eq cfg samples.length (intr j) b (st, s, k) = .ok ((st', s', k'), fl) → I st')
    (hend : ∀ st obj lc pc, I st → st.objective = some obj →
      I { st with objectiveCurve := st.objectiveCurve ++ [obj], lossCurve := lc, primalCurve := pc })
    (hsw : ∀ st la inf, I st → alt = some (la, inf) →
      I { st with model := { st.model with lossAug := la, inference := inf }, switched := true })
    {st st' : St X Y} {out : Outcome} (h0 : I st)
    (h : iteration qp eq alt cfg samples it intr st = .ok (st', out)) : I st' := by
  obtain ⟨bs, hb, st1, s, k, fl, hr, hc⟩ := iteration_ok h
  have hgood := batches_good hb
  have h1 : I st1 := runBatches_induct (fun st _ => I st)
    (fun j b hb st s k st' s' k' fl hI hrb => hstep j b (hgood b hb) st s k st' s' k' fl hI hrb) h0 hr
  rcases hc with ⟨-, rfl, -⟩ | ⟨-, obj, lc, ho, hc⟩
  · exact h1
  · rcases hc with ⟨-, -, -, rfl⟩ | ⟨-, ⟨la, inf, halt, -, -, rfl⟩ | ⟨-, -, rfl⟩⟩
    · exact hend _ _ _ _ h1 ho
    · exact hsw _ la inf (hend _ _ _ _ h1 ho) halt
    · exact hend _ _ _ _ h1 ho

theorem loop_induct {qp : QP.Solver} {eq : Y → Y → Bool}
    {alt : Option ((X → Y → W → Bool → Y) × (X → W → Y))} {cfg : Config} {samples : List (X × Y)}
    {intr : ℕ → ℕ → Option Phase} (I : St X Y → Prop)
    (hstep : ∀ it st st' out, I st → iteration qp eq alt cfg samples it (intr it) st = .ok (st', out) → I st')
    {fuel it : ℕ} {st st' : St X Y} {out : Outcome} (h0 : I st)
    (h : loop qp eq alt cfg samples intr fuel it st = .ok (st', out)) : I st' := by
  induction fuel generalizing it st with
  | zero =>
    simp only [loop, Except.ok.injEq, Prod.mk.injEq] at h
    exact h.1 ▸ h0
  | succ fuel ih =>
    unfold loop at h
    cases hi : iteration qp eq alt cfg samples it (intr it) st with
    | error err => rw [hi] at h; cases h
    | ok r =>
      obtain ⟨st1, o1⟩ := r
      rw [hi] at h
      have h1 := hstep _ _ _ _ h0 hi
      cases o1 with
      | goOn => exact ih h1 h
      | interrupted =>
        simp only [Except.ok.injEq, Prod.mk.injEq] at h
        exact h.1 ▸ h1
      | stopped b =>
        simp only [Except.ok.injEq, Prod.mk.injEq] at h
        exact h.1 ▸ h1

/-- the last iteration of a loop that was left. -/
theorem loop_end {qp : QP.Solver} {eq : Y → Y → Bool}
    {alt : Option ((X → Y → W → Bool → Y) × (X → W → Y))} {cfg : Config} {samples : List (X × Y)}
    {intr : ℕ → ℕ → Option Phase} (I : St X Y → Prop)
    (hstep : ∀ it st st' out, I st → iteration qp eq alt cfg samples it (intr it) st = .ok (st', out) → I st')
    {fuel it : ℕ} {st st' : St X Y} {out : Outcome} (h0 : I st) (hout : out ≠ .goOn)
    (h : loop qp eq alt cfg samples intr fuel it st = .ok (st', out)) :
    ∃ it' st1, I st1 ∧ iteration qp eq alt cfg samples it' (intr it') st1 = .ok (st', out) := by
  induction fuel generalizing it st with
  | zero =>
    simp only [loop, Except.ok.injEq, Prod.mk.injEq] at h
    exact absurd h.2.symm hout
  | succ fuel ih =>
    unfold loop at h
    cases hi : iteration qp eq alt cfg samples it (intr it) st with
    | error err => rw [hi] at h; cases h
    | ok r =>
      obtain ⟨st1, o1⟩ := r
      rw [hi] at h
      have h1 := hstep _ _ _ _ h0 hi
      cases o1 with
      | goOn => exact ih h1 h
      | interrupted =>
        simp only [Except.ok.injEq, Prod.mk.injEq] at h
        obtain ⟨rfl, rfl⟩ := h
        exact ⟨it, st, h0, hi⟩
      | stopped b =>
        simp only [Except.ok.injEq, Prod.mk.injEq] at h
        obtain ⟨rfl, rfl⟩ := h
        exact ⟨it, st, h0, hi⟩

/-- the state before the loop. -/
theorem start_ok {m : SModel X Y} {qp : QP.Solver} {o : Obj Y} {n : ℕ} {cons : Option (List (List (NCon Y)))}
    {st : St X Y} (h : start m qp o n cons = .ok st) :
    cons = none ∧ st = ⟨m, false, fun _ => 0, fun _ => [], fun _ => [], [], [], o.lossCurve, none⟩ ∨
    ∃ cs a, cons = some cs ∧ o.attrs = some a ∧ cs.length = n ∧ n ≤ a.n ∧
      solve qp o.cfg n ⟨m, false, fun _ => 0, fun i => cs.getD i [], a.lastActive, a.objectiveCurve,
        a.primalCurve, o.lossCurve, none⟩ = .ok st := by
  unfold start at h
  cases cons with
  | none =>
    simp only [Except.ok.injEq] at h
    exact .inl ⟨rfl, h.symm⟩
  | some cs =>
    right
    simp only at h
    by_cases h1 : cs.length = n
    · rw [if_neg (not_not.mpr h1)] at h
      split at h
      · cases h
      · cases ha : o.attrs with
        | none =>
          rw [ha] at h
          simp only at h
          split_ifs at h
        | some a =>
          rw [ha] at h
          simp only at h
          split_ifs at h with h2
          exact ⟨cs, a, rfl, rfl, h1, by omega, h⟩
    · rw [if_pos h1] at h
      cases h

/-- the parts of a successful fit. -/
theorem fit_ok {m : SModel X Y} {qp : QP.Solver} {eq : Y → Y → Bool}
    {alt : Option ((X → Y → W → Bool → Y) × (X → W → Y))} {intr : ℕ → ℕ → Option Phase} {o o' : Obj Y}
    {samples : List (X × Y)} {cons : Option (List (List (NCon Y)))} {out : Outcome}
    (h : fit m qp eq alt intr o samples cons = .ok (o', out)) :
    ∃ st0 st obj primal, start m qp o samples.length cons = .ok st0 ∧
      loop qp eq alt o.cfg samples intr o.cfg.maxIter 0 st0 = .ok (st, out) ∧ o.cfg.maxIter ≠ 0 ∧
      objectivePrimal st.model st.w samples o.cfg.C true = .ok primal ∧ st.objective = some obj ∧
      o' = ⟨o.cfg, some ⟨samples.length, st.w, st.ws, st.lastActive, st.objectiveCurve ++ [obj],
              st.primalCurve ++ [primal]⟩, st.lossCurve⟩ := by
  unfold fit at h
  cases hs : start m qp o samples.length cons with
  | error err => rw [hs] at h; cases h
  | ok st0 =>
    rw [hs] at h
    simp only at h
    cases hl : loop qp eq alt o.cfg samples intr o.cfg.maxIter 0 st0 with
    | error err => rw [hl] at h; cases h
    | ok r =>
      obtain ⟨st, o1⟩ := r
      rw [hl] at h
      simp only at h
      split_ifs at h with h0
      cases hp : objectivePrimal st.model st.w samples o.cfg.C true with
      | error err => rw [hp] at h; cases h
      | ok primal =>
        rw [hp] at h
        simp only at h
        cases ho : st.objective with
        | none => rw [ho] at h; cases h
        | some obj =>
          rw [ho] at h
          simp only [Except.ok.injEq, Prod.mk.injEq] at h
          obtain ⟨rfl, rfl⟩ := h
          exact ⟨st0, st, obj, primal, rfl, hl, h0, hp, ho, rfl⟩

end Verif.NSlack
