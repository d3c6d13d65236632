import Verif.Props.C44
import Verif.Props.C67

/-!
# C67 for NSlackSSVM: when training returns
-/

namespace Verif.Props

open Finset Verif.Spec Verif.Learner Verif.NSlack
open Verif.OneSlack (Phase weightsOf)

variable {X Y : Type}

theorem ncheckBad_total {cfg : NSlack.Config} (hbr : cfg.breakOnBad = false) (eq : Y → Y → Bool) (dim : ℕ) (w : W) (y : Y)
    (slack : ℚ) (old : List (NCon Y)) : ∃ r, NSlack.checkBad cfg eq dim w y slack old = .ok r := by
  unfold NSlack.checkBad
  rw [hbr]
  split_ifs <;> first | exact ⟨_, rfl⟩ | contradiction

theorem addAll_total {cfg : NSlack.Config} (hbr : cfg.breakOnBad = false) (eq : Y → Y → Bool) (m : SModel X Y) (w : W)
    (b : List (ℕ × X × Y)) (acc : WS Y × ℚ × ℕ) : ∃ acc', addAll cfg eq m w b acc = .ok acc' := by
  induction b generalizing acc with
  | nil => exact ⟨_, rfl⟩
  | cons s b ih =>
    have : ∃ acc1, addNew cfg eq m w acc s = .ok acc1 := by
      unfold addNew
      simp only
      by_cases h1 : 0 < (findConstraint m s.2.1 s.2.2 w none true true).loss
      swap
      · rw [if_pos h1]; exact ⟨_, rfl⟩
      · rw [if_neg (not_not.mpr h1)]
        obtain ⟨r, hr⟩ := ncheckBad_total hbr eq m.dim w (findConstraint m s.2.1 s.2.2 w none true true).yhat
          (findConstraint m s.2.1 s.2.2 w none true true).slack (acc.1 s.1)
        rw [hr]
        cases r <;> exact ⟨_, rfl⟩
    obtain ⟨acc1, h1⟩ := this
    unfold addAll
    rw [h1]
    exact ih acc1

theorem nsolveQP_total {qp : QP.Solver} (hcomp : QP.Complete qp) {dim : ℕ} {neg : Option (List ℕ)}
    (hneg : ∀ k ∈ neg.getD [], k < dim) {C : ℚ} (hC : 0 ≤ C) {n : ℕ} {ws : WS Y} (hne : offset ws n ≠ 0) :
    ∃ sol, NSlack.solveQP qp dim neg C n ws = .ok sol := by
  unfold NSlack.solveQP
  rw [if_neg (by
    rw [List.isEmpty_iff]
    intro h
    have := flat_length ws n
    rw [h] at this
    exact hne this.symm), if_neg (by
    rw [List.any_eq_true]
    rintro ⟨k, hk, hk'⟩
    have := hneg k hk
    have := of_decide_eq_true hk'
    omega)]
  have := hcomp _ (QP.nSlack_optimal dim neg C hC n ws 0 le_rfl)
  cases hq : qp (NSlack.qpOf dim neg C n ws 0) with
  | none => rw [hq] at this; simp at this
  | some s => exact ⟨s, rfl⟩

theorem batches_total {α : Type} {data : List α} (hne : data ≠ []) {bsz : ℤ} (hb : bsz = -1 ∨ 0 < bsz) :
    ∃ bs, NSlack.batches data bsz = .ok bs := by
  have hlen : 0 < data.length := List.length_pos_iff.mpr hne
  unfold NSlack.batches
  rw [if_neg (by omega)]
  simp only
  have hpos : (0 : ℤ) < if bsz = -1 then (data.length : ℤ) else bsz := by
    split_ifs <;> omega
  rw [if_neg (by omega)]
  obtain ⟨sl, hsl⟩ := (even_slices (if bsz = -1 then (data.length : ℤ) else bsz) data).2.mpr ⟨hne, hpos⟩
  rw [hsl]
  exact ⟨_, rfl⟩

/-- what is needed for the next iteration to succeed. -/
def NReady (cfg : NSlack.Config) (dim n : ℕ) (st : NSlack.St X Y) : Prop :=
  st.model.dim = dim ∧ (cfg.inactiveWindow = 0 ∨ Counted cfg n st.ws st.lastActive)

theorem runBatch_total {qp : QP.Solver} (hqp : QP.Exact qp) (hcomp : QP.Complete qp) (eq : Y → Y → Bool)
    {cfg : NSlack.Config} (hbr : cfg.breakOnBad = false) (hC : 0 ≤ cfg.C) {dim : ℕ}
    (hneg : ∀ k ∈ cfg.negativity.getD [], k < dim) {samples : List (X × Y)} (intr : Option Phase)
    {b : List (ℕ × X × Y)} (hb : GoodBatch samples b) (st : NSlack.St X Y) (s : ℚ) (k : ℕ)
    (h0 : NReady cfg dim samples.length st) :
    ∃ st' s' k' fl, runBatch qp eq cfg samples.length intr b (st, s, k) = .ok ((st', s', k'), fl) ∧
      (fl = false → NReady cfg dim samples.length st') ∧ (st.objective ≠ none ∨ k' ≠ k → st'.objective ≠ none) := by
  unfold runBatch
  by_cases h1 : intr = some .search
  · rw [if_pos h1]
    exact ⟨_, _, _, _, rfl, by simp, by simp⟩
  rw [if_neg h1]
  obtain ⟨⟨ws, s', new⟩, ha⟩ := addAll_total hbr eq st.model st.w b (st.ws, s, 0)
  rw [ha]
  simp only
  by_cases h2 : intr = some .qp
  · rw [if_pos h2]
    exact ⟨_, _, _, _, rfl, by simp, by simp⟩
  rw [if_neg h2]
  obtain ⟨a1, a2, -, -, a5, a6⟩ := addAll_ok hb.1 ha
  by_cases h3 : new = 0
  · rw [if_pos h3]
    refine ⟨_, _, _, _, rfl, fun _ => ?_, by simp⟩
    have := (a5 h3).1
    simp only at this
    rw [this]
    exact h0
  rw [if_neg h3]
  have hlt : ∀ p ∈ b, p.1 < samples.length := fun p hp => (List.getElem?_eq_some_iff.mp (hb.2 p hp)).1
  have hoff := a6 samples.length hlt
  simp only at hoff
  obtain ⟨sol, hq⟩ := nsolveQP_total hcomp (dim := st.model.dim) (neg := cfg.negativity) (by rw [h0.1]; exact hneg) hC
    (n := samples.length) (ws := ws) (by omega)
  have hp : ∃ r, prune cfg samples.length ws st.lastActive sol.x = .ok r ∧
      (cfg.inactiveWindow = 0 ∨ Counted cfg samples.length r.1 r.2) := by
    by_cases hw : cfg.inactiveWindow = 0
    · refine ⟨(ws, st.lastActive), ?_, .inl hw⟩
      unfold prune
      rw [if_pos hw]
    · have hcnt := h0.2.resolve_left hw
      obtain ⟨eps, -, -, hf, -⟩ := solveQP_feasible hqp.1 hq
      have hlen := ((feasible_qpOf _ _ _ _ _ _ _).mp hf).1
      obtain ⟨ws', la', e1, e2⟩ := prune_counted hw (la := st.lastActive) hlen (by
        intro i hi
        have h1 := (hcnt i hi).1
        have hgrow : ws i = st.ws i ∨ ∃ c, ws i = st.ws i ++ [c] := by
          by_cases hmem : i ∈ b.map Prod.fst
          · obtain ⟨p, hp, rfl⟩ := List.mem_map.mp hmem
            rcases a2 p hp with ⟨-, e⟩ | ⟨-, -, e⟩
            · exact .inl e
            · exact .inr ⟨_, e⟩
          · exact .inl (a1 i hmem)
        rcases hgrow with e | ⟨c, e⟩
        · rw [e]; omega
        · rw [e, List.length_append, List.length_singleton]; omega)
      exact ⟨_, e1, .inr e2⟩
  obtain ⟨⟨ws', la'⟩, hp1, hp2⟩ := hp
  have hsol : ∃ st', NSlack.solve qp cfg samples.length { st with ws := ws } = .ok st' ∧
      NReady cfg dim samples.length st' ∧ st'.objective ≠ none := by
    unfold NSlack.solve
    simp only
    rw [hq]
    simp only
    rw [hp1]
    exact ⟨_, rfl, ⟨h0.1, hp2⟩, by simp⟩
  obtain ⟨st', e1, e2, e3⟩ := hsol
  rw [e1]
  exact ⟨_, _, _, _, rfl, fun _ => e2, fun _ => e3⟩

theorem runBatches_total {qp : QP.Solver} (hqp : QP.Exact qp) (hcomp : QP.Complete qp) (eq : Y → Y → Bool)
    {cfg : NSlack.Config} (hbr : cfg.breakOnBad = false) (hC : 0 ≤ cfg.C) {dim : ℕ}
    (hneg : ∀ k ∈ cfg.negativity.getD [], k < dim) {samples : List (X × Y)} (intr : ℕ → Option Phase)
    (bs : List (List (ℕ × X × Y))) (hbs : ∀ b ∈ bs, GoodBatch samples b) (j : ℕ) (st : NSlack.St X Y) (s : ℚ) (k : ℕ)
    (h0 : NReady cfg dim samples.length st) :
    ∃ st' s' k' fl, runBatches qp eq cfg samples.length intr bs j (st, s, k) = .ok ((st', s', k'), fl) ∧
      (fl = false → NReady cfg dim samples.length st') ∧ (st.objective ≠ none ∨ k' ≠ k → st'.objective ≠ none) := by
  induction bs generalizing j st s k with
  | nil => exact ⟨_, _, _, _, rfl, fun _ => h0, by simp⟩
  | cons b bs ih =>
    obtain ⟨st1, s1, k1, fl, e1, e2, e3⟩ := runBatch_total hqp hcomp eq hbr hC hneg (intr j) (hbs b (by simp)) st s k h0
    unfold runBatches
    rw [e1]
    cases fl with
    | true => exact ⟨_, _, _, _, rfl, by simp, e3⟩
    | false =>
      obtain ⟨st2, s2, k2, fl2, f1, f2, f3⟩ := ih (fun b hb => hbs b (by simp [hb])) (j + 1) st1 s1 k1 (e2 rfl)
      refine ⟨st2, s2, k2, fl2, f1, f2, fun h => f3 ?_⟩
      rcases h with h | h
      · exact .inl (e3 (.inl h))
      · by_cases hk : k1 = k
        · exact .inr (by omega)
        · exact .inl (e3 (.inr hk))

/-- without interrupts the loop over the batches is never left early. -/
theorem runBatches_noflag {qp : QP.Solver} {eq : Y → Y → Bool} {cfg : NSlack.Config} {n : ℕ}
    (bs : List (List (ℕ × X × Y))) (j : ℕ) (acc : NSlack.St X Y × ℚ × ℕ) (r)
    (h : runBatches qp eq cfg n (fun _ => none) bs j acc = .ok r) : r.2 = false := by
  induction bs generalizing j acc with
  | nil =>
    unfold runBatches at h
    rw [Except.ok.injEq] at h
    rw [← h]
  | cons b bs ih =>
    unfold runBatches at h
    obtain ⟨st, s, k⟩ := acc
    cases hb : runBatch qp eq cfg n none b (st, s, k) with
    | error err => rw [hb] at h; cases h
    | ok q =>
      obtain ⟨⟨st', s', k'⟩, f⟩ := q
      rw [hb] at h
      have : f = false := by
        rcases runBatch_ok hb with ⟨h, -⟩ | ⟨-, ws, new, -, ⟨h, -⟩ | ⟨-, -, -, -, h⟩ | ⟨-, -, -, -, h⟩⟩
        · cases h
        · cases h
        · simpa using h
        · simpa using h
      subst this
      exact ih _ _ h

/-- an iteration succeeds or has no value to record. -/
theorem niteration_total {qp : QP.Solver} (hqp : QP.Exact qp) (hcomp : QP.Complete qp) (eq : Y → Y → Bool)
    (alt : Option ((X → Y → W → Bool → Y) × (X → W → Y)))
    {cfg : NSlack.Config} (hbr : cfg.breakOnBad = false) (hbat : cfg.batchSize = -1 ∨ 0 < cfg.batchSize) (hC : 0 ≤ cfg.C)
    {dim : ℕ} (hneg : ∀ k ∈ cfg.negativity.getD [], k < dim) {samples : List (X × Y)} (hne : samples ≠ []) (it : ℕ)
    (intr : ℕ → Option Phase) (st : NSlack.St X Y) (h0 : NReady cfg dim samples.length st) :
    (∃ st' out, NSlack.iteration qp eq alt cfg samples it intr st = .ok (st', out) ∧
      (out = .goOn → NReady cfg dim samples.length st') ∧ (st.objective ≠ none → st'.objective ≠ none)) ∨
    st.objective = none ∧ NSlack.iteration qp eq alt cfg samples it intr st = .error .unboundLocalError := by
  have hne' : indexed samples ≠ [] := by
    intro h
    have := congrArg List.length h
    unfold indexed at this
    simp at this
    exact hne this
  obtain ⟨bs, hbs⟩ := batches_total hne' hbat
  obtain ⟨st1, s1, k1, fl, e1, e2, e3⟩ := runBatches_total hqp hcomp eq hbr hC hneg intr bs (batches_good hbs) 0 st 0 0 h0
  unfold NSlack.iteration
  rw [hbs]
  simp only
  rw [e1]
  cases fl with
  | true => exact .inl ⟨_, _, rfl, by simp, fun h => e3 (.inl h)⟩
  | false =>
    simp only
    cases ho : st1.objective with
    | none =>
      refine .inr ⟨?_, rfl⟩
      by_contra hc
      exact e3 (.inl hc) ho
    | some obj =>
      left
      simp only
      have hr := e2 rfl
      split
      · split
        · exact ⟨_, _, rfl, fun _ => hr, fun _ => by simp⟩
        · exact ⟨_, _, rfl, fun _ => hr, fun _ => by simp⟩
      · exact ⟨_, _, rfl, fun _ => hr, fun _ => by simp⟩

theorem nloop_total {qp : QP.Solver} (hqp : QP.Exact qp) (hcomp : QP.Complete qp) (eq : Y → Y → Bool)
    (alt : Option ((X → Y → W → Bool → Y) × (X → W → Y)))
    {cfg : NSlack.Config} (hbr : cfg.breakOnBad = false) (hbat : cfg.batchSize = -1 ∨ 0 < cfg.batchSize) (hC : 0 ≤ cfg.C)
    {dim : ℕ} (hneg : ∀ k ∈ cfg.negativity.getD [], k < dim) {samples : List (X × Y)} (hne : samples ≠ [])
    (intr : ℕ → ℕ → Option Phase) (fuel it : ℕ) (st : NSlack.St X Y) (h0 : NReady cfg dim samples.length st) :
    (∃ st' out, NSlack.loop qp eq alt cfg samples intr fuel it st = .ok (st', out) ∧
      (st.objective ≠ none → st'.objective ≠ none)) ∨
    st.objective = none ∧ NSlack.loop qp eq alt cfg samples intr fuel it st = .error .unboundLocalError := by
  induction fuel generalizing it st with
  | zero => exact .inl ⟨_, _, rfl, id⟩
  | succ fuel ih =>
    unfold NSlack.loop
    rcases niteration_total hqp hcomp eq alt hbr hbat hC hneg hne it (intr it) st h0 with
      ⟨st1, out, e1, e2, e3⟩ | ⟨e1, e2⟩
    · rw [e1]
      cases out with
      | goOn =>
        simp only
        rcases ih (it + 1) st1 (e2 rfl) with ⟨st2, out2, f1, f2⟩ | ⟨f1, f2⟩
        · exact .inl ⟨st2, out2, f1, fun h => f2 (e3 h)⟩
        · refine .inr ⟨?_, f2⟩
          by_contra hc
          exact e3 hc f1
      | interrupted => exact .inl ⟨_, _, rfl, e3⟩
      | stopped f => exact .inl ⟨_, _, rfl, e3⟩
    · exact .inr ⟨e1, by rw [e2]⟩

/-- **C67, n-slack, the part that holds.** Let the QP solver find an optimal solution whenever there is one. Training
without given constraints and without `break_on_bad`, on a nonempty data set with a legal batch size and sign constraints
on existing weights, either returns or raises `UnboundLocalError`; this includes training that is interrupted anywhere
and any pruning. -/
theorem C67_nslack_returns_partial (m : SModel X Y) (qp : QP.Solver) (hqp : QP.Exact qp) (hcomp : QP.Complete qp)
    (eq : Y → Y → Bool) (alt : Option ((X → Y → W → Bool → Y) × (X → W → Y))) (intr : ℕ → ℕ → Option Phase)
    (o : NSlack.Obj Y) (hbr : o.cfg.breakOnBad = false) (hbat : o.cfg.batchSize = -1 ∨ 0 < o.cfg.batchSize)
    (hC : 0 ≤ o.cfg.C) (hneg : ∀ k ∈ o.cfg.negativity.getD [], k < m.dim) (samples : List (X × Y)) (hne : samples ≠ []) :
    (∃ o' out, NSlack.fit m qp eq alt intr o samples none = .ok (o', out)) ∨
    NSlack.fit m qp eq alt intr o samples none = .error .unboundLocalError := by
  unfold NSlack.fit NSlack.start
  simp only
  rcases nloop_total hqp hcomp eq alt hbr hbat hC hneg hne intr o.cfg.maxIter 0
    ⟨m, false, fun _ => 0, fun _ => [], fun _ => [], [], [], o.lossCurve, none⟩
    ⟨rfl, .inr fun i _ => ⟨rfl, by simp⟩⟩ with ⟨st', out, e1, -⟩ | ⟨-, e2⟩
  · rw [e1]
    simp only
    split_ifs
    · exact .inr rfl
    · rw [objectivePrimal_ok _ _ _ _ _ hne]
      simp only
      cases st'.objective with
      | none => exact .inr rfl
      | some v => exact .inl ⟨_, _, rfl⟩
  · rw [e2]
    exact .inr rfl

/-- which samples offer a constraint in the first iteration. -/
theorem rejected_first {cfg : NSlack.Config} {eq : Y → Y → Bool} {m : SModel X Y} {s : X × Y} :
    Rejected cfg eq m (fun _ => 0) [] s ↔ m.lossOf s.2 (m.lossAug s.1 s.2 (fun _ => 0) true) < 1 / 10 ^ 5 := by
  have hs : (found m (fun _ => 0) s).slack = max (m.lossOf s.2 (m.lossAug s.1 s.2 (fun _ => 0) true)) 0 := by
    change max (m.lossOf s.2 (m.lossAug s.1 s.2 (fun _ => 0) true) - dot m.dim (fun _ => 0) _) 0 = _
    rw [dot_zero_left, sub_zero]
  have hl : (found m (fun _ => 0) s).loss = m.lossOf s.2 (m.lossAug s.1 s.2 (fun _ => 0) true) := rfl
  unfold Rejected
  rw [hs, hl]
  generalize m.lossOf s.2 (m.lossAug s.1 s.2 (fun _ => 0) true) = l
  constructor
  · rintro (h | h)
    · exact lt_of_le_of_lt (not_lt.mp h) (by norm_num)
    · by_contra hc
      unfold NSlack.checkBad at h
      rw [if_neg (by
        rw [not_lt]
        exact le_max_of_le_left (not_lt.mp hc)), if_neg (by simp)] at h
      by_cases hcc : cfg.checkConstraints = true
      · rw [if_pos hcc, if_neg (by simp)] at h
        cases h
      · rw [if_neg hcc] at h
        cases h
  · intro h
    by_cases h0 : 0 < l
    · right
      unfold NSlack.checkBad
      rw [if_pos (by rw [max_eq_left h0.le]; exact h)]
    · exact .inl h0

/-- **C67, n-slack, when training returns.** Under the same conditions and without interrupts: training returns if and
only if `max_iter` is positive and loss-augmented inference at zero weights returns, for some sample, an output with a
loss of at least 1e-5. Otherwise it raises `UnboundLocalError`, also on data that the zero weights already fit. -/
theorem C67_nslack_returns_iff_partial (m : SModel X Y) (qp : QP.Solver) (hqp : QP.Exact qp) (hcomp : QP.Complete qp)
    (eq : Y → Y → Bool) (alt : Option ((X → Y → W → Bool → Y) × (X → W → Y)))
    (o : NSlack.Obj Y) (hbr : o.cfg.breakOnBad = false) (hbat : o.cfg.batchSize = -1 ∨ 0 < o.cfg.batchSize)
    (hC : 0 ≤ o.cfg.C) (hneg : ∀ k ∈ o.cfg.negativity.getD [], k < m.dim) (samples : List (X × Y)) (hne : samples ≠ []) :
    (∃ o' out, NSlack.fit m qp eq alt (fun _ _ => none) o samples none = .ok (o', out)) ↔
      o.cfg.maxIter ≠ 0 ∧ ∃ s ∈ samples, 1 / 10 ^ 5 ≤ m.lossOf s.2 (m.lossAug s.1 s.2 (fun _ => 0) true) := by
  set st0 : NSlack.St X Y := ⟨m, false, fun _ => 0, fun _ => [], fun _ => [], [], [], o.lossCurve, none⟩ with hst0
  have hr0 : NReady o.cfg m.dim samples.length st0 := ⟨rfl, .inr fun i _ => ⟨rfl, fun c hc => absurd hc List.not_mem_nil⟩⟩
  have hne' : indexed samples ≠ [] := by
    intro h
    have := congrArg List.length h
    unfold indexed at this
    simp at this
    exact hne this
  obtain ⟨bs, hbs⟩ := batches_total hne' hbat
  have hflat := (batches_ok hbs).1
  obtain ⟨st1, s1, k1, fl, e1, -, e3⟩ := runBatches_total hqp hcomp eq hbr hC hneg (fun _ => none) bs (batches_good hbs) 0
    st0 0 0 hr0
  -- without interrupts the flag is not set
  have hfl : fl = false := by
    exact runBatches_noflag bs 0 _ _ e1
  subst hfl
  obtain ⟨q1, q2⟩ := runBatches_quiet (batches_good hbs) e1
  have hmem : ∀ s ∈ samples, ∃ i, (i, s) ∈ indexed samples := by
    intro s hs
    obtain ⟨i, hi, rfl⟩ := List.getElem_of_mem hs
    refine ⟨i, ?_⟩
    unfold indexed
    have hz : i < ((List.range samples.length).zip samples).length := by simp [hi]
    have : ((List.range samples.length).zip samples)[i] = (i, samples[i]) := by simp
    rw [← this]
    exact List.getElem_mem hz
  have hkey : st1.objective ≠ none ↔
      ∃ s ∈ samples, 1 / 10 ^ 5 ≤ m.lossOf s.2 (m.lossAug s.1 s.2 (fun _ => 0) true) := by
    constructor
    · intro ho
      by_contra hc
      push Not at hc
      -- nothing happens in the first iteration
      have hquiet : ∀ (bs : List (List (ℕ × X × Y))) (j : ℕ) (s : ℚ) (k : ℕ),
          (∀ b ∈ bs, GoodBatch samples b) → ∀ st' s' k' f,
          runBatches qp eq o.cfg samples.length (fun _ => none) bs j (st0, s, k) = .ok ((st', s', k'), f) → st' = st0 := by
        intro bs
        induction bs with
        | nil =>
          intro j s k _ st' s' k' f h
          unfold runBatches at h
          simp only [Except.ok.injEq, Prod.mk.injEq] at h
          exact h.1.1.symm
        | cons b bs ih =>
          intro j s k hg st' s' k' f h
          unfold runBatches at h
          cases hb : runBatch qp eq o.cfg samples.length none b (st0, s, k) with
          | error err => rw [hb] at h; cases h
          | ok q =>
            obtain ⟨⟨st2, s2, k2⟩, f2⟩ := q
            rw [hb] at h
            have hst2 : st2 = st0 := by
              rcases runBatch_ok hb with ⟨h, -⟩ | ⟨-, ws, new, ha, hcase⟩
              · cases h
              · obtain ⟨a1, a2, -, -, a5, a6⟩ := addAll_ok (hg b (by simp)).1 ha
                have hall : ∀ i, ws i = [] := by
                  intro i
                  by_cases hi : i ∈ b.map Prod.fst
                  · obtain ⟨p, hp, rfl⟩ := List.mem_map.mp hi
                    rcases a2 p hp with ⟨-, h⟩ | ⟨h1, h2, -⟩
                    · exact h
                    · exfalso
                      have hps := hc p.2 (List.mem_of_getElem? ((hg b (by simp)).2 p hp))
                      rcases (rejected_first (cfg := o.cfg) (eq := eq) (m := m)).mpr hps with h | h
                      · exact h h1
                      · have h2' : NSlack.checkBad o.cfg eq m.dim (fun _ => 0) (found m (fun _ => 0) p.2).yhat
                            (found m (fun _ => 0) p.2).slack [] = .ok false := h2
                        rw [h] at h2'
                        cases h2'
                  · exact a1 i hi
                have hoff : ∀ n, offset ws n = 0 := by
                  intro n
                  unfold offset
                  simp [hall]
                have hnew : new = 0 := by
                  have h6 := a6 samples.length
                    (fun p hp => (List.getElem?_eq_some_iff.mp ((hg b (by simp)).2 p hp)).1)
                  rw [hoff] at h6
                  simp only at h6
                  omega
                have hws : ws = st0.ws := (a5 hnew).1
                rcases hcase with ⟨h, -⟩ | ⟨-, -, h, -⟩ | ⟨-, h, -⟩
                · cases h
                · rw [h, hws]
                · omega
            subst hst2
            cases f2 with
            | true =>
              simp only [Except.ok.injEq, Prod.mk.injEq] at h
              exact h.1.1.symm
            | false => exact ih _ _ _ (fun b hb => hg b (by simp [hb])) _ _ _ _ h
      have := hquiet bs 0 0 0 (batches_good hbs) _ _ _ _ e1
      rw [this] at ho
      exact ho rfl
    · rintro ⟨s, hs, hle⟩
      refine e3 (.inr fun hk => ?_)
      obtain ⟨-, -, hrej⟩ := q2 hk
      obtain ⟨i, hi⟩ := hmem s hs
      rw [← hflat] at hi
      exact absurd (rejected_first.mp (hrej _ hi)) (not_lt.mpr hle)
  have hfit : (∃ o' out, NSlack.fit m qp eq alt (fun _ _ => none) o samples none = .ok (o', out)) ↔
      o.cfg.maxIter ≠ 0 ∧ ∃ st' out, NSlack.loop qp eq alt o.cfg samples (fun _ _ => none) o.cfg.maxIter 0 st0 =
        .ok (st', out) ∧ st'.objective ≠ none := by
    constructor
    · rintro ⟨o', out, h⟩
      obtain ⟨st0', st, obj, primal, hs, hl, h0, -, hob, -⟩ := fit_ok h
      have : st0' = st0 := by
        rcases start_ok hs with ⟨-, h⟩ | ⟨cs, a, h, -⟩
        · exact h
        · cases h
      subst this
      exact ⟨h0, st, out, hl, by simp [hob]⟩
    · rintro ⟨h0, st', out, hl, hob⟩
      obtain ⟨v, hv⟩ := Option.ne_none_iff_exists'.mp hob
      unfold NSlack.fit NSlack.start
      simp only
      rw [hl]
      simp only
      rw [if_neg h0, objectivePrimal_ok _ _ _ _ _ hne, hv]
      exact ⟨_, _, rfl⟩
  rw [hfit]
  refine and_congr_right fun h0 => ?_
  rw [← hkey]
  obtain ⟨fuel, hfuel⟩ := Nat.exists_eq_succ_of_ne_zero h0
  rw [hfuel, Nat.succ_eq_add_one]
  constructor
  · rintro ⟨st', out, hl, -⟩ hn
    unfold NSlack.loop NSlack.iteration at hl
    rw [hbs] at hl
    simp only [e1, hn] at hl
    cases hl
  · intro ho
    obtain ⟨v, hv⟩ := Option.ne_none_iff_exists'.mp ho
    rcases niteration_total hqp hcomp eq alt hbr hbat hC hneg hne 0 (fun _ => none) st0 hr0 with
      ⟨st2, out, f1, f2, -⟩ | ⟨-, f2⟩
    · have hob2 : st2.objective ≠ none := by
        obtain ⟨bs', hb', st1', s', k', fl', hr', hcase⟩ := iteration_ok f1
        rw [hbs, Except.ok.injEq] at hb'
        subst hb'
        rw [e1] at hr'
        simp only [Except.ok.injEq, Prod.mk.injEq] at hr'
        obtain ⟨⟨rfl, rfl, rfl⟩, rfl⟩ := hr'
        rcases hcase with ⟨h, -⟩ | ⟨-, obj, lc, hob, ⟨-, -, -, h⟩ | ⟨-, ⟨la, inf, -, -, -, h⟩ | ⟨-, -, h⟩⟩⟩
        · cases h
        all_goals
          rw [h]
          exact ho
      unfold NSlack.loop
      rw [f1]
      cases out with
      | goOn =>
        simp only
        rcases nloop_total hqp hcomp eq alt hbr hbat hC hneg hne (fun _ _ => none) fuel 1 st2 (f2 rfl) with
          ⟨st3, out3, g1, g2⟩ | ⟨g1, -⟩
        · exact ⟨st3, out3, g1, g2 hob2⟩
        · exact absurd g1 hob2
      | interrupted => exact ⟨_, _, rfl, hob2⟩
      | stopped f => exact ⟨_, _, rfl, hob2⟩
    · exfalso
      unfold NSlack.iteration at f2
      rw [hbs] at f2
      simp only [e1, hv] at f2
      split at f2
      · split at f2 <;> cases f2
      · cases f2

/-- Two samples, an ideal solver: training returns with pruning and with batches of one sample. -/
example : ∃ o' out, NSlack.fit exampleTable QP.ideal natBeq none (fun _ _ => none) (exampleNS 10 1 1 50)
    [((), 0), ((), 0)] none = .ok (o', out) :=
  (C67_nslack_returns_iff_partial exampleTable QP.ideal QP.ideal_exact.1 QP.ideal_exact.2 natBeq none (exampleNS 10 1 1 50) rfl
    (.inr (by decide)) (by decide +kernel) (by decide) _ (by simp)).mpr ⟨by decide, ((), 0), by simp, by decide +kernel⟩

end Verif.Props
