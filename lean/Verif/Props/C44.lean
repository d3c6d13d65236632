import Verif.Props.C40
import Verif.Props.C43

/-!
# C44: bound and stopping rule of NSlackSSVM
-/

namespace Verif.Props

open Finset Verif.Spec Verif.Learner Verif.NSlack
open Verif.OneSlack (Phase weightsOf)

variable {X Y : Type}

/-! ### the dual value is a lower bound -/

/-- what a constraint found during training satisfies. -/
theorem wasViolated_holds {m : SModel X Y} {outputs : X → Set Y}
    {alt : Option ((X → Y → W → Bool → Y) × (X → W → Y))} {s : X × Y} {c : NCon Y}
    (hla : ∀ w, m.lossAug s.1 s.2 w true ∈ outputs s.1)
    (hla' : ∀ p, alt = some p → ∀ w, p.1 s.1 s.2 w true ∈ outputs s.1)
    (h : WasViolated m alt s c) : Holds (problemOf m outputs) s c := by
  obtain ⟨w, la, h1, h2, h3, h4, -⟩ := h
  refine ⟨?_, fun k _ => h3 k, h4⟩
  rw [h2]
  rcases h1 with rfl | ⟨p, hp, rfl⟩
  · exact hla w
  · exact hla' p hp w

/-- invariant: constraints belong to admissible outputs, and the values are lower bounds. -/
def Inv44 (m : SModel X Y) (outputs : X → Set Y) (alt : Option ((X → Y → W → Bool → Y) × (X → W → Y)))
    (eq : Y → Y → Bool) (C : ℚ) (samples : List (X × Y)) (st : NSlack.St X Y) : Prop :=
  Inv43 m alt eq False (fun _ s c => Holds (problemOf m outputs) s c) samples st ∧
    (∀ v, st.objective = some v → (problemOf m outputs).LowerBound C samples v) ∧
    ∀ v ∈ st.objectiveCurve, (problemOf m outputs).LowerBound C samples v

/-- the working sets after the search for constraints in a batch. -/
theorem inv43_search {m : SModel X Y} {alt : Option ((X → Y → W → Bool → Y) × (X → W → Y))}
    {eq : Y → Y → Bool} {D : Prop} {R : ℕ → X × Y → NCon Y → Prop} {samples : List (X × Y)}
    (hR : ∀ i s c, samples[i]? = some s → WasViolated m alt s c → R i s c) {cfg : NSlack.Config}
    {b : List (ℕ × X × Y)} (hb : GoodBatch samples b) {st : NSlack.St X Y} {s s' : ℚ} {ws : WS Y} {new : ℕ}
    (h0 : Inv43 m alt eq D R samples st)
    (h : addAll cfg eq st.model st.w b (st.ws, s, 0) = .ok (ws, s', new)) :
    Inv43 m alt eq D R samples { st with ws := ws } := by
  refine inv43_batch hR (qp := fun _ => none) (cfg := cfg) (n := 0) (intr := some .qp) hb (s := s) (s' := s')
    (k := 0) (k' := 0) (fl := true) h0 ?_
  unfold runBatch
  rw [if_neg (by simp), h]
  simp

theorem solve_lower {m : SModel X Y} {outputs : X → Set Y} {samples : List (X × Y)} {qp : QP.Solver}
    (hqp : QP.Sound qp) {cfg : NSlack.Config} (hC : 0 < cfg.C)
    (hl : (problemOf m outputs).Labelled samples) {st st' : NSlack.St X Y} (hd : st.model.dim = m.dim)
    (hws : ∀ i s, samples[i]? = some s → ∀ c ∈ st.ws i, Holds (problemOf m outputs) s c)
    (h : NSlack.solve qp cfg samples.length st = .ok st') (v : ℚ) (hv : st'.objective = some v) :
    (problemOf m outputs).LowerBound cfg.C samples v := by
  obtain ⟨sol, hq, -, he⟩ := solve_ok h
  obtain ⟨eps, heps, -, hf, hval⟩ := solveQP_feasible hqp hq
  rw [he] at hv
  simp only [Option.some.injEq] at hv
  rw [hd] at hf hval
  rw [← hv, hval]
  refine qp_lower_bound (problemOf m outputs) cfg.C hC samples hl cfg.negativity st.ws ?_ eps ?_ sol.x hf
  · intro i hi c hc
    exact hws i _ (List.getElem?_eq_getElem hi) c hc
  · rcases heps with rfl | rfl
    · exact le_rfl
    · norm_num

theorem inv44_batch {m : SModel X Y} {outputs : X → Set Y}
    {alt : Option ((X → Y → W → Bool → Y) × (X → W → Y))} {eq : Y → Y → Bool} {samples : List (X × Y)}
    {qp : QP.Solver} (hqp : QP.Sound qp) {cfg : NSlack.Config} (hC : 0 < cfg.C)
    (hl : (problemOf m outputs).Labelled samples)
    (hla : ∀ s ∈ samples, ∀ w, m.lossAug s.1 s.2 w true ∈ outputs s.1)
    (hla' : ∀ p, alt = some p → ∀ s ∈ samples, ∀ w, p.1 s.1 s.2 w true ∈ outputs s.1)
    {intr : Option Phase} {b : List (ℕ × X × Y)} (hb : GoodBatch samples b) {st st' : NSlack.St X Y} {s s' : ℚ}
    {k k' : ℕ} {fl : Bool} (h0 : Inv44 m outputs alt eq cfg.C samples st)
    (h : runBatch qp eq cfg samples.length intr b (st, s, k) = .ok ((st', s', k'), fl)) :
    Inv44 m outputs alt eq cfg.C samples st' := by
  have hR : ∀ (i : ℕ) (s : X × Y) (c : NCon Y), samples[i]? = some s → WasViolated m alt s c →
      Holds (problemOf m outputs) s c := fun i s c hi hv =>
    wasViolated_holds (hla s (List.mem_of_getElem? hi)) (fun p hp => hla' p hp s (List.mem_of_getElem? hi)) hv
  refine ⟨inv43_batch hR hb h0.1 h, ?_⟩
  rcases runBatch_ok h with ⟨-, rfl, -⟩ | ⟨-, ws, new, ha, hc⟩
  · exact h0.2
  · have key := inv43_search hR hb h0.1 ha
    rcases hc with ⟨-, rfl, -⟩ | ⟨-, -, rfl, -⟩ | ⟨-, -, hs, -⟩
    · exact h0.2
    · exact h0.2
    · constructor
      · intro v hv
        refine solve_lower hqp hC hl (st := { st with ws := ws }) ?_ (fun i s hi => (key.2 i s hi).2) hs v hv
        obtain ⟨la, inf, hm, -⟩ := key.1
        simp only at hm
        rw [hm]
      · obtain ⟨sol, -, -, he⟩ := solve_ok hs
        rw [he]
        exact h0.2.2

theorem inv44_iteration {m : SModel X Y} {outputs : X → Set Y}
    {alt : Option ((X → Y → W → Bool → Y) × (X → W → Y))} {eq : Y → Y → Bool} {samples : List (X × Y)}
    {qp : QP.Solver} (hqp : QP.Sound qp) {cfg : NSlack.Config} (hC : 0 < cfg.C)
    (hl : (problemOf m outputs).Labelled samples)
    (hla : ∀ s ∈ samples, ∀ w, m.lossAug s.1 s.2 w true ∈ outputs s.1)
    (hla' : ∀ p, alt = some p → ∀ s ∈ samples, ∀ w, p.1 s.1 s.2 w true ∈ outputs s.1)
    {it : ℕ} {intr : ℕ → Option Phase} {st st' : NSlack.St X Y} {out : Outcome}
    (h0 : Inv44 m outputs alt eq cfg.C samples st)
    (h : NSlack.iteration qp eq alt cfg samples it intr st = .ok (st', out)) :
    Inv44 m outputs alt eq cfg.C samples st' := by
  refine iteration_induct _ (fun j b hb st s k st' s' k' fl hI hr =>
    inv44_batch hqp hC hl hla hla' hb hI hr) ?_ ?_ h0 h
  · intro st obj lc pc hI ho
    refine ⟨hI.1, hI.2.1, fun v hv => ?_⟩
    rcases List.mem_append.mp hv with hv | hv
    · exact hI.2.2 v hv
    · rw [List.mem_singleton] at hv
      rw [hv]
      exact hI.2.1 obj ho
  · intro st la inf hI halt
    obtain ⟨⟨⟨la', inf', hm, -⟩, h2⟩, h3⟩ := hI
    exact ⟨⟨⟨la, inf, by simp only [hm], .inr ⟨rfl, halt⟩⟩, h2⟩, h3⟩

/-- the constraints given by the user belong to admissible outputs. -/
def GivenHold (m : SModel X Y) (outputs : X → Set Y) (samples : List (X × Y))
    (cons : Option (List (List (NCon Y)))) : Prop :=
  ∀ cs, cons = some cs → List.Forall₂ (fun s l => ∀ c ∈ l, Holds (problemOf m outputs) s c) samples cs

/-- without given constraints nothing is required; with them, the values that are kept from before are lower
bounds. -/
def OldBounds (m : SModel X Y) (outputs : X → Set Y) (C : ℚ) (samples : List (X × Y)) (o : NSlack.Obj Y)
    (cons : Option (List (List (NCon Y)))) : Prop :=
  cons ≠ none → ∀ a, o.attrs = some a → ∀ v ∈ a.objectiveCurve, (problemOf m outputs).LowerBound C samples v

theorem inv44_start {m : SModel X Y} {outputs : X → Set Y}
    {alt : Option ((X → Y → W → Bool → Y) × (X → W → Y))} {eq : Y → Y → Bool} {samples : List (X × Y)}
    {qp : QP.Solver} (hqp : QP.Sound qp) {o : NSlack.Obj Y} (hC : 0 < o.cfg.C)
    (hl : (problemOf m outputs).Labelled samples) {cons : Option (List (List (NCon Y)))}
    (hc : GivenHold m outputs samples cons) (ho : OldBounds m outputs o.cfg.C samples o cons)
    {st : NSlack.St X Y} (h : NSlack.start m qp o samples.length cons = .ok st) :
    Inv44 m outputs alt eq o.cfg.C samples st := by
  have hgiven : ∀ cs : List (List (NCon Y)), cons = some cs → ∀ (i : ℕ) (s : X × Y) (l : List (NCon Y)),
      samples[i]? = some s → cs[i]? = some l → ∀ c ∈ l, Holds (problemOf m outputs) s c := by
    intro cs hcs i s l hi hl
    obtain ⟨-, h2⟩ := List.forall₂_iff_get.mp (hc cs hcs)
    obtain ⟨a1, rfl⟩ := List.getElem?_eq_some_iff.mp hi
    obtain ⟨a2, rfl⟩ := List.getElem?_eq_some_iff.mp hl
    exact h2 i a1 a2
  refine ⟨inv43_start (fun cs hcs i s l hi hl => ⟨False.elim, hgiven cs hcs i s l hi hl⟩) h, ?_⟩
  rcases start_ok h with ⟨-, rfl⟩ | ⟨cs, a, hcs, hat, hlen, -, hsol⟩
  · exact ⟨fun v hv => (by cases hv), fun v hv => (by cases hv)⟩
  · constructor
    · intro v hv
      refine solve_lower hqp hC hl rfl ?_ hsol v hv
      intro i s hi c hcm
      have hlt : i < cs.length := by
        have := (List.getElem?_eq_some_iff.mp hi).1
        omega
      simp only [List.getD_eq_getElem?_getD, List.getElem?_eq_getElem hlt, Option.getD_some] at hcm
      exact hgiven cs hcs i s _ hi (List.getElem?_eq_getElem hlt) c hcm
    · obtain ⟨sol, -, -, he⟩ := solve_ok hsol
      rw [he]
      exact ho (by rw [hcs]; simp) a hat

/-- **C44, dual bound.** Every value of `objective_curve_` is at most the regularised risk of every weight
vector, for every solver that returns feasible points, every batch size, with pruning, negativity constraints,
a switch of inference methods and wherever the fit is interrupted. Loss-augmented inference only has to return
admissible outputs. For a warm start, the given constraints have to belong to admissible outputs and the values
that were recorded before have to be lower bounds. -/
theorem C44_lower_bound (m : SModel X Y) (outputs : X → Set Y) (qp : QP.Solver) (hqp : QP.Sound qp)
    (eq : Y → Y → Bool) (alt : Option ((X → Y → W → Bool → Y) × (X → W → Y)))
    (intr : ℕ → ℕ → Option Phase) (o o' : NSlack.Obj Y) (samples : List (X × Y)) (hC : 0 < o.cfg.C)
    (hl : (problemOf m outputs).Labelled samples)
    (hla : ∀ s ∈ samples, ∀ w, m.lossAug s.1 s.2 w true ∈ outputs s.1)
    (hla' : ∀ p, alt = some p → ∀ s ∈ samples, ∀ w, p.1 s.1 s.2 w true ∈ outputs s.1)
    (cons : Option (List (List (NCon Y)))) (hc : GivenHold m outputs samples cons)
    (ho : OldBounds m outputs o.cfg.C samples o cons) (out : Outcome)
    (h : NSlack.fit m qp eq alt intr o samples cons = .ok (o', out)) :
    ∃ a, o'.attrs = some a ∧ a.objectiveCurve ≠ [] ∧
      ∀ v ∈ a.objectiveCurve, (problemOf m outputs).LowerBound o.cfg.C samples v := by
  obtain ⟨st0, st, obj, primal, hs, hlp, -, -, hob, rfl⟩ := fit_ok h
  refine ⟨_, rfl, by simp, ?_⟩
  have hI := loop_induct (Inv44 m outputs alt eq o.cfg.C samples)
    (fun it st st' out hI hit => inv44_iteration hqp hC hl hla hla' hI hit)
    (inv44_start hqp hC hl hc ho hs) hlp
  intro v hv
  rcases List.mem_append.mp hv with hv | hv
  · exact hI.2.2 v hv
  · rw [List.mem_singleton] at hv
    rw [hv]
    exact hI.2.1 obj hob

/-! ### the stopping rule -/

/-- the first attempt at solving the QP succeeds whenever one of the two does. -/
def NFirstAttempt (qp : QP.Solver) (dim : ℕ) (C : ℚ) (n : ℕ) : Prop :=
  ∀ (Y : Type) (ws : WS Y) sol, NSlack.solveQP qp dim none C n ws = .ok sol →
    qp (NSlack.qpOf dim none C n ws 0) = some sol

/-- the weights are optimal for the working sets: norm and slacks of any constraints that are held are covered
by the dual value. -/
def NTight (dim : ℕ) (C : ℚ) (n : ℕ) (δ : ℚ) (st : NSlack.St X Y) : Prop :=
  ∀ v, st.objective = some v → ∀ ξ : ℕ → ℚ,
    (∀ i < n, ξ i = 0 ∨ ∃ c ∈ st.ws i, ξ i = c.loss - dot dim st.w c.dj) →
    dot dim st.w st.w / 2 + C * ∑ i ∈ range n, ξ i ≤ v + δ * (n * C ^ 2)

theorem solve_tight {qp : QP.Solver} (hqp : QP.Exact qp) {cfg : NSlack.Config} (hC : 0 ≤ cfg.C)
    (hneg : cfg.negativity = none) {dim n : ℕ} {δ : ℚ}
    (hδ : δ = 1 / 10 ^ 8 ∨ δ = 0 ∧ NFirstAttempt qp dim cfg.C n) {st st' : NSlack.St X Y}
    (hd : st.model.dim = dim) (h : NSlack.solve qp cfg n st = .ok st') : NTight dim cfg.C n δ st' := by
  obtain ⟨sol, hq, hp, he⟩ := solve_ok h
  rw [hd, hneg] at hq
  have hsub := prune_sublist hp
  intro v hv ξ hξ
  have hw : st'.w = weightsOf (flat n st.ws) sol.x := by rw [he]
  rw [hw] at hξ ⊢
  have hv' : v = -sol.primalObjective := by
    rw [he] at hv
    simpa using hv.symm
  obtain ⟨eps, e0, e1, e2⟩ : ∃ eps : ℚ, 0 ≤ eps ∧ eps ≤ δ ∧
      qp (NSlack.qpOf dim none cfg.C n st.ws eps) = some sol := by
    rcases hδ with rfl | ⟨rfl, hf⟩
    · obtain ⟨eps, h1, h2, -, -⟩ := solveQP_feasible hqp.1 hq
      rcases h1 with rfl | rfl
      · exact ⟨0, le_rfl, by norm_num, h2⟩
      · exact ⟨_, by norm_num, le_rfl, h2⟩
    · exact ⟨0, le_rfl, le_rfl, hf _ _ _ hq⟩
  obtain ⟨hfe, hval⟩ := hqp.1 _ _ e2
  have := optimal_slacks dim cfg.C hC n st.ws eps e0 sol.x hfe
    (fun x' hx' => by rw [← hval]; exact hqp.2 _ _ e2 x' hx') ξ (by
      intro i hi
      rcases hξ i hi with h0 | ⟨c, hc, h0⟩
      · exact .inl h0
      · exact .inr ⟨c, (hsub i).subset hc, h0⟩)
  rw [← hval, ← hv'] at this
  have h2 : eps * (n * cfg.C ^ 2) ≤ δ * (n * cfg.C ^ 2) :=
    mul_le_mul_of_nonneg_right e1 (mul_nonneg (Nat.cast_nonneg _) (sq_nonneg _))
  linarith

theorem tight_batch {qp : QP.Solver} (hqp : QP.Exact qp) {eq : Y → Y → Bool} {cfg : NSlack.Config}
    (hC : 0 ≤ cfg.C) (hneg : cfg.negativity = none) {dim : ℕ} {samples : List (X × Y)} {δ : ℚ}
    (hδ : δ = 1 / 10 ^ 8 ∨ δ = 0 ∧ NFirstAttempt qp dim cfg.C samples.length) {b : List (ℕ × X × Y)}
    (hb : GoodBatch samples b) {st st' : NSlack.St X Y} {s s' : ℚ} {k k' : ℕ} {fl : Bool}
    (hd : st.model.dim = dim) (h0 : NTight dim cfg.C samples.length δ st)
    (h : runBatch qp eq cfg samples.length none b (st, s, k) = .ok ((st', s', k'), fl)) :
    st'.model.dim = dim ∧ NTight dim cfg.C samples.length δ st' := by
  rcases runBatch_ok h with ⟨hs, -⟩ | ⟨-, ws, new, ha, hc⟩
  · cases hs
  · obtain ⟨-, -, -, -, a5, -⟩ := addAll_ok hb.1 ha
    rcases hc with ⟨hs, -⟩ | ⟨-, hn, rfl, -⟩ | ⟨-, -, hs, -⟩
    · cases hs
    · have := (a5 hn).1
      simp only at this
      simp only [this]
      exact ⟨hd, h0⟩
    · exact ⟨by rw [(solve_sublist hs).1]; exact hd, solve_tight hqp hC hneg hδ (st := { st with ws := ws }) hd hs⟩

/-- outputs that compare as equal give the same constraint for every sample. -/
def EqSound (m : SModel X Y) (outputs : X → Set Y) (eq : Y → Y → Bool) (samples : List (X × Y)) : Prop :=
  ∀ s ∈ samples, ∀ a ∈ outputs s.1, ∀ b ∈ outputs s.1, eq a b = true →
    m.lossOf s.2 a = m.lossOf s.2 b ∧ ∀ k < m.dim, m.feat s.1 a s.2 k = m.feat s.1 b s.2 k

/-- the constraint of a sample is not added: it has no loss, or its slack is almost covered by the working set. -/
theorem rejected_or {m : SModel X Y} {outputs : X → Set Y} {cfg : NSlack.Config} {eq : Y → Y → Bool}
    {w : W} {l : List (NCon Y)} {s : X × Y} (heq : EqSound m outputs eq [s])
    (hmem : m.lossAug s.1 s.2 w true ∈ outputs s.1)
    (hl : ∀ c ∈ l, Holds (problemOf m outputs) s c) (h : Rejected cfg eq m w l s) :
    m.lossOf s.2 (m.lossAug s.1 s.2 w true) ≤ 0 ∨
    ∃ ξ : ℚ, (ξ = 0 ∨ ∃ c ∈ l, ξ = c.loss - dot m.dim w c.dj) ∧
      sampleSlack m w s ≤ ξ + 1 / 10 ^ 5 := by
  have hsl : sampleSlack m w s = (found m w s).slack := rfl
  rcases h with h | h
  · exact .inl (not_lt.mp h)
  · right
    rw [hsl]
    unfold NSlack.checkBad at h
    by_cases h1 : (found m w s).slack < 1 / 10 ^ 5
    · exact ⟨0, .inl rfl, by linarith⟩
    rw [if_neg h1] at h
    by_cases h2 : (l.any fun c => eq (found m w s).yhat c.yhat) = true
    · obtain ⟨c, hc, he⟩ := List.any_eq_true.mp h2
      refine ⟨_, .inr ⟨c, hc, rfl⟩, ?_⟩
      obtain ⟨c1, c2, c3⟩ := hl c hc
      obtain ⟨he1, he2⟩ := heq s (by simp) _ hmem _ c1 he
      have hs : (found m w s).slack = max (c.loss - dot m.dim w c.dj) 0 := by
        have e1 : (found m w s).slack = max (m.lossOf s.2 (found m w s).yhat -
          dot m.dim w (fun k => -m.feat s.1 (found m w s).yhat s.2 k + m.feat s.1 s.2 s.2 k)) 0 := rfl
        have e2 : m.lossOf s.2 (found m w s).yhat = m.lossOf s.2 c.yhat := he1
        rw [e1, e2, c3]
        congr 2
        unfold dot
        refine sum_congr rfl fun k hk => ?_
        have e3 : m.feat s.1 (found m w s).yhat s.2 k = m.feat s.1 c.yhat s.2 k := he2 k (mem_range.mp hk)
        simp only [c2 k (mem_range.mp hk), e3]
        change _ = w k * (m.feat s.1 s.2 s.2 k - m.feat s.1 c.yhat s.2 k)
        ring
      rw [hs] at h1 ⊢
      rcases le_total (c.loss - dot m.dim w c.dj) 0 with h3 | h3
      · rw [max_eq_right h3] at h1
        norm_num at h1
      · rw [max_eq_left h3]
        norm_num
    rw [if_neg h2] at h
    by_cases h3 : cfg.checkConstraints = true
    · rw [if_pos h3] at h
      by_cases h4 : (l.any fun c => decide ((found m w s).slack - max (c.loss - dot m.dim w c.dj) 0 <
          -(1 / 10 ^ 5))) = true
      · obtain ⟨c, hc, hlt⟩ := List.any_eq_true.mp h4
        have hlt := of_decide_eq_true hlt
        refine ⟨_, .inr ⟨c, hc, rfl⟩, ?_⟩
        rcases le_total (c.loss - dot m.dim w c.dj) 0 with h5 | h5
        · rw [max_eq_right h5] at hlt
          have : 1 / 10 ^ 5 ≤ (found m w s).slack := not_lt.mp h1
          have h6 : (0 : ℚ) < 1 / 10 ^ 5 := by norm_num
          linarith
        · rw [max_eq_left h5] at hlt
          have h6 : (0 : ℚ) < 1 / 10 ^ 5 := by norm_num
          linarith
      · rw [if_neg h4] at h
        cases h
    · rw [if_neg h3] at h
      cases h

/-- the constraint of a sample is not added: its slack is almost covered by the working set. -/
theorem rejected_slack {m : SModel X Y} {outputs : X → Set Y} {cfg : NSlack.Config} {eq : Y → Y → Bool}
    {w : W} {l : List (NCon Y)} {s : X × Y} (heq : EqSound m outputs eq [s])
    (hmem : m.lossAug s.1 s.2 w true ∈ outputs s.1)
    (hz : ∀ ŷ ∈ outputs s.1, m.lossOf s.2 ŷ ≤ 0 → ∀ k < m.dim, m.feat s.1 ŷ s.2 k = m.feat s.1 s.2 s.2 k)
    (hl : ∀ c ∈ l, Holds (problemOf m outputs) s c) (h : Rejected cfg eq m w l s) :
    ∃ ξ : ℚ, (ξ = 0 ∨ ∃ c ∈ l, ξ = c.loss - dot m.dim w c.dj) ∧
      sampleSlack m w s ≤ ξ + 1 / 10 ^ 5 := by
  rcases rejected_or heq hmem hl h with hloss | h
  · refine ⟨0, .inl rfl, ?_⟩
    have hf := hz _ hmem hloss
    have h0 : dot m.dim w (fun k => -m.feat s.1 (m.lossAug s.1 s.2 w true) s.2 k + m.feat s.1 s.2 s.2 k) = 0 := by
      unfold dot
      refine sum_eq_zero fun k hk => ?_
      simp only [hf k (mem_range.mp hk)]
      ring
    have : sampleSlack m w s = max (m.lossOf s.2 (m.lossAug s.1 s.2 w true) -
      dot m.dim w (fun k => -m.feat s.1 (m.lossAug s.1 s.2 w true) s.2 k + m.feat s.1 s.2 s.2 k)) 0 := rfl
    rw [this, h0, sub_zero, max_eq_right hloss]
    norm_num
  · exact h

/-- **C44, stopping rule.** Let a `fit` without interruptions end because no sample offers a new constraint
(`no additional constraints`), with an exact QP solver, without `negativity_constraint`, with exact
loss-augmented inference (of the method switched to, if there is one), and assume that outputs without loss
have the joint features of the true output. Then the last value of `primal_objective_curve_` is the
regularised risk of the learned weights, and exceeds the last dual value — hence the risk of every weight
vector — by at most `C n 1e-5`, plus `1e-8 n C²` if the solver sometimes only succeeds on the regularised QP.
The threshold is the constant 1e-5 of `_check_bad_constraint`, not `tol`. Pruning does not matter.
`C44_violated_tol` and `C44_violated_zero_loss` show that the restriction to this way of stopping and the
assumption on outputs without loss are needed. -/
theorem C44_partial (m : SModel X Y) (outputs : X → Set Y) (qp : QP.Solver) (hqp : QP.Exact qp)
    (eq : Y → Y → Bool) (alt : Option ((X → Y → W → Bool → Y) × (X → W → Y))) (o o' : NSlack.Obj Y)
    (samples : List (X × Y)) (heq : EqSound m outputs eq samples) (hC : 0 < o.cfg.C) (hneg : o.cfg.negativity = none)
    (hl : (problemOf m outputs).Labelled samples)
    (hla : ∀ s ∈ samples, ∀ w, m.lossAug s.1 s.2 w true ∈ outputs s.1)
    (hLA : alt = none → (problemOf m outputs).ExactLossAug fun x y w => m.lossAug x y w true)
    (hLA' : ∀ p, alt = some p → (problemOf m outputs).ExactLossAug fun x y w => p.1 x y w true)
    (hz : ∀ s ∈ samples, ∀ ŷ ∈ outputs s.1, (problemOf m outputs).loss s.2 ŷ ≤ 0 →
      ∀ k < m.dim, (problemOf m outputs).feat s.1 ŷ s.2 k = (problemOf m outputs).feat s.1 s.2 s.2 k)
    (cons : Option (List (List (NCon Y)))) (hc : GivenHold m outputs samples cons)
    (ho : OldBounds m outputs o.cfg.C samples o cons)
    (δ : ℚ) (hδ : δ = 1 / 10 ^ 8 ∨ δ = 0 ∧ NFirstAttempt qp m.dim o.cfg.C samples.length)
    (h : NSlack.fit m qp eq alt (fun _ _ => none) o samples cons = .ok (o', .stopped true)) :
    ∃ a ds d ps p, o'.attrs = some a ∧ a.objectiveCurve = ds ++ [d] ∧ a.primalCurve = ps ++ [p] ∧
      (problemOf m outputs).LowerBound o.cfg.C samples d ∧
      (problemOf m outputs).IsObjective o.cfg.C samples a.w p ∧
      p ≤ d + o.cfg.C * samples.length * (1 / 10 ^ 5) + δ * (samples.length * o.cfg.C ^ 2) ∧
      ∀ w' obj, (problemOf m outputs).IsObjective o.cfg.C samples w' obj →
        p ≤ obj + o.cfg.C * samples.length * (1 / 10 ^ 5) + δ * (samples.length * o.cfg.C ^ 2) := by
  obtain ⟨st0, st, obj, primal, hs, hlp, -, hp, hob, rfl⟩ := fit_ok h
  have hne : samples ≠ [] := by
    rintro rfl
    simp [objectivePrimal] at hp
  have hla' : ∀ p, alt = some p → ∀ s ∈ samples, ∀ w, p.1 s.1 s.2 w true ∈ outputs s.1 :=
    fun p hp s hs w => (hLA' p hp s.1 s.2 w (hl s hs).1 (hl s hs).2).1
  -- the last iteration
  obtain ⟨it, st1, ⟨hI, hd, hT⟩, hit⟩ := loop_end
    (fun st => Inv44 m outputs alt eq o.cfg.C samples st ∧ st.model.dim = m.dim ∧
      NTight m.dim o.cfg.C samples.length δ st) (by
      intro it st st' out hI hit
      refine ⟨inv44_iteration hqp.1 hC hl hla hla' hI.1 hit, ?_⟩
      exact iteration_induct (fun st => st.model.dim = m.dim ∧ NTight m.dim o.cfg.C samples.length δ st)
        (fun j b hb st s k st' s' k' fl hI hr => tight_batch hqp hC.le hneg hδ hb hI.1 hI.2 hr)
        (fun st obj lc pc hI _ => hI) (fun st la inf hI _ => hI) hI.2 hit) (by
      refine ⟨inv44_start hqp.1 hC hl hc ho hs, ?_⟩
      rcases start_ok hs with ⟨-, rfl⟩ | ⟨cs, a, -, -, -, -, hsol⟩
      · exact ⟨rfl, fun v hv => by cases hv⟩
      · exact ⟨by rw [(solve_sublist hsol).1], solve_tight hqp hC.le hneg hδ rfl hsol⟩) (by simp) hlp
  obtain ⟨bs, hb, st2, sl, k, fl, hr, hcase⟩ := iteration_ok hit
  rcases hcase with ⟨-, -, hx⟩ | ⟨rfl, obj', lc, hob', hcase⟩
  · cases hx
  rcases hcase with ⟨-, -, hx, -⟩ | ⟨-, ⟨la, inf, -, -, hx, -⟩ | ⟨hsw, hout, hst⟩⟩
  · cases hx
  · cases hx
  have hk : k = 0 := by simpa using hout
  obtain ⟨-, hq⟩ := runBatches_quiet (batches_good hb) hr
  obtain ⟨rfl, -, hrej⟩ := hq hk
  obtain ⟨hflat, -⟩ := batches_ok hb
  rw [hflat] at hrej
  have hmodel : st.model = st2.model := by rw [hst]
  have hw : st.w = st2.w := by rw [hst]
  have hobj : st2.objective = some obj := by rw [← hob, hst]
  obtain ⟨⟨la, inf, hm, hlainf⟩, hws⟩ := hI.1
  have hP : problemOf st2.model outputs = problemOf m outputs := by rw [hm]; rfl
  have hexact : (problemOf m outputs).ExactLossAug fun x y w => st2.model.lossAug x y w true := by
    have : st2.model.lossAug = la := by rw [hm]
    rw [this]
    rcases hlainf with ⟨h1, rfl, -⟩ | ⟨-, h1⟩
    · rcases hsw with h2 | h2
      · rw [h1] at h2; cases h2
      · exact hLA h2
    · exact hLA' _ h1
  obtain ⟨p0, hp0, hiso⟩ := C30_objective st2.model outputs (by rw [hP]; exact hexact) samples
    (by rw [hP]; exact hl) hne st2.w o.cfg.C true
  rw [hmodel, hw] at hp
  rw [hp, Except.ok.injEq] at hp0
  subst hp0
  rw [hP] at hiso
  have hlow := hI.2.1 obj hobj
  have hmain : primal ≤ obj + o.cfg.C * samples.length * (1 / 10 ^ 5) + δ * (samples.length * o.cfg.C ^ 2) := by
    have hξ : ∀ i, ∃ ξ : ℚ, ∀ (hi : i < samples.length),
        (ξ = 0 ∨ ∃ c ∈ st2.ws i, ξ = c.loss - dot m.dim st2.w c.dj) ∧
        sampleSlack st2.model st2.w samples[i] ≤ ξ + 1 / 10 ^ 5 := by
      intro i
      by_cases hi : i < samples.length
      · have hgi : samples[i]? = some samples[i] := List.getElem?_eq_getElem hi
        have hmem : (i, samples[i]) ∈ indexed samples := by
          unfold indexed
          have hz : i < ((List.range samples.length).zip samples).length := by simp [hi]
          have : ((List.range samples.length).zip samples)[i] = (i, samples[i]) := by simp
          rw [← this]
          exact List.getElem_mem hz
        have hin := List.getElem_mem hi
        obtain ⟨ξ, h1, h2⟩ := rejected_slack (outputs := outputs)
          (by
            intro s hs
            rw [List.mem_singleton] at hs
            subst hs
            rw [hm]
            exact heq _ hin)
          ((hexact samples[i].1 samples[i].2 st2.w (hl _ hin).1 (hl _ hin).2).1)
          (by rw [hm]; exact hz _ hin) (by rw [hP]; exact (hws i _ hgi).2) (hrej _ hmem)
        rw [hd] at h1
        exact ⟨ξ, fun _ => ⟨h1, h2⟩⟩
      · exact ⟨0, fun h => absurd h hi⟩
    choose ξ hξ using hξ
    have h1 := hT obj hobj ξ fun i hi => (hξ i hi).1
    have h2 : (samples.map (sampleSlack st2.model st2.w)).sum ≤
        ∑ i ∈ range samples.length, ξ i + samples.length * (1 / 10 ^ 5) := by
      have e1 : (samples.map (sampleSlack st2.model st2.w)).sum =
          ∑ i ∈ range samples.length, (samples.map (sampleSlack st2.model st2.w)).getD i 0 := by
        rw [← sum_list_range]
        congr 1
        apply List.ext_getElem
        · simp
        · intro i h1 h2
          simp at h1
          simp [h1, List.getD_eq_getElem?_getD]
      have e2 : ∑ i ∈ range samples.length, ξ i + samples.length * (1 / 10 ^ 5) =
          ∑ i ∈ range samples.length, (ξ i + 1 / 10 ^ 5) := by
        rw [sum_add_distrib, sum_const, card_range, nsmul_eq_mul]
      rw [e1, e2]
      refine sum_le_sum fun i hi => ?_
      have hi' := mem_range.mp hi
      simpa [List.getD_eq_getElem?_getD, hi'] using (hξ i hi').2
    rw [objectivePrimal_ok _ _ _ _ _ hne, Except.ok.injEq] at hp
    have h3 : ∑ k ∈ range st2.model.dim, st2.w k ^ 2 = dot m.dim st2.w st2.w := by
      rw [hd]
      unfold dot
      exact sum_congr rfl fun k _ => by ring
    rw [h3] at hp
    have h4 := mul_le_mul_of_nonneg_right h2 hC.le
    linarith
  refine ⟨_, _, _, _, _, rfl, rfl, rfl, hlow, by rw [← hw] at hiso; exact hiso, hmain, ?_⟩
  intro w' obj' ho'
  have := hlow w' obj' ho'
  linarith

/-! ### examples -/

/-- optimality conditions of the QP, for examples of exact solvers. -/
theorem nkkt (dim : ℕ) (C : ℚ) (n : ℕ) (ws : WS Y) (x : List ℚ)
    (hf : (NSlack.qpOf dim none C n ws 0).Feasible x) (ξ : ℕ → ℚ) (h0 : ∀ i < n, 0 ≤ ξ i)
    (hξ : ∀ i < n, ∀ c ∈ ws i, c.loss - dot dim (weightsOf (flat n ws) x) c.dj ≤ ξ i)
    (hc : ∑ j ∈ range n, bsum (fun c => c.loss - dot dim (weightsOf (flat n ws) x) c.dj) (ws j) (slice ws x j) =
      C * ∑ j ∈ range n, ξ j)
    (x' : List ℚ) (hf' : (NSlack.qpOf dim none C n ws 0).Feasible x') :
    (NSlack.qpOf dim none C n ws 0).value x ≤ (NSlack.qpOf dim none C n ws 0).value x' := by
  obtain ⟨h1, h2, h3, -⟩ := (NSlack.feasible_qpOf _ _ _ _ _ _ _).mp hf
  obtain ⟨h1', h2', h3', -⟩ := (NSlack.feasible_qpOf _ _ _ _ _ _ _).mp hf'
  rw [NSlack.value_qpOf _ _ _ _ _ _ _ h1, NSlack.value_qpOf _ _ _ _ _ _ _ h1']
  set w := weightsOf (flat n ws) x with hw
  set w' := weightsOf (flat n ws) x' with hw'
  have hsq : 0 ≤ dot dim (fun k => w' k - w k) (fun k => w' k - w k) := dot_self_nonneg _ _
  rw [dot_sub_left, dot_sub_right, dot_sub_right, dot_comm dim w w'] at hsq
  have hfl := flat_length ws n
  have e1 : dot dim w' w = ∑ j ∈ range n, bsum (fun c => dot dim c.dj w) (ws j) (slice ws x' j) := by
    rw [← flat_sum ws n x' h1' fun c => dot dim c.1 w]
    exact OneSlack.dot_weightsOf dim (flat n ws) x' (by omega) w
  have e2 : dot dim w w = ∑ j ∈ range n, bsum (fun c => dot dim c.dj w) (ws j) (slice ws x j) := by
    rw [← flat_sum ws n x h1 fun c => dot dim c.1 w]
    exact OneSlack.dot_weightsOf dim (flat n ws) x (by omega) w
  have e4 : ∀ y : List ℚ, y.length = offset ws n →
      ∑ j ∈ range n, bsum (fun c => c.loss - dot dim w c.dj) (ws j) (slice ws y j) =
      ∑ j ∈ range n, bsum NCon.loss (ws j) (slice ws y j) -
        ∑ j ∈ range n, bsum (fun c => dot dim c.dj w) (ws j) (slice ws y j) := by
    intro y hy
    have a1 := flat_sum ws n y hy fun c => c.2 - dot dim w c.1
    have a2 := flat_sum ws n y hy fun c => c.2
    have a3 := flat_sum ws n y hy fun c => dot dim c.1 w
    simp only at a1 a2 a3
    rw [← a1, ← a3]
    change _ = ∑ j ∈ range n, bsum (fun c => c.loss) (ws j) (slice ws y j) - _
    rw [← a2, ← sum_sub_distrib]
    exact sum_congr rfl fun i _ => by rw [dot_comm dim w]; ring
  have e3 : ∑ j ∈ range n, bsum (fun c => c.loss - dot dim w c.dj) (ws j) (slice ws x' j) ≤
      C * ∑ j ∈ range n, ξ j := by
    rw [mul_sum]
    refine sum_le_sum fun j hj => ?_
    have hj' := mem_range.mp hj
    have hlen := slice_length ws h1' hj'
    have hb : bsum (fun c => c.loss - dot dim w c.dj) (ws j) (slice ws x' j) ≤ ξ j * (slice ws x' j).sum := by
      have hpos : ∀ a ∈ slice ws x' j, 0 ≤ a := by
        intro a ha
        have hax : a ∈ x' := List.mem_of_mem_drop (List.mem_of_mem_take ha)
        obtain ⟨q, hq, rfl⟩ := List.getElem_of_mem hax
        have := h2' q hq
        rwa [List.getD_eq_getElem _ _ hq] at this
      have hle := hξ j hj'
      revert hlen hpos hle
      generalize slice ws x' j = a
      generalize ws j = l
      intro hlen hpos hle
      rw [← bsum_const _ _ _ hlen]
      unfold bsum
      clear hlen
      induction l generalizing a with
      | nil => simp
      | cons c l ih =>
        cases a with
        | nil => simp
        | cons y a =>
          rw [List.zipWith_cons_cons, List.sum_cons, List.zipWith_cons_cons, List.sum_cons]
          have b1 := ih a (fun a ha => hpos a (by simp [ha])) (fun c hc => hle c (by simp [hc]))
          have b2 := mul_le_mul_of_nonneg_right (hle c (by simp)) (hpos y (by simp))
          linarith
    refine hb.trans ?_
    rw [mul_comm C]
    exact mul_le_mul_of_nonneg_left (h3' j hj') (h0 j hj')
  rw [e4 _ h1] at hc
  rw [e4 _ h1'] at e3
  simp only [zero_mul, add_zero]
  linarith

/-- An entry of `nTable`: working sets, optimum, slacks. -/
structure NEntry where
  ws : List (List (NCon ℕ))
  x : List ℚ
  slacks : List ℚ

/-- the working sets by sample. -/
def NEntry.sets (e : NEntry) : WS ℕ := fun i => e.ws.getD i []

/-- the weights of the optimum. -/
def NEntry.w (e : NEntry) (n : ℕ) : W := weightsOf (flat n e.sets) e.x

/-- A solver that knows the optima of finitely many problems. -/
def nTable (dim : ℕ) (C : ℚ) (n : ℕ) (tab : List NEntry) : QP.Solver := fun p =>
  (tab.find? fun e => decide (p = NSlack.qpOf dim none C n e.sets 0)).map fun e =>
    ⟨e.x, (NSlack.qpOf dim none C n e.sets 0).value e.x⟩

theorem nTable_exact (dim : ℕ) (C : ℚ) (n : ℕ) (tab : List NEntry)
    (h : ∀ e ∈ tab, e.x.length = offset e.sets n ∧ (∀ i < e.x.length, 0 ≤ e.x.getD i 0) ∧
      (∀ i < n, (slice e.sets e.x i).sum ≤ C) ∧ (∀ i < n, 0 ≤ e.slacks.getD i 0) ∧
      (∀ i < n, ∀ c ∈ e.sets i, c.loss - dot dim (e.w n) c.dj ≤ e.slacks.getD i 0) ∧
      ∑ j ∈ range n, bsum (fun c => c.loss - dot dim (e.w n) c.dj) (e.sets j) (slice e.sets e.x j) =
        C * ∑ j ∈ range n, e.slacks.getD j 0) :
    QP.Exact (nTable dim C n tab) := by
  have key : ∀ p s, nTable dim C n tab p = some s → ∃ e ∈ tab, p = NSlack.qpOf dim none C n e.sets 0 ∧
      s = ⟨e.x, (NSlack.qpOf dim none C n e.sets 0).value e.x⟩ := by
    intro p s hs
    unfold nTable at hs
    cases hf : tab.find? fun e => decide (p = NSlack.qpOf dim none C n e.sets 0) with
    | none => rw [hf] at hs; cases hs
    | some e =>
      rw [hf] at hs
      simp only [Option.map_some, Option.some.injEq] at hs
      have h2 := List.find?_some hf
      exact ⟨e, List.mem_of_find?_eq_some hf, by simpa using h2, hs.symm⟩
  have feas : ∀ e ∈ tab, (NSlack.qpOf dim none C n e.sets 0).Feasible e.x := by
    intro e he
    obtain ⟨h1, h2, h3, -⟩ := h e he
    exact (NSlack.feasible_qpOf _ _ _ _ _ _ _).mpr ⟨h1, h2, h3, by simp⟩
  refine ⟨?_, ?_⟩
  · intro p s hs
    obtain ⟨e, he, rfl, rfl⟩ := key p s hs
    exact ⟨feas e he, rfl⟩
  · intro p s hs x hx
    obtain ⟨e, he, rfl, rfl⟩ := key p s hs
    obtain ⟨-, -, -, h4, h5, h6⟩ := h e he
    exact nkkt dim C n e.sets e.x (feas e he) (fun i => e.slacks.getD i 0) h4 h5 h6 x hx

/-- A fresh learner. -/
def exampleNS (maxIter : ℕ) (C : ℚ) (batchSize : ℤ) (window : ℕ) : NSlack.Obj ℕ :=
  ⟨⟨maxIter, C, true, none, false, 0, batchSize, 1 / 1000, 1 / 10 ^ 5, window⟩, none, []⟩

/-- equality of discrete outputs. -/
def natBeq (a b : ℕ) : Bool := decide (a = b)

/-- The constraint of output 1 for the sample with true output 0 in `exampleTable`, and the one of output 0
for true output 1. -/
def exampleCon (y : ℕ) : NCon ℕ := ⟨1 - y, vec2 (if y = 0 then 2 else -2) 0, 1⟩

/-- solver for two samples with true output 0: with the constraint of the first one, and of both. -/
def exampleNSolver : QP.Solver := nTable 1 1 2
  [⟨[[exampleCon 0], []], [1 / 4], [0, 0]⟩, ⟨[[exampleCon 0], [exampleCon 0]], [1 / 8, 1 / 8], [0, 0]⟩]

theorem exampleNSolver_exact : QP.Exact exampleNSolver :=
  nTable_exact _ _ _ _ (by decide +kernel)

set_option synthInstance.maxSize 2000

/-- The hypotheses of the theorems about NSlackSSVM can be met: two samples in one batch; training adds a
constraint for each of them and stops in the second iteration because there is no other one. -/
theorem example_nfit : (NSlack.fit exampleTable exampleNSolver natBeq none (fun _ _ => none)
    (exampleNS 10 1 100 50) [((), 0), ((), 0)] none).toOption.bind (fun o => o.1.attrs.map fun a =>
      (a.w 0, (List.range 2).map (fun i => (a.constraints i).map fun c => (c.yhat, c.dj 0, c.loss)),
        (List.range 2).map a.lastActive, a.objectiveCurve, a.primalCurve, o.2)) =
    some (1 / 2, [[(1, 2, 1)], [(1, 2, 1)]], [[0], [0]], [1 / 8, 1 / 8, 1 / 8], [17 / 8, 1 / 8, 1 / 8],
      .stopped true) := by decide +kernel

/-- with batches of one sample the second sample has no violated constraint. -/
example : (NSlack.fit exampleTable exampleNSolver natBeq none (fun _ _ => none)
    (exampleNS 10 1 1 50) [((), 0), ((), 0)] none).toOption.bind (fun o => o.1.attrs.map fun a =>
      (a.w 0, (List.range 2).map (fun i => (a.constraints i).map fun c => (c.yhat, c.dj 0, c.loss)), o.2)) =
    some (1 / 2, [[(1, 2, 1)], []], .stopped true) := by decide +kernel

/-- outputs without loss have the features of the true output. -/
example : ∀ s ∈ [((), 0), ((), 0)], ∀ ŷ < 2, exampleTable.lossOf s.2 ŷ ≤ 0 → ∀ k < exampleTable.dim,
    exampleTable.feat s.1 ŷ s.2 k = exampleTable.feat s.1 s.2 s.2 k := by decide +kernel

end Verif.Props
