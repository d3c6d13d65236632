import Verif.Props.C93
import Verif.Props.C70P
import Verif.Spec.NearOptimal

/-!
# C93: n-slack training that continues from given constraints
-/

namespace Verif.Props

open Finset Verif.Spec Verif.Learner Verif.NSlack
open Verif.OneSlack (Phase weightsOf)

variable {X Y : Type}

/-! ### the dual value -/

theorem sel_le_hinge {P : Problem X Y} {s : X × Y} (hl : s.2 ∈ P.outputs s.1 ∧ P.loss s.2 s.2 = 0) {l : List (NCon Y)}
    (hh : ∀ c ∈ l, Holds P s c) {w : W} {ξ v : ℚ} (hξ : Sel P.dim l w ξ) (hv : P.IsHinge w s.1 s.2 v) : ξ ≤ v := by
  rcases hξ with rfl | ⟨c, hc, rfl⟩
  · have := hv.2 ⟨s.2, hl.1, rfl⟩
    unfold Problem.violation at this
    rw [hl.2] at this
    linarith
  · obtain ⟨c1, c2, c3⟩ := hh c hc
    have := hv.2 ⟨c.yhat, c1, rfl⟩
    refine le_trans (le_of_eq ?_) this
    unfold Problem.violation Problem.value
    rw [c3]
    have : dot P.dim w c.dj = ∑ k ∈ range P.dim, w k * P.feat s.1 s.2 s.2 k - ∑ k ∈ range P.dim, w k * P.feat s.1 c.yhat s.2 k := by
      unfold dot
      rw [← sum_sub_distrib]
      refine sum_congr rfl fun k hk => ?_
      rw [c2 k (mem_range.mp hk)]
      ring
    rw [this]
    ring

/-- the value of the working sets is a lower bound of the risk. -/
theorem nopt_lower {m : SModel X Y} {outputs : X → Set Y} {C : ℚ} (hC : 0 ≤ C) {samples : List (X × Y)}
    (hl : (problemOf m outputs).Labelled samples) {ws : WS Y} {w : W} {v : ℚ} (ho : NOpt m.dim C samples.length ws w v)
    (hh : ∀ i s, samples[i]? = some s → ∀ c ∈ ws i, Holds (problemOf m outputs) s c) :
    (problemOf m outputs).LowerBound C samples v := by
  intro w' obj hobj
  obtain ⟨ξ, h1, h2⟩ := ho.2 w'
  obtain ⟨hs, hf, rfl⟩ := hobj
  have hlen := hf.length_eq
  have hsum : ∑ i ∈ range samples.length, ξ i ≤ hs.sum := by
    have e : hs.sum = ∑ i ∈ range samples.length, hs.getD i 0 := by
      rw [hlen, ← sum_list_range]
      congr 1
      apply List.ext_getElem
      · simp
      · intro i h1 h2
        simp [h1, List.getD_eq_getElem?_getD]
    rw [e]
    refine sum_le_sum fun i hi => ?_
    have hi' := mem_range.mp hi
    have hi2 : i < hs.length := by omega
    have hgi : samples[i]? = some samples[i] := List.getElem?_eq_getElem hi'
    rw [List.getD_eq_getElem?_getD, List.getElem?_eq_getElem hi2, Option.getD_some]
    exact sel_le_hinge (hl _ (List.getElem_mem hi')) (hh i _ hgi) (h1 i hi')
      ((List.forall₂_iff_get.mp hf).2 i hi' hi2)
  have h3 := mul_le_mul_of_nonneg_left hsum hC
  have h4 := dot_self_nonneg m.dim (fun k => w' k - w k)
  have h5 : ∑ k ∈ range (problemOf m outputs).dim, w' k * w' k = dot m.dim w' w' := rfl
  rw [h5]
  linarith

theorem nopt_nonneg {dim : ℕ} {C : ℚ} {n : ℕ} {ws : WS Y} {w : W} {v : ℚ} (h : NOpt dim C n ws w v) : 0 ≤ v := by
  have := h.1 (fun _ => 0) fun i _ => .inl rfl
  have h1 := dot_self_nonneg dim w
  simp only [sum_const_zero, mul_zero, add_zero] at this
  linarith

/-! ### the start -/

/-- solving the QP without pruning. -/
theorem solve_nopt {m : SModel X Y} {qp : QP.Solver} (hqp : QP.Exact qp) {cfg : NSlack.Config} (hC : 0 ≤ cfg.C)
    (hneg : cfg.negativity = none) (hwin : cfg.inactiveWindow = 0) {n : ℕ} (hfirst : NFirstAttempt qp m.dim cfg.C n)
    {st st' : NSlack.St X Y} (hm : st.model = m) (hs : NSlack.solve qp cfg n st = .ok st') :
    st'.model = m ∧ st'.ws = st.ws ∧ st'.objectiveCurve = st.objectiveCurve ∧ st'.objective ≠ none ∧
      NOpt m.dim cfg.C n st'.ws st'.w (st'.objective.getD 0) := by
  obtain ⟨sol, hq, hp, he⟩ := solve_ok hs
  have hq' : qp (NSlack.qpOf m.dim none cfg.C n st.ws 0) = some sol := by
    refine hfirst _ _ _ ?_
    rw [← hq, hneg, hm]
  obtain ⟨hfe, hval⟩ := hqp.1 _ _ hq'
  have hopt := nopt_of_optimal hC hfe fun x' hx' => by rw [← hval]; exact hqp.2 _ _ hq' x' hx'
  rw [← hval] at hopt
  have hws' : st'.ws = st.ws := prune_zero hwin hp
  refine ⟨by rw [he]; exact hm, hws', by rw [he], by rw [he]; simp, ?_⟩
  have hw' : st'.w = weightsOf (flat n st.ws) sol.x := by rw [he]
  have hob' : st'.objective = some (-sol.primalObjective) := by rw [he]
  rw [hws', hw', hob']
  exact hopt

theorem passInv_start {m : SModel X Y} {outputs : X → Set Y} {qp : QP.Solver} (hqp : QP.Exact qp) {o : NSlack.Obj Y}
    (hC : 0 ≤ o.cfg.C) (hneg : o.cfg.negativity = none) (hwin : o.cfg.inactiveWindow = 0) {samples : List (X × Y)}
    (hfirst : NFirstAttempt qp m.dim o.cfg.C samples.length) {cons : Option (List (List (NCon Y)))}
    (hc : GivenHold m outputs samples cons) {st : NSlack.St X Y}
    (h : NSlack.start m qp o samples.length cons = .ok st) : PassInv m outputs o.cfg.C samples st := by
  rcases start_ok h with ⟨-, rfl⟩ | ⟨cs, a, hcs, -, hlen, -, hs⟩
  · exact (passStart_fresh m outputs o.cfg.C samples _).1
  · obtain ⟨h1, h2, -, -, h3⟩ := solve_nopt hqp hC hneg hwin hfirst (m := m) rfl hs
    refine ⟨h1, h3, ?_⟩
    rw [h2]
    intro i s hi c hcm
    have hlt : i < samples.length := (List.getElem?_eq_some_iff.mp hi).1
    have hf := (List.forall₂_iff_get.mp (hc cs hcs)).2 i hlt (by omega)
    simp only [List.getD_eq_getElem?_getD, List.getElem?_eq_getElem (show i < cs.length by omega), Option.getD_some] at hcm
    have := hf c hcm
    rw [List.getElem?_eq_getElem hlt, Option.some.injEq] at hi
    rw [← hi]
    exact this

/-! ### the loop -/

/-- the last pass of a loop that stops: from `st1` to `st2`, the dual value rose by less than `tol`. -/
structure LastPass (cfg : NSlack.Config) (eq : Y → Y → Bool) (m : SModel X Y) (outputs : X → Set Y) (samples : List (X × Y))
    (v : ℚ) (st : NSlack.St X Y) : Prop where
  inv : PassInv m outputs cfg.C samples st
  small : st.objective.getD 0 < v + cfg.tol
  visits : ∀ p ∈ indexed samples, ∃ w1 ws1 v1, Visit cfg eq m samples.length v (st.objective.getD 0) st.ws p w1 ws1 v1

theorem lastPass_loop {m : SModel X Y} {outputs : X → Set Y} {qp : QP.Solver} (hqp : QP.Exact qp) {eq : Y → Y → Bool}
    {cfg : NSlack.Config} (hC : 0 ≤ cfg.C) (hneg : cfg.negativity = none) (hwin : cfg.inactiveWindow = 0)
    (htol : 0 < cfg.tol) {samples : List (X × Y)} (hfirst : NFirstAttempt qp m.dim cfg.C samples.length)
    (hla : ∀ s ∈ samples, ∀ w, m.lossAug s.1 s.2 w true ∈ outputs s.1) :
    ∀ (fuel it : ℕ) (st st' : NSlack.St X Y) (out : Outcome), PassInv m outputs cfg.C samples st →
      (0 < it → ∃ v, st.objective = some v ∧ st.objectiveCurve.getLast? = some v ∧ ((it : ℚ) - 2) * cfg.tol ≤ v) →
      NSlack.loop qp eq none cfg samples (fun _ _ => none) fuel it st = .ok (st', out) →
      (∃ noNew v, out = .stopped noNew ∧ LastPass cfg eq m outputs samples v st') ∨
      out = .goOn ∧ PassInv m outputs cfg.C samples st' ∧
        (0 < it + fuel → ∃ v, st'.objective = some v ∧ (((it + fuel : ℕ) : ℚ) - 2) * cfg.tol ≤ v) := by
  intro fuel
  induction fuel with
  | zero =>
    intro it st st' out hI hgrow hlp
    simp only [NSlack.loop, Except.ok.injEq, Prod.mk.injEq] at hlp
    obtain ⟨rfl, rfl⟩ := hlp
    exact .inr ⟨rfl, hI, fun h => by
      obtain ⟨v, h1, -, h2⟩ := hgrow h
      exact ⟨v, h1, h2⟩⟩
  | succ fuel ih =>
    intro it st st' out hI hgrow hlp
    unfold NSlack.loop at hlp
    cases hit : NSlack.iteration qp eq none cfg samples it (fun _ => none) st with
    | error err => rw [hit] at hlp; cases hlp
    | ok r =>
      obtain ⟨st1, out1⟩ := r
      rw [hit] at hlp
      obtain ⟨bs, hb, st2, sl, k, fl, hr, hcase⟩ := iteration_ok hit
      obtain ⟨i1, i2, i3, i4, i5⟩ := pass_batches hqp hC hneg hwin hfirst hla (batches_good hb) hI hr
      have hfl := runBatches_noflag _ _ _ _ hr
      simp only at hfl
      rcases hcase with ⟨hx, -⟩ | ⟨-, obj', lc, hob', hcase⟩
      · rw [hx] at hfl; cases hfl
      rcases hcase with ⟨-, hcv, rfl, hst⟩ | ⟨hreason, ⟨la, inf, hx, -⟩ | ⟨-, rfl, hst⟩⟩
      · simp only at hlp
        have hobj1 : st1.objective = some obj' := by rw [hst]; exact hob'
        have hlast : st1.objectiveCurve.getLast? = some obj' := by rw [hst]; simp
        have hI1 : PassInv m outputs cfg.C samples st1 := by
          rw [hst]
          exact ⟨i1.model, i1.opt, i1.holds⟩
        have := ih (it + 1) st1 st' out hI1 (fun _ => ⟨obj', hobj1, hlast, ?_⟩) hlp
        · have e : it + 1 + fuel = it + (fuel + 1) := by omega
          rw [e] at this
          exact this
        · rcases Nat.lt_or_ge it 2 with hlt | hge
          · have h0 : 0 ≤ obj' := by
              have := nopt_nonneg hI1.opt
              rw [hobj1] at this
              exact this
            have : (((it + 1 : ℕ) : ℚ) - 2) * cfg.tol ≤ 0 := by
              refine mul_nonpos_of_nonpos_of_nonneg ?_ htol.le
              have : ((it + 1 : ℕ) : ℚ) ≤ 2 := by exact_mod_cast (by omega : it + 1 ≤ 2)
              linarith
            linarith
          · obtain ⟨v, -, hv1, hv2⟩ := hgrow (by omega)
            rw [i2] at hcv
            unfold converged at hcv
            rw [hv1] at hcv
            simp only [Bool.and_eq_false_iff, decide_eq_false_iff_not] at hcv
            rcases hcv with hcv | hcv
            · omega
            · push_cast
              have := not_lt.mp hcv
              linarith
      · cases hx
      · simp only [Except.ok.injEq, Prod.mk.injEq] at hlp
        obtain ⟨rfl, rfl⟩ := hlp
        refine .inl ⟨_, st.objective.getD 0, rfl, ?_, ?_, ?_⟩
        · rw [hst]
          exact ⟨i1.model, i1.opt, i1.holds⟩
        · have ho : st1.objective = st2.objective := by rw [hst]
          rw [ho]
          rcases hreason with hk | hcv
          · rw [hfl] at hr
            obtain ⟨-, hq⟩ := runBatches_quiet (batches_good hb) hr
            obtain ⟨rfl, -⟩ := hq hk
            linarith
          · rw [i2] at hcv
            unfold converged at hcv
            cases hp1 : st.objectiveCurve.getLast? with
            | none => rw [hp1] at hcv; cases hcv
            | some q =>
              rw [hp1] at hcv
              simp only [Bool.and_eq_true, decide_eq_true_eq] at hcv
              obtain ⟨v, e1, e2, -⟩ := hgrow (by omega)
              rw [hp1, Option.some.injEq] at e2
              rw [hob', e1]
              simp only [Option.getD_some]
              rw [← e2]
              linarith [hcv.2]
        · obtain ⟨hflat, -⟩ := batches_ok hb
          rw [hflat] at i5
          rw [hst]
          exact i5

/-! ### the guarantee -/

/-- the weights do not move much in a pass that raises the dual value by less than `tol`. -/
theorem small_move {dim : ℕ} {C : ℚ} {n : ℕ} {R δ tol : ℚ} (hδ : 0 ≤ δ) (h2 : 2 * R * tol ≤ δ ^ 2)
    {ws1 ws' : WS Y} {w1 w' : W} {v1 v' : ℚ} (o1 : NOpt dim C n ws1 w1 v1) (o' : NOpt dim C n ws' w' v')
    (hsub : ∀ i, ∀ c ∈ ws1 i, c ∈ ws' i) (hv : v' ≤ v1 + tol) (g : W) (hg : dot dim g g ≤ R) :
    dot dim (fun k => w' k - w1 k) g ≤ δ := by
  have hq := nopt_mono o1 o' hsub
  have hq2 : dot dim (fun k => w' k - w1 k) (fun k => w' k - w1 k) ≤ 2 * tol := by linarith
  have hq0 : 0 ≤ dot dim (fun k => w' k - w1 k) (fun k => w' k - w1 k) := dot_self_nonneg _ _
  have h1 := cauchy_dot dim (fun k => w' k - w1 k) g
  have e1 : ∑ k ∈ range dim, g k ^ 2 = dot dim g g := by
    unfold dot; exact sum_congr rfl fun k _ => by ring
  have e2 : ∑ k ∈ range dim, (w' k - w1 k) ^ 2 = dot dim (fun k => w' k - w1 k) (fun k => w' k - w1 k) := by
    unfold dot; exact sum_congr rfl fun k _ => by ring
  rw [e1, e2] at h1
  have hg0 : 0 ≤ dot dim g g := dot_self_nonneg _ _
  have h3 : dot dim (fun k => w' k - w1 k) (fun k => w' k - w1 k) * dot dim g g ≤ 2 * tol * R :=
    mul_le_mul hq2 hg hg0 (hq0.trans hq2)
  have h4 : dot dim (fun k => w' k - w1 k) g ^ 2 ≤ δ ^ 2 := by linarith
  exact le_of_sq_le_sq h4 hδ

/-- `NSlackSSVM` ignores the most violated output if it has no loss. What it achieves for a sample: the slack is covered by
the variable `ξ` up to `δ`, or some output without loss is the most violated one up to `δ`. -/
def Settled (P : Problem X Y) (w : ℕ → ℚ) (s : X × Y) (ξ δ : ℚ) : Prop :=
  (∀ ŷ ∈ P.outputs s.1, P.violation w s.1 s.2 ŷ ≤ ξ + δ) ∨
    ξ = 0 ∧ ∃ z ∈ P.outputs s.1, P.loss s.2 z ≤ 0 ∧ ∀ ŷ ∈ P.outputs s.1, P.violation w s.1 s.2 ŷ ≤ P.violation w s.1 s.2 z + δ

/-- **C93, given constraints.** Training of `NSlackSSVM` on constraints that are given (and hold for the data) or none, without
pruning, `negativity_constraint` and `switch_to`, with an exact QP solver and exact loss-augmented inference, and enough
iterations: it stops by itself; the last dual value `d` is a lower bound of the risk; and `d` is at least the objective of
the weights with slack variables `ξ` that leave every sample settled. -/
theorem C93_given (m : SModel X Y) (outputs : X → Set Y) (qp : QP.Solver) (hqp : QP.Exact qp)
    (eq : Y → Y → Bool) (o o' : NSlack.Obj Y) (samples : List (X × Y)) (heq : EqSound m outputs eq samples)
    (hC : 0 < o.cfg.C) (hneg : o.cfg.negativity = none) (hwin : o.cfg.inactiveWindow = 0)
    (hl : (problemOf m outputs).Labelled samples)
    (hLA : (problemOf m outputs).ExactLossAug fun x y w => m.lossAug x y w true)
    (hfirst : NFirstAttempt qp m.dim o.cfg.C samples.length)
    (cons : Option (List (List (NCon Y)))) (hc : GivenHold m outputs samples cons)
    (R δ : ℚ) (hR : (problemOf m outputs).FeatureRange samples R) (hδ : 1 / 10 ^ 5 ≤ δ)
    (htol : 0 < o.cfg.tol) (h1 : 2 * o.cfg.tol ≤ o.cfg.C * δ) (h2 : 2 * R * o.cfg.tol ≤ δ ^ 2)
    (w0 : W) (B : ℚ) (hB : (problemOf m outputs).IsObjective o.cfg.C samples w0 B)
    (hmax : B < ((o.cfg.maxIter : ℚ) - 2) * o.cfg.tol) (out : Outcome)
    (h : NSlack.fit m qp eq none (fun _ _ => none) o samples cons = .ok (o', out)) :
    (∃ noNew, out = .stopped noNew) ∧ ∃ a ds d, o'.attrs = some a ∧ a.objectiveCurve = ds ++ [d] ∧
      (problemOf m outputs).LowerBound o.cfg.C samples d ∧
      (∀ i s, samples[i]? = some s → ∀ c ∈ a.constraints i, Holds (problemOf m outputs) s c) ∧
      ∃ ξ : ℕ → ℚ, (∑ k ∈ range m.dim, a.w k * a.w k) / 2 + o.cfg.C * ∑ i ∈ range samples.length, ξ i ≤ d ∧
        ∀ i s, samples[i]? = some s → Settled (problemOf m outputs) a.w s (ξ i) (2 * δ) := by
  have hla : ∀ s ∈ samples, ∀ w, m.lossAug s.1 s.2 w true ∈ outputs s.1 :=
    fun s hs w => (hLA s.1 s.2 w (hl s hs).1 (hl s hs).2).1
  obtain ⟨st0, st, obj, primal, hs, hlp, hmi, -, hob, rfl⟩ := fit_ok h
  have hI0 := passInv_start hqp hC.le hneg hwin hfirst hc hs
  rcases lastPass_loop hqp hC.le hneg hwin htol hfirst hla _ 0 _ _ _ hI0 (by simp) hlp with
    ⟨noNew, v, rfl, hlast⟩ | ⟨-, hI, hgrow⟩
  swap
  · exfalso
    obtain ⟨v, hv1, hv2⟩ := hgrow (by omega)
    have := nopt_lower hC.le hl hI.opt hI.holds w0 B hB
    rw [hv1, Option.getD_some] at this
    rw [Nat.zero_add] at hv2
    linarith
  obtain ⟨hI, hsm, hvis⟩ := hlast
  have hd := nopt_lower hC.le hl hI.opt hI.holds
  have hδ0 : 0 ≤ δ := le_trans (by norm_num) hδ
  rw [hob, Option.getD_some] at hd
  refine ⟨⟨noNew, rfl⟩, _, _, _, rfl, rfl, hd, hI.holds, ?_⟩
  have hξ : ∀ i, ∃ ξ : ℚ, ∀ s, samples[i]? = some s → Sel m.dim (st.ws i) st.w ξ ∧
      Settled (problemOf m outputs) st.w s ξ (2 * δ) := by
    intro i
    cases hgi : samples[i]? with
    | none => exact ⟨0, fun s hs => by cases hs⟩
    | some s =>
      have hi : i < samples.length := (List.getElem?_eq_some_iff.mp hgi).1
      have hin : s ∈ samples := List.mem_of_getElem? hgi
      have hmem : (i, s) ∈ indexed samples := by
        unfold indexed
        have hz : i < ((List.range samples.length).zip samples).length := by simp [hi]
        have hsi : samples[i] = s := (List.getElem?_eq_some_iff.mp hgi).2
        have : ((List.range samples.length).zip samples)[i] = (i, s) := by simp [hsi]
        rw [← this]
        exact List.getElem_mem hz
      obtain ⟨w1, ws1, v1, hvis⟩ := hvis _ hmem
      have hor := visit_or hC.le heq hl hla hR hδ htol h1 h2 hsm hgi (hI.holds i _ hgi) hvis
      obtain ⟨o1, hv1, hs1, -⟩ := hvis
      have hval : st.objective.getD 0 ≤ v1 + o.cfg.tol := by linarith
      rcases hor with hloss | ⟨ξ1, e1, e2⟩
      · refine ⟨0, fun s' hs' => ⟨.inl rfl, .inr ⟨rfl, ?_⟩⟩⟩
        cases hs'
        obtain ⟨y1, y2⟩ := hLA s.1 s.2 w1 (hl s hin).1 (hl s hin).2
        refine ⟨_, y1, hloss, fun y hy => ?_⟩
        have hyv := y2 y hy
        have hmove := small_move hδ0 h2 o1 hI.opt hs1 hval
          (fun k => (problemOf m outputs).feat s.1 y s.2 k -
            (problemOf m outputs).feat s.1 (m.lossAug s.1 s.2 w1 true) s.2 k) (by
            refine le_trans (le_of_eq ?_) (hR s hin y hy _ y1)
            unfold dot
            refine sum_congr rfl fun k _ => by ring)
        have hexp : ∀ z, (problemOf m outputs).violation st.w s.1 s.2 z = (problemOf m outputs).violation w1 s.1 s.2 z +
            (dot m.dim (fun k => st.w k - w1 k) ((problemOf m outputs).feat s.1 z s.2) -
            dot m.dim (fun k => st.w k - w1 k) ((problemOf m outputs).feat s.1 s.2 s.2)) := by
          intro z
          unfold Problem.violation Problem.value dot
          simp only [sub_mul, sum_sub_distrib]
          change _ + ∑ k ∈ range m.dim, _ - ∑ k ∈ range m.dim, _ = _ + ∑ k ∈ range m.dim, _ - ∑ k ∈ range m.dim, _ + _
          ring
        rw [dot_sub_right] at hmove
        rw [hexp y, hexp (m.lossAug s.1 s.2 w1 true)]
        have e : dot m.dim (fun k => st.w k - w1 k) ((problemOf m outputs).feat s.1 y s.2) -
          dot m.dim (fun k => st.w k - w1 k) ((problemOf m outputs).feat s.1 (m.lossAug s.1 s.2 w1 true) s.2) ≤ δ := hmove
        linarith
      · obtain ⟨ξ, f1, f2⟩ := final_slack hl hLA hR hδ0 h2 o1 hI.opt hs1 hval hin
          (hI.holds i _ hgi) e1 e2
        refine ⟨ξ, fun s' hs' => ⟨f1, .inl fun y hy => ?_⟩⟩
        cases hs'
        refine le_trans ((hLA s.1 s.2 st.w (hl s hin).1 (hl s hin).2).2 y hy) (le_trans ?_ f2)
        rw [← dot_delta m outputs]
        exact le_max_left _ _
  choose ξ hξ using hξ
  refine ⟨ξ, ?_, fun i s hi => (hξ i s hi).2⟩
  have := hI.opt.1 ξ fun i hi => (hξ i samples[i] (List.getElem?_eq_getElem hi)).1
  rw [hob, Option.getD_some] at this
  exact this

/-- **C93, given constraints, near optimality.** If moreover outputs without loss have the features of the truth, the weights
are within `2 C n δ` of the optimum: training may be resumed on given constraints. -/
theorem C93_resumed (m : SModel X Y) (outputs : X → Set Y) (qp : QP.Solver) (hqp : QP.Exact qp)
    (eq : Y → Y → Bool) (o o' : NSlack.Obj Y) (samples : List (X × Y)) (heq : EqSound m outputs eq samples)
    (hC : 0 < o.cfg.C) (hneg : o.cfg.negativity = none) (hwin : o.cfg.inactiveWindow = 0)
    (hl : (problemOf m outputs).Labelled samples)
    (hLA : (problemOf m outputs).ExactLossAug fun x y w => m.lossAug x y w true)
    (hz : ∀ s ∈ samples, ∀ ŷ ∈ outputs s.1, (problemOf m outputs).loss s.2 ŷ ≤ 0 →
      ∀ k < m.dim, (problemOf m outputs).feat s.1 ŷ s.2 k = (problemOf m outputs).feat s.1 s.2 s.2 k)
    (hfirst : NFirstAttempt qp m.dim o.cfg.C samples.length)
    (cons : Option (List (List (NCon Y)))) (hc : GivenHold m outputs samples cons)
    (R δ : ℚ) (hR : (problemOf m outputs).FeatureRange samples R) (hδ : 1 / 10 ^ 5 ≤ δ)
    (htol : 0 < o.cfg.tol) (h1 : 2 * o.cfg.tol ≤ o.cfg.C * δ) (h2 : 2 * R * o.cfg.tol ≤ δ ^ 2)
    (w0 : W) (B : ℚ) (hB : (problemOf m outputs).IsObjective o.cfg.C samples w0 B)
    (hmax : B < ((o.cfg.maxIter : ℚ) - 2) * o.cfg.tol) (out : Outcome)
    (h : NSlack.fit m qp eq none (fun _ _ => none) o samples cons = .ok (o', out)) :
    (∃ noNew, out = .stopped noNew) ∧ ∃ a, o'.attrs = some a ∧
      (problemOf m outputs).NearOptimal o.cfg.C samples (2 * o.cfg.C * samples.length * δ) a.w := by
  obtain ⟨hstop, a, ds, d, ha, -, hd, -, ξ, hle, hset⟩ := C93_given m outputs qp hqp eq o o' samples heq hC hneg hwin hl hLA hfirst
    cons hc R δ hR hδ htol h1 h2 w0 B hB hmax out h
  refine ⟨hstop, a, ha, ?_⟩
  have hδ0 : 0 ≤ δ := le_trans (by norm_num) hδ
  have hv := violations_hinge m outputs hLA samples hl a.w
  refine ⟨_, ⟨_, hv, rfl⟩, fun w' obj ho => ?_⟩
  have hlow := hd w' obj ho
  have hsum : (samples.map fun s => (problemOf m outputs).violation a.w s.1 s.2 (m.lossAug s.1 s.2 a.w true)).sum ≤
      ∑ i ∈ range samples.length, ξ i + samples.length * (2 * δ) := by
    have e1 : (samples.map fun s => (problemOf m outputs).violation a.w s.1 s.2 (m.lossAug s.1 s.2 a.w true)).sum =
        ∑ i ∈ range samples.length, (samples.map fun s =>
          (problemOf m outputs).violation a.w s.1 s.2 (m.lossAug s.1 s.2 a.w true)).getD i 0 := by
      rw [← sum_list_range]
      congr 1
      apply List.ext_getElem
      · simp
      · intro i h1 h2
        simp at h1
        simp [h1, List.getD_eq_getElem?_getD]
    have e2 : ∑ i ∈ range samples.length, ξ i + samples.length * (2 * δ) =
        ∑ i ∈ range samples.length, (ξ i + 2 * δ) := by
      rw [sum_add_distrib, sum_const, card_range, nsmul_eq_mul]
    rw [e1, e2]
    refine sum_le_sum fun i hi => ?_
    have hi' := mem_range.mp hi
    have hgi : samples[i]? = some samples[i] := List.getElem?_eq_getElem hi'
    have hin : samples[i] ∈ samples := List.getElem_mem hi'
    have hy := (hLA _ _ a.w (hl _ hin).1 (hl _ hin).2).1
    have : (samples.map fun s => (problemOf m outputs).violation a.w s.1 s.2 (m.lossAug s.1 s.2 a.w true)).getD i 0 =
        (problemOf m outputs).violation a.w samples[i].1 samples[i].2 (m.lossAug samples[i].1 samples[i].2 a.w true) := by
      simp [List.getD_eq_getElem?_getD, hi']
    rw [this]
    rcases hset i _ hgi with h | ⟨h0, z, hz1, hz2, hz3⟩
    · exact h _ hy
    · refine (hz3 _ hy).trans ?_
      have : (problemOf m outputs).violation a.w samples[i].1 samples[i].2 z ≤ 0 := by
        unfold Problem.violation
        have : (problemOf m outputs).value a.w samples[i].1 samples[i].2 z =
            (problemOf m outputs).value a.w samples[i].1 samples[i].2 samples[i].2 := by
          unfold Problem.value
          refine sum_congr rfl fun k hk => ?_
          rw [hz _ hin z hz1 hz2 k (mem_range.mp hk)]
        rw [this]
        linarith
      linarith
  have h3 := mul_le_mul_of_nonneg_left hsum hC.le
  have h5 : ∑ k ∈ range (problemOf m outputs).dim, a.w k * a.w k = ∑ k ∈ range m.dim, a.w k * a.w k := rfl
  rw [h5]
  linarith

/-- The learner of the example, with a finer tolerance, resumed: its attributes are those of an earlier call. -/
def resumedNS : NSlack.Obj ℕ :=
  { exampleNS 1000000 1 (-1) 0 with
    cfg := { (exampleNS 1000000 1 (-1) 0).cfg with breakOnBad := false, tol := 1 / 500000 }
    attrs := some ⟨1, fun _ => 0, fun _ => [], fun _ => [], [1 / 8], [1]⟩ }

/-- The hypotheses of `C93_given` and `C93_resumed` can be met: training continued on a given constraint. -/
example : ∃ o' noNew a, NSlack.fit exampleTable QP.ideal natBeq none (fun _ _ => none) resumedNS [((), 0)]
      (some [[exampleCon 0]]) = .ok (o', .stopped noNew) ∧ o'.attrs = some a ∧
    (problemOf exampleTable fun _ => {y | y < 2}).NearOptimal 1 [((), 0)] (2 * 1 * (1 : ℕ) * (1 / 100)) a.w := by
  obtain ⟨o', out, hfit⟩ := C70_returns_partial exampleTable QP.ideal QP.ideal_exact.1 QP.ideal_exact.2 natBeq none
    (fun _ _ => none) resumedNS rfl (.inl rfl) (by decide +kernel) (fun k hk => by cases hk) (by decide +kernel) [((), 0)] _
    rfl le_rfl [[exampleCon 0]] rfl ⟨[exampleCon 0], by simp, by simp⟩ (.inl rfl)
  have hl : (problemOf exampleTable fun _ => {y | y < 2}).Labelled [((), 0)] := by
    intro s hs
    rw [List.mem_singleton] at hs
    subst hs
    exact ⟨(by decide : 0 < 2), by decide +kernel⟩
  have hLA := tableModel_exact 1 2 (fun y => if y = 1 then vec2 2 0 else vec2 0 0) (fun _ => 1) true
  have hv := violations_hinge exampleTable _ hLA _ hl fun _ => 0
  obtain ⟨⟨noNew, rfl⟩, a, ha, hn⟩ := C93_resumed exampleTable (fun _ => {y | y < 2}) QP.ideal QP.ideal_exact.1 natBeq resumedNS o'
    [((), 0)]
    (by
      intro s _ a _ b _ hab
      have : a = b := by simpa [natBeq] using hab
      subst this
      exact ⟨rfl, fun _ _ => rfl⟩)
    (by decide +kernel) rfl rfl hl hLA
    (by
      intro s hs y hy hle k _
      rw [List.mem_singleton] at hs
      subst hs
      have hy : y < 2 := hy
      change (if 0 = y then (0 : ℚ) else 1) ≤ 0 at hle
      by_cases h0 : 0 = y
      · subst h0
        rfl
      · rw [if_neg h0] at hle
        norm_num at hle)
    (complete_nfirst QP.ideal_exact.2 _ (by decide +kernel) _) (some [[exampleCon 0]])
    (by
      intro cs hcs
      cases hcs
      refine .cons ?_ .nil
      intro c hc
      rw [List.mem_singleton] at hc
      subst hc
      refine ⟨(by decide : 1 - 0 < 2), fun k hk => ?_, by decide +kernel⟩
      have hk : k < 1 := hk
      obtain rfl : k = 0 := by omega
      decide +kernel)
    4 (1 / 100)
    (by
      intro s hs y hy y' hy'
      rw [List.mem_singleton] at hs
      subst hs
      have hy : y < 2 := hy
      have hy' : y' < 2 := hy'
      interval_cases y <;> interval_cases y' <;> decide +kernel)
    (by norm_num) (by decide +kernel)
    (by
      change 2 * (1 / 500000 : ℚ) ≤ 1 * (1 / 100)
      norm_num)
    (by
      change 2 * 4 * (1 / 500000 : ℚ) ≤ (1 / 100) ^ 2
      norm_num)
    (fun _ => 0) _ ⟨_, hv, rfl⟩ (by decide +kernel) out hfit
  exact ⟨o', noNew, a, hfit, ha, hn⟩

end Verif.Props
