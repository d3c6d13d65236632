import Verif.Props.C110
import Verif.Props.C121

/-!
# Cutting-plane learners only ask about short weights

The weights of every iteration of `OneSlackSSVM` and `NSlackSSVM` satisfy `‖w‖² ≤ 2 C L`, where `L` bounds the total loss. So
training does not depend on what loss-augmented inference returns for longer weights.
-/

namespace Verif.Props

open Finset Verif.Spec Verif.Learner

variable {X Y : Type}

open Classical in
/-- The model `m`, except that loss-augmented inference returns `best` for weights that are not `good`. -/
noncomputable def onBall (m : SModel X Y) (good : W → Prop) (best : X → Y → W → Y) : SModel X Y :=
  { m with lossAug := fun x y w r => if good w then m.lossAug x y w r else best x y w }

theorem onBall_good {m : SModel X Y} {good : W → Prop} {best : X → Y → W → Y} {w : W} (h : good w) (x : X) (y : Y) (r : Bool) :
    (onBall m good best).lossAug x y w r = m.lossAug x y w r := by
  unfold onBall
  simp only
  rw [if_pos h]

/-- weights with `‖w‖² ≤ r`. -/
def InBall (dim : ℕ) (r : ℚ) (w : W) : Prop := ∑ k ∈ range dim, w k * w k ≤ r

/-- What training with the weights `good` requires: as `Trainable`, but loss-augmented inference is exact for good weights only;
for all weights some output has maximal violation. -/
structure TrainableOn (good : W → Prop) (m : SModel X Y) (outputs : X → Set Y) (samples : List (X × Y)) (R L : ℚ) : Prop where
  ne : samples ≠ []
  plain : m.rescaleC = false
  exact_good : ∀ x y w, y ∈ outputs x → (problemOf m outputs).loss y y = 0 → good w →
    m.lossAug x y w true ∈ outputs x ∧ ∀ z ∈ outputs x, (problemOf m outputs).violation w x y z ≤
      (problemOf m outputs).violation w x y (m.lossAug x y w true)
  attained : ∃ la, (problemOf m outputs).ExactLossAug la
  labelled : (problemOf m outputs).Labelled samples
  range_nonneg : 0 ≤ R
  range : (problemOf m outputs).FeatureRange samples R
  cost : ∃ c : X × Y → ℚ, (∀ s ∈ samples, ∀ ŷ ∈ outputs s.1, (problemOf m outputs).loss s.2 ŷ ≤ c s) ∧ (samples.map c).sum ≤ L
  confusable : ∃ s ∈ samples, ∃ ŷ ∈ outputs s.1, 0 < (problemOf m outputs).loss s.2 ŷ

/-- changing loss-augmented inference for other weights gives a trainable model. -/
theorem TrainableOn.onBall {good : W → Prop} {m : SModel X Y} {outputs : X → Set Y} {samples : List (X × Y)} {R L : ℚ}
    (h : TrainableOn good m outputs samples R L) {best : X → Y → W → Y} (hb : (problemOf m outputs).ExactLossAug best) :
    Trainable (onBall m good best) outputs samples R L where
  ne := h.ne
  plain := h.plain
  exact_lossAug := by
    intro x y w hy h0
    by_cases hw : good w
    · simp only [onBall_good hw]
      exact h.exact_good x y w hy h0 hw
    · have e : ∀ r, (Verif.Props.onBall m good best).lossAug x y w r = best x y w := by
        intro r
        unfold Verif.Props.onBall
        simp only
        rw [if_neg hw]
      simp only [e]
      exact hb x y w hy h0
  labelled := h.labelled
  range_nonneg := h.range_nonneg
  range := h.range
  cost := h.cost
  confusable := h.confusable

/-! ### OneSlackSSVM -/

section one

open Verif.OneSlack

/-- The optimum of the QP of `OneSlackSSVM` is short if the working set contains the constraint of the true labels. -/
theorem one_qp_short {qp : QP.Solver} (hqp : QP.Exact qp) {dim : ℕ} {cn B : ℚ} (hcn : 0 ≤ cn) {cs : List Con}
    (hgt : ∃ c ∈ cs, (∀ k, c.1 k = 0) ∧ c.2 = 0) (hB : ∀ c ∈ cs, c.2 ≤ B) {sol : QP.Solution}
    (h : qp (qpOf dim none cn cs 0) = some sol) : InBall dim (2 * (cn * B)) (weightsOf cs sol.x) := by
  obtain ⟨hf, hval⟩ := hqp.1 _ _ h
  obtain ⟨hl, hpos, hsum, -⟩ := (feasible_qpOf _ _ _ _ _ _).mp hf
  obtain ⟨c, hc, hc1, hc2⟩ := hgt
  obtain ⟨j, hj, rfl⟩ := List.getElem_of_mem hc
  set x' : List ℚ := (List.range cs.length).map fun i => if i = j then cn else 0 with hx'
  have hx'l : x'.length = cs.length := by simp [hx']
  have hx'g : ∀ i < cs.length, x'.getD i 0 = if i = j then cn else 0 := by
    intro i hi
    rw [List.getD_eq_getElem _ _ (by omega)]
    simp [hx']
  have hcon : con cs j = cs[j] := by unfold con; rw [List.getD_eq_getElem _ _ hj]
  have hsum' : ∀ f : ℕ → ℚ, ∑ i ∈ range cs.length, x'.getD i 0 * f i = cn * f j := by
    intro f
    rw [sum_congr rfl (g := fun i => if i = j then cn * f j else 0) fun i hi => by
      rw [hx'g i (mem_range.mp hi)]
      by_cases hij : i = j
      · subst hij; simp
      · simp [hij]]
    rw [sum_ite_eq' (range cs.length) j, if_pos (mem_range.mpr hj)]
  have hw' : ∀ k, weightsOf cs x' k = 0 := by
    intro k
    rw [weightsOf_eq cs x' hx'l, hsum' fun i => (con cs i).1 k, hcon, hc1 k, mul_zero]
  have hf' : (qpOf dim none cn cs 0).Feasible x' := by
    refine (feasible_qpOf _ _ _ _ _ _).mpr ⟨hx'l, fun i hi => ?_, ?_, fun k hk => by simp at hk⟩
    · rw [hx'g i hi]
      split
      · exact hcn
      · exact le_rfl
    · have := hsum' fun _ => 1
      simpa using this
  have hle := hqp.2 _ _ h x' hf'
  rw [hval, value_qpOf _ _ _ _ _ _ hl, value_qpOf _ _ _ _ _ _ hx'l] at hle
  have e1 : dot dim (weightsOf cs x') (weightsOf cs x') = 0 := by
    unfold dot
    exact sum_eq_zero fun k _ => by rw [hw' k, zero_mul]
  have e2 := hsum' fun i => (con cs i).2
  rw [hcon, hc2, mul_zero] at e2
  rw [e1, e2] at hle
  have e3 : ∑ i ∈ range cs.length, sol.x.getD i 0 * (con cs i).2 ≤ cn * B := by
    rw [← hsum, sum_mul]
    refine sum_le_sum fun i hi => mul_le_mul_of_nonneg_left ?_ (hpos i (mem_range.mp hi))
    refine hB _ ?_
    unfold con
    rw [List.getD_eq_getElem _ _ (mem_range.mp hi)]
    exact List.getElem_mem _
  have e4 : ∑ k ∈ range dim, weightsOf cs sol.x k * weightsOf cs sol.x k = dot dim (weightsOf cs sol.x) (weightsOf cs sol.x) := rfl
  unfold InBall
  rw [e4]
  linarith

theorem findNew_onBall {m : SModel X Y} {good : W → Prop} {best : X → Y → W → Y} (cfg : OneSlack.Config)
    (st : OneSlack.St X Y) (hm : st.model = onBall m good best) (hg : good st.w) (gt : W) (samples : List (X × Y)) :
    findNew cfg { st with model := m } gt samples = findNew cfg st gt samples := by
  unfold findNew
  rw [hm]
  simp only [onBall_good hg]
  rfl

theorem iteration_onBall {m : SModel X Y} {good : W → Prop} {best : X → Y → W → Y} (qp : QP.Solver)
    (eq : Y → Y → Except PyErr Bool) (cfg : OneSlack.Config) (samples : List (X × Y)) (gt : W) (it : ℕ)
    (st : OneSlack.St X Y) (hm : st.model = onBall m good best) (hg : good st.w) (hcache : cfg.inferenceCache = 0) :
    OneSlack.iteration qp eq none cfg samples gt it none { st with model := m } =
      (OneSlack.iteration qp eq none cfg samples gt it none st).map fun r => ({ r.1 with model := m }, r.2) := by
  have hadd : ∀ (st : OneSlack.St X Y), st.model = onBall m good best → ∀ f c,
      addConstraint qp cfg samples it none { st with model := m } f c =
        (addConstraint qp cfg samples it none st f c).map fun r => ({ r.1 with model := m }, r.2) := by
    intro st hm f c
    unfold addConstraint
    simp only [hm]
    rw [if_neg (by simp), if_neg (by simp)]
    change (match solveQP qp (onBall m good best).dim cfg.negativity _ _ with | .error err => _ | .ok sol => _) = _
    cases solveQP qp (onBall m good best).dim cfg.negativity (cfg.C * samples.length) (st.constraints ++ [(f.dj, f.loss)]) with
    | error e => rfl
    | ok sol =>
      simp only
      cases prune cfg (st.constraints ++ [(f.dj, f.loss)]) st.alphas sol.x with
      | error e => rfl
      | ok r =>
        obtain ⟨cs, al⟩ := r
        simp only
        rw [if_neg (by simp), if_neg (by simp)]
        change (match newLastSlack (onBall m good best).dim _ _ with | .error err => _ | .ok s => _) = _
        cases newLastSlack (onBall m good best).dim (weightsOf (st.constraints ++ [(f.dj, f.loss)]) sol.x) cs with
        | error e => rfl
        | ok s => rfl
  unfold OneSlack.iteration
  rw [if_neg (by simp), if_neg (by simp)]
  have e1 : fromCache cfg { st with model := m } gt samples.length = fromCache cfg st gt samples.length := by
    unfold fromCache
    rw [hm]
    rfl
  rw [e1]
  cases fromCache cfg st gt samples.length with
  | error e => rfl
  | ok r =>
    cases r with
    | some f =>
      simp only
      exact hadd st hm f true
    | none =>
      simp only
      rw [findNew_onBall cfg st hm hg]
      cases findNew cfg st gt samples with
      | error e => rfl
      | ok r =>
        cases r with
        | some f =>
          simp only
          have e2 : ∀ c, updateCache m eq cfg c samples f.yhat = updateCache st.model eq cfg c samples f.yhat := by
            intro c
            unfold updateCache
            rw [if_pos hcache, if_pos hcache]
          rw [e2]
          cases updateCache st.model eq cfg st.cache samples f.yhat with
          | error e => rfl
          | ok cache =>
            simp only
            exact hadd { st with cache := cache } hm f false
        | none =>
          simp only
          simp only [Except.map]
          obtain ⟨_, sw, _⟩ := st
          cases sw <;> rfl

theorem loop_onBall {m : SModel X Y} {good : W → Prop} {best : X → Y → W → Y} (qp : QP.Solver)
    (eq : Y → Y → Except PyErr Bool) (cfg : OneSlack.Config) (samples : List (X × Y)) (gt : W)
    (I : OneSlack.St X Y → Prop) (hI : ∀ st, I st → st.model = onBall m good best ∧ good st.w)
    (hstep : ∀ it st st' b, I st → OneSlack.iteration qp eq none cfg samples gt it none st = .ok (st', b) → I st')
    (hcache : cfg.inferenceCache = 0) (fuel it : ℕ) (st : OneSlack.St X Y) (h : I st) :
    OneSlack.loop qp eq none cfg samples gt (fun _ => none) fuel it { st with model := m } =
      (OneSlack.loop qp eq none cfg samples gt (fun _ => none) fuel it st).map fun r => { r with model := m } := by
  induction fuel generalizing it st with
  | zero => rfl
  | succ fuel ih =>
    unfold OneSlack.loop
    rw [iteration_onBall qp eq cfg samples gt it st (hI st h).1 (hI st h).2 hcache]
    cases hi : OneSlack.iteration qp eq none cfg samples gt it none st with
    | error e => rfl
    | ok r =>
      obtain ⟨st', b⟩ := r
      cases b with
      | false => rfl
      | true => exact ih (it + 1) st' (hstep _ _ _ _ h hi)

theorem objectivePrimal_onBall {m : SModel X Y} {good : W → Prop} {best : X → Y → W → Y} {w : W} (hg : good w)
    (samples : List (X × Y)) (C : ℚ) (b : Bool) :
    objectivePrimal (onBall m good best) w samples C b = objectivePrimal m w samples C b := by
  unfold objectivePrimal findConstraint
  simp only [onBall_good hg]
  rfl

/-- What holds throughout training with `inactive_window=0` and without cache. -/
structure ShortRun (m : SModel X Y) (C L : ℚ) (n : ℕ) (st : OneSlack.St X Y) : Prop where
  model : st.model = m
  cache : st.cache = none
  short : InBall m.dim (2 * (C * L)) st.w
  truth : ∃ c ∈ st.constraints, (∀ k, c.1 k = 0) ∧ c.2 = 0
  small : ∀ c ∈ st.constraints, c.2 ≤ L / n

theorem sum_le_cost {m : SModel X Y} {outputs : X → Set Y} {samples : List (X × Y)} {L : ℚ} {z : X × Y → Y}
    (hz : ∀ s ∈ samples, z s ∈ outputs s.1)
    (hcost : ∃ c : X × Y → ℚ, (∀ s ∈ samples, ∀ ŷ ∈ outputs s.1, (problemOf m outputs).loss s.2 ŷ ≤ c s) ∧ (samples.map c).sum ≤ L) :
    (samples.map fun s => m.lossOf s.2 (z s)).sum ≤ L := by
  obtain ⟨c, h1, h2⟩ := hcost
  exact le_trans (List.sum_le_sum fun s hs => h1 s hs _ (hz s hs)) h2

theorem shortRun_step {m : SModel X Y} {outputs : X → Set Y} {samples : List (X × Y)} {R L : ℚ}
    (htr : Trainable m outputs samples R L) {qp : QP.Solver} (hqp : QP.Exact qp) (hcomp : QP.Complete qp)
    {eq : Y → Y → Except PyErr Bool} {cfg : OneSlack.Config} (hcache : cfg.inferenceCache = 0) (hC : 0 ≤ cfg.C)
    (hneg : cfg.negativity = none) (hwin : cfg.inactiveWindow = 0) (gt : W) (it : ℕ) (st st' : OneSlack.St X Y) (b : Bool)
    (hI : ShortRun m cfg.C L samples.length st)
    (h : OneSlack.iteration qp eq none cfg samples gt it none st = .ok (st', b)) :
    ShortRun m cfg.C L samples.length st' := by
  have hn : (0 : ℚ) < samples.length := by exact_mod_cast List.length_pos_iff.mpr htr.ne
  rcases OneSlack.iteration_ok h with ⟨rfl, -⟩ | ⟨la, inf, h1, -⟩ | ⟨-, f, cached, cache, hf, hadd⟩
  · exact hI
  · cases h1
  · rcases hf with ⟨hf, -⟩ | ⟨hf, -, hup⟩
    · unfold fromCache at hf
      rw [hI.cache] at hf
      cases hf
    · unfold updateCache at hup
      rw [if_pos hcache] at hup
      cases hup
      have hloss : f.loss ≤ L / samples.length := by
        unfold findNew at hf
        simp only at hf
        split at hf
        · cases hf
        · cases hf
        · simp only [Except.ok.injEq, Option.some.injEq] at hf
          subst hf
          simp only [List.map_map]
          refine div_le_div_of_nonneg_right ?_ hn.le
          rw [hI.model]
          exact sum_le_cost (z := fun s => m.lossAug s.1 s.2 st.w true) (fun s hs =>
            (htr.exact_lossAug s.1 s.2 st.w (htr.labelled s hs).1 (htr.labelled s hs).2).1) htr.cost
      obtain ⟨h1, -, h3, -, -, h4⟩ := OneSlack.addConstraint_ok hadd
      rcases h4 with ⟨h4, -⟩ | ⟨-, sol, hsol, hpr, hw, -⟩
      · cases h4
      · simp only at h1 h3 hsol hpr hw
        have hcs : st'.constraints = st.constraints ++ [(f.dj, f.loss)] := by
          unfold prune at hpr
          simp only at hpr
          split at hpr
          · cases hpr
          · simp only [Except.ok.injEq, Prod.mk.injEq] at hpr
            exact hpr.1.symm
        have htruth : ∃ c ∈ st.constraints ++ [(f.dj, f.loss)], (∀ k, c.1 k = 0) ∧ c.2 = 0 := by
          obtain ⟨c, hc, h⟩ := hI.truth
          exact ⟨c, List.mem_append_left _ hc, h⟩
        have hsmall : ∀ c ∈ st.constraints ++ [(f.dj, f.loss)], c.2 ≤ L / samples.length := by
          intro c hc
          rcases List.mem_append.mp hc with hc | hc
          · exact hI.small c hc
          · rw [List.mem_singleton] at hc
            subst hc
            exact hloss
        refine ⟨h1.trans hI.model, h3.trans hI.cache, ?_, hcs ▸ htruth, hcs ▸ hsmall⟩
        rw [hw]
        rw [hI.model, hneg] at hsol
        have := one_qp_short hqp (mul_nonneg hC hn.le) htruth hsmall (QP.complete_first hqp hcomp _ _ _ _ hsol)
        rwa [mul_assoc cfg.C, mul_div_cancel₀ _ hn.ne'] at this

/-- `OneSlackSSVM.fit` does not depend on loss-augmented inference for long weights, and its weights are short. -/
theorem one_fit_onBall {m : SModel X Y} {outputs : X → Set Y} {samples : List (X × Y)} {R L : ℚ} {good : W → Prop}
    (htr : TrainableOn good m outputs samples R L) (hL : 0 ≤ L) {best : X → Y → W → Y} (hb : (problemOf m outputs).ExactLossAug best)
    {qp : QP.Solver} (hqp : QP.Exact qp) (hcomp : QP.Complete qp) (eq : Y → Y → Except PyErr Bool) (o : OneSlack.Obj Y)
    (hgood : ∀ w, InBall m.dim (2 * (o.cfg.C * L)) w → good w) (hcache : o.cfg.inferenceCache = 0) (hC : 0 ≤ o.cfg.C)
    (hneg : o.cfg.negativity = none) (hwin : o.cfg.inactiveWindow = 0) (warm : OneSlack.Warm)
    (hwarm : warm = .no ∨ warm = .soft ∧ ∀ a, o.attrs = some a → a.cache = none) :
    OneSlack.fit m qp eq none (fun _ => none) o samples warm =
      OneSlack.fit (onBall m good best) qp eq none (fun _ => none) o samples warm ∧
    ∀ o', OneSlack.fit (onBall m good best) qp eq none (fun _ => none) o samples warm = .ok o' → o'.cfg = o.cfg ∧
      ∃ a, o'.attrs = some a ∧ a.cache = none ∧ InBall m.dim (2 * (o.cfg.C * L)) a.w := by
  have hn : (0 : ℚ) < samples.length := by exact_mod_cast List.length_pos_iff.mpr htr.ne
  have hstart : ∀ st, OneSlack.start (onBall m good best) o warm = .ok st →
      ShortRun (onBall m good best) o.cfg.C L samples.length st := by
    intro st hst
    have hz : InBall (onBall m good best).dim (2 * (o.cfg.C * L)) (fun _ => 0) := by
      unfold InBall
      simp only [mul_zero, sum_const_zero]
      positivity
    unfold OneSlack.start at hst
    rcases hwarm with rfl | ⟨rfl, hw⟩
    · cases hst
      exact ⟨rfl, rfl, hz, ⟨_, List.mem_singleton.mpr rfl, fun _ => rfl, rfl⟩, fun c hc => by
        rw [List.mem_singleton.mp hc]
        positivity⟩
    · cases ha : o.attrs with
      | none => rw [ha] at hst; cases hst
      | some a =>
        rw [ha] at hst
        cases hst
        exact ⟨rfl, hw a ha, hz, ⟨_, List.mem_singleton.mpr rfl, fun _ => rfl, rfl⟩, fun c hc => by
          rw [List.mem_singleton.mp hc]
          positivity⟩
  have hstep := fun it st st' b => shortRun_step (htr.onBall hb) hqp hcomp (eq := eq) hcache hC hneg hwin
    (jointFeatureGt m samples) it st st' b
  have e0 : OneSlack.start m o warm = (OneSlack.start (onBall m good best) o warm).map fun st => { st with model := m } := by
    unfold OneSlack.start
    rcases hwarm with rfl | ⟨rfl, -⟩
    · rfl
    · cases o.attrs <;> rfl
  unfold OneSlack.fit
  rw [e0]
  have e1 : jointFeatureGt (onBall m good best) samples = jointFeatureGt m samples := rfl
  cases hst : OneSlack.start (onBall m good best) o warm with
  | error e => exact ⟨rfl, fun o' h => by cases h⟩
  | ok st =>
    simp only [Except.map]
    have hI0 := hstart st hst
    rw [loop_onBall (m := m) (good := good) (best := best) qp eq o.cfg samples _ (ShortRun (onBall m good best) o.cfg.C L samples.length)
      (fun st h => ⟨h.model, hgood _ h.short⟩) hstep hcache o.cfg.maxIter 0 st hI0, e1]
    cases hl : OneSlack.loop qp eq none o.cfg samples (jointFeatureGt m samples) (fun _ => none) o.cfg.maxIter 0 st with
    | error e => exact ⟨rfl, fun o' h => by cases h⟩
    | ok st' =>
      have hI := OneSlack.loop_induct (intr := fun _ => none) _ hstep _ _ _ _ hI0 hl
      simp only [Except.map]
      rw [hI.model, objectivePrimal_onBall (hgood _ hI.short)]
      refine ⟨rfl, fun o' h => ?_⟩
      cases hp : objectivePrimal m st'.w samples o.cfg.C false with
      | error e => rw [hp] at h; cases h
      | ok p =>
        rw [hp] at h
        simp only at h
        cases ho : st'.objective with
        | none => rw [ho] at h; cases h
        | some obj =>
          rw [ho] at h
          simp only [Except.ok.injEq] at h
          subst h
          exact ⟨rfl, _, rfl, hI.cache, hI.short⟩

end one

/-! ### NSlackSSVM -/

section n

open Verif.NSlack

theorem bsum_loss_le {l : List (NCon Y)} {a : List ℚ} {c : ℚ} (hl : a.length = l.length) (h : ∀ d ∈ l, d.loss ≤ c)
    (ha : ∀ x ∈ a, 0 ≤ x) : bsum NCon.loss l a ≤ c * a.sum := by
  unfold bsum
  induction l generalizing a with
  | nil =>
    have : a = [] := List.length_eq_zero_iff.mp hl
    subst this
    simp
  | cons d l ih =>
    cases a with
    | nil => cases hl
    | cons x a =>
      simp only [List.zipWith_cons_cons, List.sum_cons]
      have h1 := ih (a := a) (by simpa using hl) (fun d hd => h d (by simp [hd])) fun x hx => ha x (by simp [hx])
      have h2 := mul_le_mul_of_nonneg_right (h d (by simp)) (ha x (by simp))
      rw [mul_add]
      exact add_le_add h2 h1

/-- The optimum of the QP of `NSlackSSVM` is short. -/
theorem n_qp_short {qp : QP.Solver} (hqp : QP.Exact qp) {dim : ℕ} {C L : ℚ} (hC : 0 ≤ C) {n : ℕ} {ws : WS Y} {c : ℕ → ℚ}
    (hc0 : ∀ i < n, 0 ≤ c i) (hc : ∀ i < n, ∀ d ∈ ws i, d.loss ≤ c i) (hL : ∑ i ∈ range n, c i ≤ L) {sol : QP.Solution}
    (h : qp (NSlack.qpOf dim none C n ws 0) = some sol) : InBall dim (2 * (C * L)) (OneSlack.weightsOf (flat n ws) sol.x) := by
  obtain ⟨hf, hval⟩ := hqp.1 _ _ h
  obtain ⟨hl, hpos, hsum, -⟩ := (NSlack.feasible_qpOf _ _ _ _ _ _ _).mp hf
  set x' : List ℚ := List.replicate (offset ws n) 0 with hx'
  have hx'l : x'.length = offset ws n := by simp [hx']
  have hx'g : ∀ i, x'.getD i 0 = 0 := by
    intro i
    rw [List.getD_eq_getElem?_getD, hx', List.getElem?_replicate]
    split <;> rfl
  have hs' : ∀ i, ∀ y ∈ slice ws x' i, y = 0 := by
    intro i y hy
    unfold slice at hy
    exact List.eq_of_mem_replicate (List.mem_of_mem_drop (List.mem_of_mem_take hy))
  have hw' : ∀ k, OneSlack.weightsOf (flat n ws) x' k = 0 := by
    intro k
    rw [OneSlack.weightsOf_eq _ _ (by rw [NSlack.flat_length, hx'l])]
    exact sum_eq_zero fun i _ => by rw [hx'g i, zero_mul]
  have hf' : (NSlack.qpOf dim none C n ws 0).Feasible x' := by
    refine (NSlack.feasible_qpOf _ _ _ _ _ _ _).mpr ⟨hx'l, fun i _ => (hx'g i).ge, fun i hi => ?_, fun k hk => by simp at hk⟩
    rw [List.sum_eq_zero (hs' i)]
    exact hC
  have hle := hqp.2 _ _ h x' hf'
  rw [hval, NSlack.value_qpOf _ _ _ _ _ _ _ hl, NSlack.value_qpOf _ _ _ _ _ _ _ hx'l] at hle
  have e1 : dot dim (OneSlack.weightsOf (flat n ws) x') (OneSlack.weightsOf (flat n ws) x') = 0 := by
    unfold dot
    exact sum_eq_zero fun k _ => by rw [hw' k, zero_mul]
  have e2 : ∑ j ∈ range n, bsum NCon.loss (ws j) (slice ws x' j) = 0 := by
    rw [← NSlack.flat_sum ws n x' hx'l fun c => c.2]
    exact sum_eq_zero fun i _ => by rw [hx'g i, zero_mul]
  rw [e1, e2] at hle
  have e3 : ∑ j ∈ range n, bsum NCon.loss (ws j) (slice ws sol.x j) ≤ C * L := by
    refine le_trans (sum_le_sum (g := fun j => C * c j) fun j hj => ?_) ?_
    · have hj := mem_range.mp hj
      refine le_trans (bsum_loss_le (NSlack.slice_length ws hl hj) (hc j hj) fun x hx => ?_) ?_
      · unfold slice at hx
        obtain ⟨i, hi, rfl⟩ := List.getElem_of_mem (List.mem_of_mem_drop (List.mem_of_mem_take hx))
        have := hpos i hi
        rwa [List.getD_eq_getElem _ _ hi] at this
      · rw [mul_comm C]
        exact mul_le_mul_of_nonneg_left (hsum j hj) (hc0 j hj)
    · rw [← mul_sum]
      exact mul_le_mul_of_nonneg_left hL hC
  have e4 : ∑ k ∈ range dim, OneSlack.weightsOf (flat n ws) sol.x k * OneSlack.weightsOf (flat n ws) sol.x k =
    dot dim (OneSlack.weightsOf (flat n ws) sol.x) (OneSlack.weightsOf (flat n ws) sol.x) := rfl
  unfold InBall
  rw [e4]
  linarith

theorem addAll_onBall {m : SModel X Y} {good : W → Prop} {best : X → Y → W → Y} (cfg : NSlack.Config) (eq : Y → Y → Bool)
    {w : W} (hg : good w) (b : List (ℕ × X × Y)) (acc : WS Y × ℚ × ℕ) :
    addAll cfg eq (onBall m good best) w b acc = addAll cfg eq m w b acc := by
  induction b generalizing acc with
  | nil => rfl
  | cons s b ih =>
    have e : addNew cfg eq (onBall m good best) w acc s = addNew cfg eq m w acc s := by
      unfold addNew findConstraint
      simp only [onBall_good hg]
      rfl
    unfold addAll
    rw [e]
    cases addNew cfg eq m w acc s with
    | error e => rfl
    | ok acc => exact ih acc

theorem solve_onBall {m m' : SModel X Y} (hdim : m'.dim = m.dim) (qp : QP.Solver) (cfg : NSlack.Config) (n : ℕ) (st : NSlack.St X Y)
    (hm : st.model = m') :
    NSlack.solve qp cfg n { st with model := m } = (NSlack.solve qp cfg n st).map fun st => { st with model := m } := by
  unfold NSlack.solve
  simp only [hm, hdim]
  cases solveQP qp m.dim cfg.negativity cfg.C n st.ws with
  | error e => rfl
  | ok sol =>
    simp only
    cases NSlack.prune cfg n st.ws st.lastActive sol.x with
    | error e => rfl
    | ok r => rfl

theorem runBatch_onBall {m : SModel X Y} {good : W → Prop} {best : X → Y → W → Y} (qp : QP.Solver) (eq : Y → Y → Bool)
    (cfg : NSlack.Config) (n : ℕ) (b : List (ℕ × X × Y)) (st : NSlack.St X Y) (s : ℚ) (k : ℕ)
    (hm : st.model = onBall m good best) (hg : good st.w) :
    runBatch qp eq cfg n none b ({ st with model := m }, s, k) =
      (runBatch qp eq cfg n none b (st, s, k)).map fun r => (({ r.1.1 with model := m }, r.1.2), r.2) := by
  have q1 : ¬ (none : Option OneSlack.Phase) = some .search := by simp
  have q2 : ¬ (none : Option OneSlack.Phase) = some .qp := by simp
  unfold runBatch
  rw [if_neg q1, if_neg q1]
  simp only [hm]
  rw [addAll_onBall cfg eq hg]
  cases addAll cfg eq m st.w b (st.ws, s, 0) with
  | error e => rfl
  | ok r =>
    obtain ⟨ws, sl, new⟩ := r
    simp only
    rw [if_neg q2, if_neg q2]
    by_cases hn : new = 0
    · rw [if_pos hn, if_pos hn]
      rfl
    · rw [if_neg hn, if_neg hn]
      rw [show ({ model := m, switched := st.switched, w := st.w, ws := ws, lastActive := st.lastActive, objectiveCurve := st.objectiveCurve, primalCurve := st.primalCurve, lossCurve := st.lossCurve, objective := st.objective } : NSlack.St X Y) = { ({ st with ws := ws } : NSlack.St X Y) with model := m } from rfl,
        solve_onBall (m := m) (m' := onBall m good best) rfl qp cfg n { st with ws := ws } hm]
      simp only [← hm]
      cases NSlack.solve qp cfg n { st with ws := ws } with
      | error e => rfl
      | ok st => rfl

theorem runBatches_onBall {m : SModel X Y} {good : W → Prop} {best : X → Y → W → Y} (qp : QP.Solver) (eq : Y → Y → Bool)
    (cfg : NSlack.Config) (n : ℕ) (I : NSlack.St X Y → Prop) (hI : ∀ st, I st → st.model = onBall m good best ∧ good st.w)
    (bs : List (List (ℕ × X × Y)))
    (hstep : ∀ b ∈ bs, ∀ st s k st' s' k' fl, I st → runBatch qp eq cfg n none b (st, s, k) = .ok ((st', s', k'), fl) → I st')
    (j : ℕ) (st : NSlack.St X Y) (s : ℚ) (k : ℕ) (h : I st) :
    runBatches qp eq cfg n (fun _ => none) bs j ({ st with model := m }, s, k) =
      (runBatches qp eq cfg n (fun _ => none) bs j (st, s, k)).map fun r => (({ r.1.1 with model := m }, r.1.2), r.2) := by
  induction bs generalizing j st s k with
  | nil => rfl
  | cons b bs ih =>
    unfold runBatches
    rw [runBatch_onBall qp eq cfg n b st s k (hI st h).1 (hI st h).2]
    cases hr : runBatch qp eq cfg n none b (st, s, k) with
    | error e => rfl
    | ok r =>
      obtain ⟨⟨st', s', k'⟩, fl⟩ := r
      cases fl with
      | true => rfl
      | false =>
        exact ih (fun b hb => hstep b (by simp [hb])) _ st' s' k' (hstep b (by simp) _ _ _ _ _ _ _ h hr)

theorem niteration_onBall {m : SModel X Y} {good : W → Prop} {best : X → Y → W → Y} (qp : QP.Solver) (eq : Y → Y → Bool)
    (cfg : NSlack.Config) (samples : List (X × Y)) (I : NSlack.St X Y → Prop)
    (hI : ∀ st, I st → st.model = onBall m good best ∧ good st.w)
    (hstep : ∀ b, GoodBatch samples b → ∀ st s k st' s' k' fl, I st →
      runBatch qp eq cfg samples.length none b (st, s, k) = .ok ((st', s', k'), fl) → I st')
    (it : ℕ) (st : NSlack.St X Y) (h : I st) :
    NSlack.iteration qp eq none cfg samples it (fun _ => none) { st with model := m } =
      (NSlack.iteration qp eq none cfg samples it (fun _ => none) st).map fun r => ({ r.1 with model := m }, r.2) := by
  unfold NSlack.iteration
  cases hb : batches (indexed samples) cfg.batchSize with
  | error e => rfl
  | ok bs =>
    have hgb := NSlack.batches_good hb
    simp only
    rw [runBatches_onBall qp eq cfg samples.length I hI bs (fun b hb => hstep b (hgb b hb)) 0 st 0 0 h]
    cases hr : runBatches qp eq cfg samples.length (fun _ => none) bs 0 (st, 0, 0) with
    | error e => rfl
    | ok r =>
      obtain ⟨⟨st1, s1, k1⟩, fl⟩ := r
      have h1 : I st1 := NSlack.runBatches_induct (intr := fun _ => none) (fun st _ => I st)
        (fun j b hb st s k st' s' k' fl hI hrb => hstep b (hgb b hb) st s k st' s' k' fl hI hrb) h hr
      have hm := (hI st1 h1).1
      cases fl with
      | true => rfl
      | false =>
        simp only [Except.map]
        cases ho : st1.objective with
        | none => rfl
        | some obj =>
          simp only [hm]
          have e1 : computeTrainingLoss (onBall m good best) cfg.showLossEvery st1.w samples it st1.lossCurve =
            computeTrainingLoss m cfg.showLossEvery st1.w samples it st1.lossCurve := rfl
          rw [e1]
          have e2 : (onBall m good best).dim = m.dim := rfl
          rw [e2]
          by_cases hs : (decide (k1 = 0) || converged cfg.tol it st1.objectiveCurve obj) = true
          · rw [if_pos hs, if_pos hs]
            generalize st1.switched = sw
            cases sw <;> rfl
          · rw [if_neg hs, if_neg hs]

theorem nloop_onBall {m : SModel X Y} {good : W → Prop} {best : X → Y → W → Y} (qp : QP.Solver) (eq : Y → Y → Bool)
    (cfg : NSlack.Config) (samples : List (X × Y)) (I : NSlack.St X Y → Prop)
    (hI : ∀ st, I st → st.model = onBall m good best ∧ good st.w)
    (hstep : ∀ b, GoodBatch samples b → ∀ st s k st' s' k' fl, I st →
      runBatch qp eq cfg samples.length none b (st, s, k) = .ok ((st', s', k'), fl) → I st')
    (hit : ∀ it st st' out, I st → NSlack.iteration qp eq none cfg samples it (fun _ => none) st = .ok (st', out) → I st')
    (fuel it : ℕ) (st : NSlack.St X Y) (h : I st) :
    NSlack.loop qp eq none cfg samples (fun _ _ => none) fuel it { st with model := m } =
      (NSlack.loop qp eq none cfg samples (fun _ _ => none) fuel it st).map fun r => ({ r.1 with model := m }, r.2) := by
  induction fuel generalizing it st with
  | zero => rfl
  | succ fuel ih =>
    unfold NSlack.loop
    rw [niteration_onBall qp eq cfg samples I hI hstep it st h]
    cases hi : NSlack.iteration qp eq none cfg samples it (fun _ => none) st with
    | error e => rfl
    | ok r =>
      obtain ⟨st', out⟩ := r
      cases out with
      | goOn => exact ih (it + 1) st' (hit _ _ _ _ h hi)
      | interrupted => rfl
      | stopped b => rfl

/-- What holds throughout training with `inactive_window=0`. -/
structure ShortNRun (m : SModel X Y) (outputs : X → Set Y) (samples : List (X × Y)) (r : ℚ) (st : NSlack.St X Y) : Prop where
  model : st.model = m
  short : InBall m.dim r st.w
  hold : ∀ i s, samples[i]? = some s → ∀ c ∈ st.ws i, c.yhat ∈ outputs s.1 ∧ c.loss = m.lossOf s.2 c.yhat

theorem solve_short {m : SModel X Y} {outputs : X → Set Y} {samples : List (X × Y)} {R L : ℚ}
    (htr : Trainable m outputs samples R L) {qp : QP.Solver} (hqp : QP.Exact qp) (hcomp : QP.Complete qp)
    {cfg : NSlack.Config} (hC : 0 ≤ cfg.C) (hneg : cfg.negativity = none) (hwin : cfg.inactiveWindow = 0)
    {st st' : NSlack.St X Y} (hm : st.model = m)
    (hold : ∀ i s, samples[i]? = some s → ∀ c ∈ st.ws i, c.yhat ∈ outputs s.1 ∧ c.loss = m.lossOf s.2 c.yhat)
    (h : NSlack.solve qp cfg samples.length st = .ok st') : ShortNRun m outputs samples (2 * (cfg.C * L)) st' := by
  obtain ⟨sol, hsol, hpr, hst⟩ := NSlack.solve_ok h
  have hws : st'.ws = st.ws := by
    unfold NSlack.prune at hpr
    rw [if_pos hwin] at hpr
    simp only [Except.ok.injEq, Prod.mk.injEq] at hpr
    exact hpr.1.symm
  have hw : st'.w = OneSlack.weightsOf (flat samples.length st.ws) sol.x := by rw [hst]
  have hm' : st'.model = m := by rw [hst]; exact hm
  refine ⟨hm', ?_, by rw [hws]; exact hold⟩
  rw [hw]
  rw [hm, hneg] at hsol
  obtain ⟨c, hc, hcL⟩ := htr.cost
  have hget : ∀ i (hi : i < samples.length), samples[i]? = some samples[i] := fun i hi => List.getElem?_eq_getElem hi
  refine n_qp_short hqp hC (c := fun i => (samples[i]?.map c).getD 0) ?_ ?_ ?_ (complete_nfirst hcomp _ hC _ _ _ _ hsol)
  · intro i hi
    simp only [hget i hi, Option.map_some, Option.getD_some]
    have hs := List.getElem_mem hi
    have := hc _ hs _ (htr.labelled _ hs).1
    rwa [(htr.labelled _ hs).2] at this
  · intro i hi d hd
    simp only [hget i hi, Option.map_some, Option.getD_some]
    obtain ⟨h1, h2⟩ := hold i _ (hget i hi) d hd
    rw [h2]
    exact hc _ (List.getElem_mem hi) _ h1
  · refine le_of_eq_of_le ?_ hcL
    rw [← sum_list_range]
    congr 1
    refine List.ext_getElem (by simp) fun i h1 h2 => ?_
    rw [List.length_map] at h2
    simp [h2]

theorem shortNRun_step {m : SModel X Y} {outputs : X → Set Y} {samples : List (X × Y)} {R L : ℚ}
    (htr : Trainable m outputs samples R L) {qp : QP.Solver} (hqp : QP.Exact qp) (hcomp : QP.Complete qp)
    {eq : Y → Y → Bool} {cfg : NSlack.Config} (hC : 0 ≤ cfg.C)
    (hneg : cfg.negativity = none) (hwin : cfg.inactiveWindow = 0) (b : List (ℕ × X × Y)) (hb : GoodBatch samples b)
    (st : NSlack.St X Y) (s : ℚ) (k : ℕ) (st' : NSlack.St X Y) (s' : ℚ) (k' : ℕ) (fl : Bool)
    (hI : ShortNRun m outputs samples (2 * (cfg.C * L)) st)
    (h : runBatch qp eq cfg samples.length none b (st, s, k) = .ok ((st', s', k'), fl)) :
    ShortNRun m outputs samples (2 * (cfg.C * L)) st' := by
  rcases NSlack.runBatch_ok h with ⟨h1, -⟩ | ⟨-, ws, new, hadd, hcase⟩
  · cases h1
  obtain ⟨a1, a2, -⟩ := NSlack.addAll_ok hb.1 hadd
  have hold : ∀ i s, samples[i]? = some s → ∀ c ∈ ws i, c.yhat ∈ outputs s.1 ∧ c.loss = m.lossOf s.2 c.yhat := by
    intro i s hs c hc
    by_cases hi : i ∈ b.map Prod.fst
    · obtain ⟨p, hp, rfl⟩ := List.mem_map.mp hi
      have hps : p.2 = s := by
        have := hb.2 p hp
        rw [hs] at this
        cases this
        rfl
      rcases a2 p hp with ⟨-, e⟩ | ⟨-, -, e⟩
      · simp only at e
        rw [e] at hc
        exact hI.hold p.1 s hs c hc
      · simp only at e
        rw [e] at hc
        rcases List.mem_append.mp hc with hc | hc
        · exact hI.hold p.1 s hs c hc
        · rw [List.mem_singleton] at hc
          subst hc
          have hmem : s ∈ samples := List.mem_of_getElem? hs
          rw [hI.model, hps]
          exact ⟨(htr.exact_lossAug s.1 s.2 st.w (htr.labelled s hmem).1 (htr.labelled s hmem).2).1, rfl⟩
    · have := a1 i hi
      simp only at this
      rw [this] at hc
      exact hI.hold i s hs c hc
  rcases hcase with ⟨h1, -⟩ | ⟨-, -, rfl, -⟩ | ⟨-, -, hsol, -⟩
  · cases h1
  · exact ⟨hI.model, hI.short, hold⟩
  · exact solve_short htr hqp hcomp hC hneg hwin (st := { st with ws := ws }) hI.model hold hsol

/-- `NSlackSSVM.fit` does not depend on loss-augmented inference for long weights, and its weights are short. -/
theorem n_fit_onBall {m : SModel X Y} {outputs : X → Set Y} {samples : List (X × Y)} {R L : ℚ} {good : W → Prop}
    (htr : TrainableOn good m outputs samples R L) (hL : 0 ≤ L) {best : X → Y → W → Y} (hb : (problemOf m outputs).ExactLossAug best)
    {qp : QP.Solver} (hqp : QP.Exact qp) (hcomp : QP.Complete qp) (eq : Y → Y → Bool) (o : NSlack.Obj Y)
    (hgood : ∀ w, InBall m.dim (2 * (o.cfg.C * L)) w → good w) (hC : 0 ≤ o.cfg.C)
    (hneg : o.cfg.negativity = none) (hwin : o.cfg.inactiveWindow = 0) (cons : Option (List (List (NCon Y))))
    (hcons : GivenHold m outputs samples cons) :
    NSlack.fit m qp eq none (fun _ _ => none) o samples cons =
      NSlack.fit (onBall m good best) qp eq none (fun _ _ => none) o samples cons ∧
    ∀ r, NSlack.fit (onBall m good best) qp eq none (fun _ _ => none) o samples cons = .ok r → r.1.cfg = o.cfg ∧
      ∃ a, r.1.attrs = some a ∧ a.n = samples.length ∧ InBall m.dim (2 * (o.cfg.C * L)) a.w ∧
        ∀ i s, samples[i]? = some s → ∀ c ∈ a.constraints i, c.yhat ∈ outputs s.1 := by
  have hstart : ∀ st, NSlack.start (onBall m good best) qp o samples.length cons = .ok st →
      ShortNRun (onBall m good best) outputs samples (2 * (o.cfg.C * L)) st := by
    intro st hst
    unfold NSlack.start at hst
    cases cons with
    | none =>
      cases hst
      refine ⟨rfl, ?_, fun i s _ c hc => by cases hc⟩
      unfold InBall
      simp only [mul_zero, sum_const_zero]
      positivity
    | some cs =>
      simp only at hst
      by_cases hlen : cs.length ≠ samples.length
      · rw [if_pos hlen] at hst
        cases hst
      rw [if_neg hlen] at hst
      cases hq : NSlack.solveQP qp (onBall m good best).dim o.cfg.negativity o.cfg.C samples.length (fun i => cs.getD i []) with
      | error e => rw [hq] at hst; cases hst
      | ok s =>
        rw [hq] at hst
        simp only at hst
        cases ha : o.attrs with
        | none =>
          rw [ha] at hst
          simp only at hst
          split_ifs at hst
        | some a =>
          rw [ha] at hst
          simp only at hst
          split_ifs at hst
          refine solve_short (htr.onBall hb) hqp hcomp hC hneg hwin ?_ ?_ hst
          · rfl
          · intro i s hs c hc
            have hf := hcons cs rfl
            have hi := (List.getElem?_eq_some_iff.mp hs).1
            have hi2 : i < cs.length := by rw [← hf.length_eq]; exact hi
            simp only at hc
            rw [List.getD_eq_getElem _ _ hi2] at hc
            have := (List.forall₂_iff_get.mp hf).2 i hi hi2 c hc
            have hsi : samples[i] = s := (List.getElem?_eq_some_iff.mp hs).2
            rw [List.get_eq_getElem, hsi] at this
            exact ⟨this.1, this.2.2⟩
  have hstep := shortNRun_step (htr.onBall hb) hqp hcomp (eq := eq) hC hneg hwin
  have hit : ∀ it st st' out, ShortNRun (onBall m good best) outputs samples (2 * (o.cfg.C * L)) st →
      NSlack.iteration qp eq none o.cfg samples it (fun _ => none) st = .ok (st', out) →
      ShortNRun (onBall m good best) outputs samples (2 * (o.cfg.C * L)) st' := by
    intro it st st' out hI h
    refine NSlack.iteration_induct (intr := fun _ => none) _ (fun j b hb => hstep b hb) ?_ ?_ hI h
    · intro st obj lc pc hI _
      exact ⟨hI.model, hI.short, hI.hold⟩
    · intro st la inf _ h
      cases h
  have e0 : NSlack.start m qp o samples.length cons =
      (NSlack.start (onBall m good best) qp o samples.length cons).map fun st => { st with model := m } := by
    unfold NSlack.start
    cases cons with
    | none => rfl
    | some cs =>
      simp only
      have e2 : (onBall m good best).dim = m.dim := rfl
      rw [e2]
      by_cases h1 : cs.length ≠ samples.length
      · rw [if_pos h1, if_pos h1]
        rfl
      · rw [if_neg h1, if_neg h1]
        cases NSlack.solveQP qp m.dim o.cfg.negativity o.cfg.C samples.length (fun i => cs.getD i []) with
        | error e => rfl
        | ok s =>
          simp only
          cases o.attrs with
          | none =>
            simp only
            split_ifs <;> rfl
          | some a =>
            simp only
            by_cases h2 : a.n < samples.length
            · rw [if_pos h2, if_pos h2]
              rfl
            · rw [if_neg h2, if_neg h2]
              exact solve_onBall (m := m) (m' := onBall m good best) rfl qp o.cfg samples.length
                ⟨onBall m good best, false, fun _ => 0, fun i => cs.getD i [], a.lastActive, a.objectiveCurve,
                  a.primalCurve, o.lossCurve, none⟩ rfl
  unfold NSlack.fit
  rw [e0]
  cases hst : NSlack.start (onBall m good best) qp o samples.length cons with
  | error e => exact ⟨rfl, fun o' h => by cases h⟩
  | ok st =>
    simp only [Except.map]
    have hI0 := hstart st hst
    rw [nloop_onBall (m := m) (good := good) (best := best) qp eq o.cfg samples
      (ShortNRun (onBall m good best) outputs samples (2 * (o.cfg.C * L)))
      (fun st h => ⟨h.model, hgood _ h.short⟩) hstep hit o.cfg.maxIter 0 st hI0]
    cases hl : NSlack.loop qp eq none o.cfg samples (fun _ _ => none) o.cfg.maxIter 0 st with
    | error e => exact ⟨rfl, fun o' h => by cases h⟩
    | ok r =>
      obtain ⟨st', out⟩ := r
      have hI := NSlack.loop_induct (intr := fun _ _ => none) _ hit hI0 hl
      simp only [Except.map]
      by_cases hmi : o.cfg.maxIter = 0
      · rw [if_pos hmi]
        exact ⟨by rw [if_pos hmi], fun r h => by rw [if_pos hmi] at h; cases h⟩
      rw [if_neg hmi, if_neg hmi]
      rw [hI.model, objectivePrimal_onBall (hgood _ hI.short)]
      refine ⟨rfl, fun r h => ?_⟩
      cases hp : objectivePrimal m st'.w samples o.cfg.C true with
      | error e => rw [hp] at h; cases h
      | ok p =>
        rw [hp] at h
        simp only at h
        cases ho : st'.objective with
        | none => rw [ho] at h; cases h
        | some obj =>
          rw [ho] at h
          simp only [Except.ok.injEq] at h
          subst h
          exact ⟨rfl, _, rfl, rfl, hI.short, fun i s hs c hc => (hI.hold i s hs c hc).1⟩

end n

end Verif.Props
