import Verif.Props.C67N
import Verif.Props.C86
import Verif.Props.C87
import Verif.Props.C88
import Verif.Props.C93
import Verif.Lemmas.QPInstances
import Verif.Spec.Classification

/-!
# C105: training `MultiClassClf` solves the multi-class SVM problem of Crammer and Singer
-/

namespace Verif.Props

open Finset Verif.Common Verif.Spec Verif.Learner Verif.Unstructured Verif.OneSlack

/-- What a class weight multiplies: with `rescale_C` the whole hinge loss of a sample, -/
def classCost (m : MultiClass) (y : ℕ) : ℚ := if m.rescaleC then m.classWeight.get y else 1

/-- without it the margin. -/
def classMargin (m : MultiClass) (y : ℕ) : ℚ := if m.rescaleC then 1 else m.classWeight.get y

/-- The problem a learner solves for a `MultiClassClf`. -/
def classProblem (m : MultiClass) : Problem (ℕ → ℚ) ℕ := problemOf (multiClassModel m) (classes m.nStates)

theorem mc_value (m : MultiClass) (hc : m.classWeight.size = m.nStates) (w x : ℕ → ℚ) {y c : ℕ} (hy : y < m.nStates)
    (hcS : c < m.nStates) : (classProblem m).value w x y c = classCost m y * linearScore m.nFeatures w x c := by
  unfold classCost
  rcases hr : m.rescaleC with _ | _
  · obtain ⟨ψ, a1, a2⟩ := mcJointFeature_dot (x := ⟨m.nFeatures, x⟩) (w := ⟨m.size, w⟩) (some y) hcS rfl rfl hr
    unfold classProblem
    rw [mcValue _ w x _ y a1 a2]
    simp only [Bool.false_eq_true, if_false, one_mul]
    rfl
  · obtain ⟨ψ, a1, a2⟩ := mcJointFeature_dot_rescale (x := ⟨m.nFeatures, x⟩) (w := ⟨m.size, w⟩) (t := y) hcS
      (by omega) rfl rfl hr
    unfold classProblem
    rw [mcValue _ w x _ y a1 a2]
    rfl

theorem mc_loss (m : MultiClass) (hc : m.classWeight.size = m.nStates) {y : ℕ} (hy : y < m.nStates) (c : ℕ) :
    (classProblem m).loss y c = if c = y then 0 else classCost m y * classMargin m y := by
  change okD 0 (mcLoss m y c) = _
  unfold mcLoss classCost classMargin
  rw [if_neg (by omega)]
  by_cases h : c = y
  · simp [okD, h]
  · have h' : y ≠ c := fun e => h e.symm
    rcases m.rescaleC with _ | _ <;> simp [okD, h, h']

theorem mc_violation (m : MultiClass) (hc : m.classWeight.size = m.nStates) (w x : ℕ → ℚ) {y c : ℕ} (hy : y < m.nStates)
    (hcS : c < m.nStates) : (classProblem m).violation w x y c = classCost m y *
      (if c = y then 0 else classMargin m y + linearScore m.nFeatures w x c - linearScore m.nFeatures w x y) := by
  unfold Problem.violation
  rw [mc_value m hc w x hy hcS, mc_value m hc w x hy hy, mc_loss m hc hy]
  by_cases h : c = y
  · subst h; simp
  · rw [if_neg h, if_neg h]; ring

theorem classCost_nonneg (m : MultiClass) (hpos : ∀ c < m.nStates, 0 ≤ m.classWeight.get c) {y : ℕ} (hy : y < m.nStates) :
    0 ≤ classCost m y := by
  unfold classCost
  split
  · exact hpos y hy
  · norm_num

theorem mc_hinge (m : MultiClass) (hc : m.classWeight.size = m.nStates)
    (hpos : ∀ c < m.nStates, 0 ≤ m.classWeight.get c) (w x : ℕ → ℚ) {y : ℕ} (hy : y < m.nStates) (h : ℚ) :
    (classProblem m).IsHinge w x y h ↔
      h = classCost m y * multiHinge m.nStates m.nFeatures (classMargin m y) w x y := by
  have key : (classProblem m).IsHinge w x y
      (classCost m y * multiHinge m.nStates m.nFeatures (classMargin m y) w x y) := by
    have h0 := classCost_nonneg m hpos hy
    constructor
    · have hcases : ∃ c < m.nStates, multiHinge m.nStates m.nFeatures (classMargin m y) w x y =
          if c = y then 0 else classMargin m y + linearScore m.nFeatures w x c - linearScore m.nFeatures w x y := by
        have := (Finset.le_fold_max (s := range m.nStates) (b := (0 : ℚ)) (f := fun c => if c = y then 0 else
          classMargin m y + linearScore m.nFeatures w x c - linearScore m.nFeatures w x y)
          (multiHinge m.nStates m.nFeatures (classMargin m y) w x y)).mp le_rfl
        rcases this with h1 | ⟨c, hcS, h1⟩
        · refine ⟨y, hy, ?_⟩
          rw [if_pos rfl]
          exact le_antisymm h1 ((Finset.le_fold_max _).mpr (.inl le_rfl))
        · exact ⟨c, mem_range.mp hcS, le_antisymm h1 ((Finset.le_fold_max _).mpr (.inr ⟨c, hcS, le_rfl⟩))⟩
      obtain ⟨c, hcS, he⟩ := hcases
      refine ⟨c, hcS, ?_⟩
      rw [mc_violation m hc w x hy hcS, he]
    · rintro v ⟨c, hcS, rfl⟩
      rw [mc_violation m hc w x hy hcS]
      refine mul_le_mul_of_nonneg_left ?_ h0
      exact (Finset.le_fold_max _).mpr (.inr ⟨c, mem_range.mpr hcS, le_rfl⟩)
  exact ⟨fun hh => hh.unique key, fun hh => hh ▸ key⟩

/-- **C105, objective.** The regularised risk of a `MultiClassClf` with nonnegative class weights is the objective of
Crammer and Singer. Class weights multiply the margins; with `rescale_C` they multiply the losses of the samples. -/
theorem C105_objective (m : MultiClass) (hc : m.classWeight.size = m.nStates)
    (hpos : ∀ c < m.nStates, 0 ≤ m.classWeight.get c) (C : ℚ) (samples : List ((ℕ → ℚ) × ℕ))
    (hd : ∀ s ∈ samples, s.2 < m.nStates) (w : ℕ → ℚ) (a : ℚ) :
    (classProblem m).IsObjective C samples w a ↔
      a = multiSVM m.nStates m.nFeatures C (classCost m) (classMargin m) samples w := by
  have hs : ∀ hs : List ℚ, List.Forall₂ (fun s h => (classProblem m).IsHinge w s.1 s.2 h) samples hs ↔
      hs = samples.map fun s => classCost m s.2 * multiHinge m.nStates m.nFeatures (classMargin m s.2) w s.1 s.2 := by
    induction samples with
    | nil => intro hs; simp
    | cons s r ih =>
      intro hs
      have h1 := fun h => mc_hinge m hc hpos w s.1 (hd s List.mem_cons_self) h
      have h2 := ih fun t ht => hd t (List.mem_cons_of_mem _ ht)
      cases hs with
      | nil => simp
      | cons b bs => rw [List.forall₂_cons, h1, h2, List.map_cons, List.cons.injEq]
  have hn : (∑ k ∈ range (classProblem m).dim, w k * w k) = ∑ k ∈ range (m.nStates * m.nFeatures), w k ^ 2 :=
    sum_congr rfl fun k _ => (pow_two _).symm
  unfold Problem.IsObjective multiSVM
  rw [hn]
  constructor
  · rintro ⟨hs', h1, rfl⟩
    rw [(hs hs').mp h1]
  · rintro rfl
    exact ⟨_, (hs _).mpr rfl, rfl⟩

/-- Squared distances between joint features are at most twice the squared norms of the features. -/
theorem mc_range (m : MultiClass) (hc : m.classWeight.size = m.nStates) (samples : List ((ℕ → ℚ) × ℕ))
    (hd : ∀ s ∈ samples, s.2 < m.nStates) (R : ℚ)
    (hR : ∀ s ∈ samples, 2 * classCost m s.2 ^ 2 * ∑ f ∈ range m.nFeatures, s.1 f ^ 2 ≤ R) :
    (classProblem m).FeatureRange samples R := by
  intro s hs y hy z hz
  refine le_trans ?_ (hR s hs)
  have hfeat : ∀ c < m.nStates, ∀ k, (classProblem m).feat s.1 c s.2 k =
      classCost m s.2 * (Mat.ravel ⟨m.nStates, m.nFeatures, fun a f => if a = c then s.1 f else 0⟩).get k := by
    intro c hcS k
    have hs2 := hd s hs
    have hok : mcJointFeature m ⟨m.nFeatures, s.1⟩ c (some s.2) = .ok ⟨m.nStates * m.nFeatures, fun k =>
        classCost m s.2 * (Mat.ravel ⟨m.nStates, m.nFeatures, fun a f => if a = c then s.1 f else 0⟩).get k⟩ := by
      unfold mcJointFeature classCost
      rw [if_neg (by omega), if_neg (by simp)]
      rcases m.rescaleC with _ | _
      · simp [Mat.ravel]
      · simp only [if_true]
        rw [if_neg (by omega)]
        simp only [Mat.ravel, Except.ok.injEq, Vec.mk.injEq, true_and]
        funext k
        ring
    change (multiClassModel m).feat s.1 c s.2 k = _
    rw [mcFeat s.1 c s.2 hok]
  have hdim : (classProblem m).dim = m.nStates * m.nFeatures := rfl
  rw [hdim]
  have hsum : ∀ g : ℕ → ℕ → ℚ, ∑ k ∈ range (m.nStates * m.nFeatures), g (k / m.nFeatures) (k % m.nFeatures) =
      ∑ a ∈ range m.nStates, ∑ f ∈ range m.nFeatures, g a f := by
    intro g
    have := dot_ravel ⟨m.nStates, m.nFeatures, g⟩ (fun _ => 1)
    unfold dot at this
    simp only [one_mul] at this
    exact this
  have h1 : ∀ k ∈ range (m.nStates * m.nFeatures), ((classProblem m).feat s.1 y s.2 k - (classProblem m).feat s.1 z s.2 k) ^ 2 =
      (fun a f => classCost m s.2 ^ 2 * (((if a = y then 1 else 0) - (if a = z then 1 else 0)) ^ 2 * s.1 f ^ 2))
        (k / m.nFeatures) (k % m.nFeatures) := by
    intro k _
    rw [hfeat y hy, hfeat z hz]
    simp only [Mat.ravel]
    split_ifs <;> ring
  rw [sum_congr rfl h1, hsum fun a f => classCost m s.2 ^ 2 * (((if a = y then 1 else 0) - (if a = z then 1 else 0)) ^ 2 * s.1 f ^ 2)]
  simp only [← mul_sum, ← sum_mul]
  have h2 : (∑ a ∈ range m.nStates, ((if a = y then (1 : ℚ) else 0) - (if a = z then 1 else 0)) ^ 2) ≤ 2 := by
    refine le_trans (sum_le_sum (g := fun a => (if a = y then (1 : ℚ) else 0) + (if a = z then 1 else 0)) fun a _ => ?_) ?_
    · split_ifs <;> norm_num
    · rw [sum_add_distrib, sum_ite_eq', sum_ite_eq']
      split_ifs <;> norm_num
  have h3 : 0 ≤ ∑ f ∈ range m.nFeatures, s.1 f ^ 2 := sum_nonneg fun f _ => sq_nonneg _
  have h4 := mul_le_mul_of_nonneg_left (mul_le_mul_of_nonneg_right h2 h3) (sq_nonneg (classCost m s.2))
  linarith

/-- The objective at zero weights. -/
theorem mc_zero (m : MultiClass) (C : ℚ) (samples : List ((ℕ → ℚ) × ℕ)) (hC : 0 ≤ C)
    (hd : ∀ s ∈ samples, s.2 < m.nStates) (hpos : ∀ c < m.nStates, 0 ≤ m.classWeight.get c) :
    multiSVM m.nStates m.nFeatures C (classCost m) (classMargin m) samples (fun _ => 0) ≤
      C * (samples.map fun s => m.classWeight.get s.2).sum := by
  unfold multiSVM
  simp only [ne_eq, OfNat.ofNat_ne_zero, not_false_eq_true, zero_pow, sum_const_zero, zero_div, zero_add]
  refine mul_le_mul_of_nonneg_left ?_ hC
  refine List.sum_le_sum fun s hs => ?_
  have hy := hd s hs
  have h0 := hpos s.2 hy
  have hm : 0 ≤ classMargin m s.2 := by
    unfold classMargin
    split <;> [norm_num; exact h0]
  have hh : multiHinge m.nStates m.nFeatures (classMargin m s.2) (fun _ => 0) s.1 s.2 ≤ classMargin m s.2 := by
    refine (Finset.fold_max_le _).mpr ⟨hm, fun c _ => ?_⟩
    unfold linearScore
    simp only [zero_mul, sum_const_zero, add_zero, sub_zero]
    split <;> [exact hm; exact le_rfl]
  refine (mul_le_mul_of_nonneg_left hh (classCost_nonneg m hpos hy)).trans (le_of_eq ?_)
  unfold classCost classMargin
  split <;> simp

theorem mc_first (m : MultiClass) (hS : 2 ≤ m.nStates) (hc : m.classWeight.size = m.nStates)
    (hpos : ∀ c < m.nStates, 0 < m.classWeight.get c) (x : ℕ → ℚ) {y : ℕ} (hy : y < m.nStates) :
    (multiClassModel m).lossOf y ((multiClassModel m).lossAug x y (fun _ => 0) true) = m.classWeight.get y := by
  have hpos0 : ∀ c < m.nStates, 0 ≤ m.classWeight.get c := fun c h => (hpos c h).le
  have hcost : classCost m y * classMargin m y = m.classWeight.get y := by
    unfold classCost classMargin
    split <;> simp
  have hb := ((multiClass_exact m hc hpos0 true).1 x y (fun _ => 0) hy (by
    have := mc_loss m hc hy y
    rw [if_pos rfl] at this
    exact this)).2
  have hz : (if y = 0 then 1 else 0) < m.nStates := by split <;> omega
  have hb' := hb _ hz
  simp only at hb'
  change (classProblem m).violation _ _ _ _ ≤ (classProblem m).violation _ _ _ _ at hb'
  have hne : (multiClassModel m).lossAug x y (fun _ => 0) true ≠ y := by
    intro h
    rw [h, mc_violation m hc _ _ hy hz, mc_violation m hc _ _ hy hy, if_pos rfl, mul_zero,
      if_neg (by split <;> omega)] at hb'
    unfold linearScore at hb'
    simp only [zero_mul, sum_const_zero, add_zero, sub_zero] at hb'
    rw [hcost] at hb'
    exact absurd (hpos y hy) (not_lt.mpr hb')
  have := mc_loss m hc hy ((multiClassModel m).lossAug x y (fun _ => 0) true)
  rw [if_neg hne, hcost] at this
  exact this

theorem mc_total_nonneg (m : MultiClass) (hpos : ∀ c < m.nStates, 0 < m.classWeight.get c) (samples : List ((ℕ → ℚ) × ℕ))
    (hd : ∀ s ∈ samples, s.2 < m.nStates) : 0 ≤ (samples.map fun s => m.classWeight.get s.2).sum :=
  List.sum_nonneg fun x hx => by
    obtain ⟨s, hs, rfl⟩ := List.mem_map.mp hx
    exact (hpos _ (hd s hs)).le

/-- **C105, one-slack.** A fresh `OneSlackSSVM` with `inactive_window=0` and an exact QP solver, trained with a `MultiClassClf`
with two or more classes and positive class weights, and with enough iterations, returns weights whose Crammer-Singer
objective is at most `C n tol` above that of any weights. (The cache of inference results must be off if `rescale_C` is
set.) -/
theorem C105_oneslack (m : MultiClass) (hS : 2 ≤ m.nStates) (hc : m.classWeight.size = m.nStates)
    (hpos : ∀ c < m.nStates, 0 < m.classWeight.get c) (samples : List ((ℕ → ℚ) × ℕ)) (hne : samples ≠ [])
    (hd : ∀ s ∈ samples, s.2 < m.nStates) (qp : QP.Solver) (hqp : QP.Exact qp) (hcomp : QP.Complete qp)
    (eq : ℕ → ℕ → Except PyErr Bool) (o : OneSlack.Obj ℕ)
    (hcr : o.cfg.inferenceCache = 0 ∨ m.rescaleC = false ∧ ∀ a b, ∃ r, eq a b = .ok r) (hC : 0 < o.cfg.C)
    (htol : 0 < o.cfg.tol) (htol1 : o.cfg.tol ≤ 1) (hneg : o.cfg.negativity = none) (hwin : o.cfg.inactiveWindow = 0)
    (hthr : o.cfg.inactiveThreshold ≤ 1) (hbr : o.cfg.breakOnBad = false)
    (R : ℚ) (hR0 : 0 ≤ R) (hR : ∀ s ∈ samples, 2 * classCost m s.2 ^ 2 * ∑ f ∈ range m.nFeatures, s.1 f ^ 2 ≤ R)
    (μ : ℚ) (hμ0 : 0 ≤ μ) (hμ1 : 2 * μ ≤ o.cfg.C * samples.length * o.cfg.tol) (hμ2 : 2 * R * μ ≤ o.cfg.tol ^ 2)
    (hmax : o.cfg.C * (samples.map fun s => m.classWeight.get s.2).sum < ((o.cfg.maxIter : ℚ) - 1) * μ) :
    ∃ o' a, OneSlack.fit (multiClassModel m) qp eq none (fun _ => none) o samples .no = .ok o' ∧ o'.attrs = some a ∧
      ∀ w, multiSVM m.nStates m.nFeatures o.cfg.C (classCost m) (classMargin m) samples a.w ≤
        multiSVM m.nStates m.nFeatures o.cfg.C (classCost m) (classMargin m) samples w +
          o.cfg.C * samples.length * o.cfg.tol := by
  have hpos0 : ∀ c < m.nStates, 0 ≤ m.classWeight.get c := fun c h => (hpos c h).le
  have hLA := (multiClass_exact m hc hpos0 true).1
  have hl := multiClass_labelled m hc samples hd
  have hob := C105_objective m hc hpos0 o.cfg.C samples hd
  have hzero := mc_zero m o.cfg.C samples hC.le hd hpos0
  have hmi : o.cfg.maxIter ≠ 0 := by
    intro h0
    rw [h0] at hmax
    have := mul_nonneg hC.le (mc_total_nonneg m hpos samples hd)
    push_cast at hmax
    linarith
  have hlo := fun s hs => mc_first m hS hc hpos (s : (ℕ → ℚ) × ℕ).1 (hd s hs)
  obtain ⟨s0, hs0⟩ := List.exists_mem_of_ne_nil _ hne
  obtain ⟨o', hfit⟩ := (C67_returns_iff_partial (multiClassModel m) qp hqp hcomp eq o (hcr.imp id And.right) hC.le hneg hthr
    hbr htol1 samples hne (fun s hs => by rw [hlo s hs]; exact hpos0 _ (hd s hs))).mpr
    ⟨hmi, .inl ⟨s0, hs0, by rw [hlo s0 hs0]; exact (hpos _ (hd s0 hs0)).ne'⟩⟩
  obtain ⟨a, p, h1, h2, h3⟩ := C87_converges (multiClassModel m) (classes m.nStates) qp hqp eq none o o' samples hC htol
    hneg hwin hl (fun s hs w => (hLA s.1 s.2 w (hl s hs).1 (hl s hs).2).1) (fun _ => hLA) (by simp)
    (hcr.imp id And.left) (QP.complete_first hqp hcomp _ _) R hR0 (mc_range m hc samples hd R hR) μ hμ0 hμ1 hμ2 (fun _ => 0)
    _ ((hob _ _).mpr rfl) (by rw [if_pos rfl, sub_zero]; linarith) hfit
  refine ⟨o', a, hfit, h1, fun w => ?_⟩
  rw [← (hob _ _).mp h2]
  exact h3 w _ ((hob _ _).mpr rfl)

/-- **C105, n-slack.** The same for `NSlackSSVM`, with `δ ≥ 1e-5` in place of the tolerance and class weights of at least
`1e-5`. -/
theorem C105_nslack (m : MultiClass) (hS : 2 ≤ m.nStates) (hc : m.classWeight.size = m.nStates)
    (hpos5 : ∀ c < m.nStates, 1 / 10 ^ 5 ≤ m.classWeight.get c) (samples : List ((ℕ → ℚ) × ℕ)) (hne : samples ≠ [])
    (hd : ∀ s ∈ samples, s.2 < m.nStates) (qp : QP.Solver) (hqp : QP.Exact qp) (hcomp : QP.Complete qp)
    (o : NSlack.Obj ℕ) (hC : 0 < o.cfg.C) (htol : 0 < o.cfg.tol) (hneg : o.cfg.negativity = none)
    (hbr : o.cfg.breakOnBad = false) (hbat : o.cfg.batchSize = -1 ∨ 0 < o.cfg.batchSize) (hwin : o.cfg.inactiveWindow = 0)
    (R : ℚ) (hR : ∀ s ∈ samples, 2 * classCost m s.2 ^ 2 * ∑ f ∈ range m.nFeatures, s.1 f ^ 2 ≤ R)
    (δ : ℚ) (hδ : 1 / 10 ^ 5 ≤ δ) (h1 : 2 * o.cfg.tol ≤ o.cfg.C * δ) (h2 : 2 * R * o.cfg.tol ≤ δ ^ 2)
    (hmax : o.cfg.C * (samples.map fun s => m.classWeight.get s.2).sum < ((o.cfg.maxIter : ℚ) - 2) * o.cfg.tol) :
    ∃ o' noNew a, NSlack.fit (multiClassModel m) qp (fun a b => decide (a = b)) none (fun _ _ => none) o samples none =
        .ok (o', .stopped noNew) ∧ o'.attrs = some a ∧
      ∀ w, multiSVM m.nStates m.nFeatures o.cfg.C (classCost m) (classMargin m) samples a.w ≤
        multiSVM m.nStates m.nFeatures o.cfg.C (classCost m) (classMargin m) samples w +
          2 * o.cfg.C * samples.length * δ := by
  have hpos : ∀ c < m.nStates, 0 < m.classWeight.get c := fun c h => lt_of_lt_of_le (by norm_num) (hpos5 c h)
  have hpos0 : ∀ c < m.nStates, 0 ≤ m.classWeight.get c := fun c h => (hpos c h).le
  have hLA := (multiClass_exact m hc hpos0 true).1
  have hl := multiClass_labelled m hc samples hd
  have hob := C105_objective m hc hpos0 o.cfg.C samples hd
  have hzero := mc_zero m o.cfg.C samples hC.le hd hpos0
  have hmi : o.cfg.maxIter ≠ 0 := by
    intro h0
    rw [h0] at hmax
    have := mul_nonneg hC.le (mc_total_nonneg m hpos samples hd)
    push_cast at hmax
    linarith
  have hlo := fun s hs => mc_first m hS hc hpos (s : (ℕ → ℚ) × ℕ).1 (hd s hs)
  obtain ⟨s0, hs0⟩ := List.exists_mem_of_ne_nil _ hne
  obtain ⟨o', out, hfit⟩ := (C67_nslack_returns_iff_partial (multiClassModel m) qp hqp hcomp (fun a b => decide (a = b)) none o
    hbr hbat hC.le (by rw [hneg]; simp) samples hne).mpr ⟨hmi, s0, hs0, by rw [hlo s0 hs0]; exact hpos5 _ (hd s0 hs0)⟩
  have hB := (hob (fun _ => 0) _).mpr rfl
  have hmaxB := lt_of_le_of_lt hzero hmax
  obtain ⟨noNew, rfl⟩ := C93_stops (multiClassModel m) (classes m.nStates) qp hqp _ o o' samples hC hl
    (fun s hs w => (hLA s.1 s.2 w (hl s hs).1 (hl s hs).2).1) htol _ _ hB hmaxB out hfit
  obtain ⟨a, p, e1, e2, e3⟩ := C93_converges (multiClassModel m) (classes m.nStates) qp hqp _ o o' samples
    (by
      intro s hs y hy z hz h
      have : y = z := by simpa using h
      subst this
      exact ⟨rfl, fun _ _ => rfl⟩) hC hneg hwin hl hLA
    (by
      intro s hs c hcS hle k hk
      have := mc_loss m hc (hd s hs) c
      by_cases h : c = s.2
      · rw [h]
      · rw [if_neg h] at this
        change (classProblem m).loss s.2 c ≤ 0 at hle
        rw [this] at hle
        have hp : classCost m s.2 * classMargin m s.2 = m.classWeight.get s.2 := by
          unfold classCost classMargin
          split <;> simp
        rw [hp] at hle
        exact absurd (hpos _ (hd s hs)) (not_lt.mpr hle)) (complete_nfirst hcomp _ hC.le _) R δ
    (mc_range m hc samples hd R hR) hδ htol h1 h2 _ _ hB hmaxB _ hfit
  refine ⟨o', noNew, a, hfit, e1, fun w => ?_⟩
  rw [← (hob _ _).mp e2]
  exact e3 w _ ((hob _ _).mpr rfl)

/-- **C105, Frank-Wolfe.** Block-coordinate training with line search of a `MultiClassClf` without `rescale_C` ends with
weights whose Crammer-Singer objective is less than `tol` above that of any weights. -/
theorem C105_frankwolfe (m : MultiClass) (hr : m.rescaleC = false) (hc : m.classWeight.size = m.nStates)
    (hpos : ∀ c < m.nStates, 0 < m.classWeight.get c) (samples : List ((ℕ → ℚ) × ℕ)) (hne : samples ≠ [])
    (hd : ∀ s ∈ samples, s.2 < m.nStates) (order : ℕ → List ℕ) (ho : VisitsAll samples.length order) (o : FrankWolfe.Obj)
    (hw : o.w = none) (hol : o.l = none) (hb : o.cfg.batchMode = false) (hls : o.cfg.lineSearch = true)
    (hav : o.cfg.averaging = false) (hC : 0 ≤ o.cfg.C) (htol : 0 < o.cfg.tol) (hck : o.cfg.checkDualEvery ≠ 0)
    (hm : o.cfg.maxIter ≠ 0) (R : ℚ) (hR0 : 0 ≤ R)
    (hR : ∀ s ∈ samples, 2 * ∑ f ∈ range m.nFeatures, s.1 f ^ 2 ≤ R) :
    let n : ℚ := samples.length
    let H : ℚ := o.cfg.C * (samples.map fun s => m.classWeight.get s.2).sum
    let K : ℚ := 4 * n ^ 2 * (o.cfg.C ^ 2 * R + 1 / 10 ^ 15 + H + n * o.cfg.C ^ 2 * R)
    o.cfg.checkDualEvery * (K * H) < o.cfg.maxIter * o.cfg.tol ^ 2 →
    ∃ o' v, FrankWolfe.fit (multiClassModel m) order o samples = .ok o' ∧ o'.w = some v ∧
      ∀ w, multiSVM m.nStates m.nFeatures o.cfg.C (fun _ => 1) m.classWeight.get samples v <
        multiSVM m.nStates m.nFeatures o.cfg.C (fun _ => 1) m.classWeight.get samples w + o.cfg.tol := by
  intro n H K hmax
  have hpos0 : ∀ c < m.nStates, 0 ≤ m.classWeight.get c := fun c h => (hpos c h).le
  have hLA := (multiClass_exact m hc hpos0 true).1
  have hl := multiClass_labelled m hc samples hd
  have hcost : classCost m = fun _ => 1 := by funext y; unfold classCost; rw [hr]; rfl
  have hmargin : classMargin m = m.classWeight.get := by funext y; unfold classMargin; rw [hr]; rfl
  have hob := C105_objective m hc hpos0 o.cfg.C samples hd
  have hzero := mc_zero m o.cfg.C samples hC hd hpos0
  rw [hcost, hmargin] at hob hzero
  obtain ⟨o', hfit⟩ := (C65_fit_succeeds_partial (multiClassModel m) order o samples).mpr ⟨hne, hm, hr, .inr hck⟩
  have hB := (hob (fun _ => 0) _).mpr rfl
  obtain ⟨T, -, -, hfin⟩ := C86_fit (multiClassModel m) (classes m.nStates) order o o' samples hw hol hb hls hav hC htol.le
    ho hLA hl R (mc_range m hc samples hd R (by rw [hcost]; simpa using hR)) _ _ hB hfit
  have hB0 := objective_nonneg hC hl hB
  set B := multiSVM m.nStates m.nFeatures o.cfg.C (fun _ => 1) m.classWeight.get samples fun _ => 0 with hBdef
  have hBle : B ≤ H := hzero
  obtain ⟨v, p, h1, h2, h3⟩ := hfin (by
    refine lt_of_le_of_lt ?_ hmax
    refine mul_le_mul_of_nonneg_left ?_ (Nat.cast_nonneg _)
    have hn0 : (0 : ℚ) ≤ n := Nat.cast_nonneg _
    have hC2R : 0 ≤ o.cfg.C ^ 2 * R := mul_nonneg (sq_nonneg _) hR0
    refine mul_le_mul ?_ hBle hB0 ?_
    · refine mul_le_mul_of_nonneg_left ?_ (mul_nonneg (by norm_num) (sq_nonneg _))
      change o.cfg.C ^ 2 * R + 1 / 10 ^ 15 + B + n * o.cfg.C ^ 2 * R ≤ o.cfg.C ^ 2 * R + 1 / 10 ^ 15 + H + n * o.cfg.C ^ 2 * R
      linarith
    · have hH0 : 0 ≤ H := hB0.trans hBle
      have : 0 ≤ n * o.cfg.C ^ 2 * R := by rw [mul_assoc]; exact mul_nonneg hn0 hC2R
      refine mul_nonneg (mul_nonneg (by norm_num) (sq_nonneg _)) ?_
      have : (0 : ℚ) ≤ 1 / 10 ^ 15 := by norm_num
      linarith)
  refine ⟨o', v, hfit, h1, fun w => ?_⟩
  rw [← (hob _ _).mp h2]
  exact h3 w _ ((hob _ _).mpr rfl)

/-! ### the hypotheses can be met: three classes with different weights, two samples -/

def threeClf (rescale : Bool) : MultiClass := ⟨3, 2, ⟨3, fun c => c + 1⟩, false, rescale⟩

def threeSamples : List ((ℕ → ℚ) × ℕ) := [(fun _ => 1, 1), (fun k => k, 2)]

theorem three_bound (rescale : Bool) : ∀ s ∈ threeSamples,
    2 * classCost (threeClf rescale) s.2 ^ 2 * ∑ f ∈ range (threeClf rescale).nFeatures, s.1 f ^ 2 ≤ 18 := by
  cases rescale <;> decide +kernel

example (rescale : Bool) : ∃ o' a, OneSlack.fit (multiClassModel (threeClf rescale)) QP.ideal (fun _ _ => .error .typeError) none
    (fun _ => none) ⟨⟨1200, 1, true, none, false, 0, 1 / 2, 0, 1 / 10 ^ 5, 0, .auto⟩, none, []⟩ threeSamples .no = .ok o' ∧
    o'.attrs = some a := by
  obtain ⟨o', a, h1, h2, -⟩ := C105_oneslack (threeClf rescale) (by cases rescale <;> decide) rfl (by cases rescale <;> decide +kernel) threeSamples
    (by decide) (by cases rescale <;> decide) QP.ideal QP.ideal_exact.1 QP.ideal_exact.2 (fun _ _ => .error .typeError)
    ⟨⟨1200, 1, true, none, false, 0, 1 / 2, 0, 1 / 10 ^ 5, 0, .auto⟩, none, []⟩ (.inl rfl) (by norm_num) (by norm_num)
    (by norm_num) rfl rfl (by norm_num) rfl 18 (by norm_num) (three_bound rescale) (1 / 144) (by norm_num)
    (by norm_num [threeSamples]) (by norm_num) (by cases rescale <;> decide +kernel)
  exact ⟨o', a, h1, h2⟩

example : ∃ o' b a, NSlack.fit (multiClassModel (threeClf true)) QP.ideal (fun a b => decide (a = b)) none (fun _ _ => none)
    ⟨⟨2000, 1, true, none, false, 0, 100, 1 / 144, 1 / 10 ^ 5, 0⟩, none, []⟩ threeSamples none = .ok (o', .stopped b) ∧
    o'.attrs = some a := by
  obtain ⟨o', b, a, h1, h2, -⟩ := C105_nslack (threeClf true) (by decide) rfl (by decide +kernel) threeSamples
    (by decide) (by decide) QP.ideal QP.ideal_exact.1 QP.ideal_exact.2
    ⟨⟨2000, 1, true, none, false, 0, 100, 1 / 144, 1 / 10 ^ 5, 0⟩, none, []⟩ (by norm_num) (by norm_num)
    rfl rfl (.inr (by decide)) rfl 18 (three_bound true) (1 / 2) (by norm_num) (by norm_num) (by norm_num)
    (by decide +kernel)
  exact ⟨o', b, a, h1, h2⟩

example : ∃ o' v, FrankWolfe.fit (multiClassModel (threeClf false)) (fun _ => [1, 0])
    ⟨⟨30000, 1, 1, false, true, 1, false⟩, none, none, ⟨[], []⟩⟩ threeSamples = .ok o' ∧ o'.w = some v := by
  obtain ⟨o', v, h1, h2, -⟩ := C105_frankwolfe (threeClf false) rfl rfl (by decide +kernel) threeSamples (by decide) (by decide)
    (fun _ => [1, 0]) (fun _ => (List.Perm.swap 0 1 [])) ⟨⟨30000, 1, 1, false, true, 1, false⟩, none, none, ⟨[], []⟩⟩ rfl rfl rfl rfl rfl
    (by norm_num) (by norm_num) (by decide) (by decide) 18 (by norm_num) (by decide +kernel) (by decide +kernel)
  exact ⟨o', v, h1, h2⟩

end Verif.Props
