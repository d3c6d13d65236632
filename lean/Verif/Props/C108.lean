import Verif.Model.BinaryInstance
import Verif.Spec.Classification
import Verif.Props.C40
import Verif.Props.C52

/-!
# C108, C109: training a `BinaryClf`
-/

namespace Verif.Props

open Finset Verif.Spec Verif.Learner Verif.Common Verif.Unstructured

/-- the two labels. -/
def binOutputs : (ℕ → ℚ) → Set ℤ := fun _ => {y | y = -1 ∨ y = 1}

/-- the learning problem of a `BinaryClf` with `F` features. -/
def binProblem (F : ℕ) : Spec.Problem (ℕ → ℚ) ℤ := problemOf (binaryModel F) binOutputs

/-- the samples whose score is exactly the label: they lie on the margin. -/
def OnMargin (F : ℕ) (w : ℕ → ℚ) (s : (ℕ → ℚ) × ℤ) : Prop := ∑ k ∈ range F, w k * s.1 k = s.2

instance (F : ℕ) (w : ℕ → ℚ) (s : (ℕ → ℚ) × ℤ) : Decidable (OnMargin F w s) := by unfold OnMargin; infer_instance

theorem bin_feat (F : ℕ) (x : ℕ → ℚ) (y ŷ : ℤ) (k : ℕ) : (binaryModel F).feat x ŷ y k = x k * ŷ / 2 := by
  change (okD ⟨0, fun _ => 0⟩ (binBatchJointFeature ⟨1, F, fun _ => x⟩ ⟨1, fun _ => ŷ⟩)).get k = _
  unfold binBatchJointFeature
  simp [okD]

theorem bin_value (F : ℕ) (w x : ℕ → ℚ) (y ŷ : ℤ) :
    (binProblem F).value w x y ŷ = ŷ * (∑ k ∈ range F, w k * x k) / 2 := by
  change ∑ k ∈ range F, w k * (binaryModel F).feat x ŷ y k = _
  rw [mul_sum, sum_div]
  refine sum_congr rfl fun k _ => ?_
  rw [bin_feat]
  ring

theorem bin_violation (F : ℕ) (w x : ℕ → ℚ) (y ŷ : ℤ) :
    (binProblem F).violation w x y ŷ = binLoss y ŷ + (ŷ - y) * (∑ k ∈ range F, w k * x k) / 2 := by
  unfold Spec.Problem.violation
  rw [bin_value, bin_value]
  change binLoss y ŷ + _ - _ = _
  ring

theorem bin_hinge (F : ℕ) (w x : ℕ → ℚ) (y : ℤ) (hy : y = -1 ∨ y = 1) (h : ℚ) :
    (binProblem F).IsHinge w x y h ↔ h = max 0 (1 - y * ∑ k ∈ range F, w k * x k) := by
  have key : (binProblem F).IsHinge w x y (max 0 (1 - y * ∑ k ∈ range F, w k * x k)) := by
    constructor
    · rcases le_total (1 - (y : ℚ) * ∑ k ∈ range F, w k * x k) 0 with hle | hle
      · rw [max_eq_left hle]
        exact ⟨y, hy, by rw [bin_violation]; simp [binLoss]⟩
      · rw [max_eq_right hle]
        refine ⟨-y, ?_, ?_⟩
        · rcases hy with rfl | rfl
          · exact .inr (by norm_num)
          · exact .inl (by norm_num)
        · rw [bin_violation]
          have : y ≠ -y := by rcases hy with rfl | rfl <;> norm_num
          unfold binLoss
          rw [if_pos this]
          push_cast
          ring
    · rintro v ⟨ŷ, hŷ, rfl⟩
      rw [bin_violation]
      rcases hy with rfl | rfl <;> rcases hŷ with rfl | rfl <;> norm_num [binLoss] <;> exact .inr (by linarith)
  exact ⟨fun hh => hh.unique key, fun hh => hh ▸ key⟩

/-- **C108, objective.** The regularised risk of a `BinaryClf` over the labels `-1` and `1` is the objective of the linear support
vector machine. -/
theorem C108_objective (F : ℕ) (C : ℚ) (samples : List ((ℕ → ℚ) × ℤ)) (hd : ∀ s ∈ samples, s.2 = -1 ∨ s.2 = 1) (w : ℕ → ℚ)
    (a : ℚ) : (binProblem F).IsObjective C samples w a ↔ a = linearSVM F C samples w := by
  have hs : ∀ hs : List ℚ, List.Forall₂ (fun s h => (binProblem F).IsHinge w s.1 s.2 h) samples hs ↔
      hs = samples.map fun s => max 0 (1 - s.2 * ∑ k ∈ range F, w k * s.1 k) := by
    induction samples with
    | nil => intro hs; simp
    | cons s r ih =>
      intro hs
      have h1 := fun h => bin_hinge F w s.1 s.2 (hd s List.mem_cons_self) h
      have h2 := ih fun t ht => hd t (List.mem_cons_of_mem _ ht)
      cases hs with
      | nil => simp
      | cons b bs => rw [List.forall₂_cons, h1, h2, List.map_cons, List.cons.injEq]
  have hn : (∑ k ∈ range (binProblem F).dim, w k * w k) = ∑ k ∈ range F, w k ^ 2 :=
    sum_congr rfl fun k _ => (pow_two _).symm
  unfold Spec.Problem.IsObjective linearSVM
  rw [hn]
  constructor
  · rintro ⟨hs', h1, rfl⟩
    rw [(hs hs').mp h1]
  · rintro rfl
    exact ⟨_, (hs _).mpr rfl, rfl⟩

theorem bin_lossaug (F : ℕ) (x : ℕ → ℚ) (y : ℤ) (w : W) :
    binLossAugmented ⟨F, x⟩ y ⟨F, w⟩ = .ok (npSign (∑ k ∈ range F, w k * x k - y)) := by
  unfold binLossAugmented Vec.dot
  simp only [if_true]
  rw [dot_comm]
  rfl

/-- **C108, one sample.** `find_constraint` of a `BinaryClf` gives the hinge loss of a sample with label `-1` or `1` as slack, unless
the sample lies exactly on the margin: then it raises `ValueError`. Missing from the full claim: the samples on the margin. -/
theorem C108_find_constraint_partial (F : ℕ) (w : W) (s : (ℕ → ℚ) × ℤ) (hy : s.2 = -1 ∨ s.2 = 1) :
    (¬ OnMargin F w s → ∃ c, binFindConstraint F s.1 s.2 w = .ok c ∧ (c.yhat = -1 ∨ c.yhat = 1) ∧
        c.slack = max 0 (1 - s.2 * ∑ k ∈ range F, w k * s.1 k)) ∧
      (OnMargin F w s → binFindConstraint F s.1 s.2 w = .error .valueError) := by
  obtain ⟨x, y⟩ := s
  unfold OnMargin
  simp only at hy ⊢
  constructor
  · intro hm
    set t := ∑ k ∈ range F, w k * x k with ht
    have hs : npSign (t - y) = -1 ∨ npSign (t - y) = 1 := by
      unfold npSign
      rcases lt_trichotomy (t - (y : ℚ)) 0 with h | h | h
      · left; rw [if_neg (by linarith), if_pos h]
      · exact absurd (by linarith) hm
      · right; rw [if_pos h]
    unfold binFindConstraint
    rw [bin_lossaug, ← ht]
    simp only [binJointFeature, if_neg (not_not.mpr hs), if_neg (not_not.mpr hy)]
    refine ⟨_, rfl, hs, ?_⟩
    have hdot : dot F w (fun k => -((npSign (t - y) : ℚ) * x k / 2) + (y : ℚ) * x k / 2) = (y - npSign (t - y)) * t / 2 := by
      unfold dot
      rw [ht, mul_sum, sum_div]
      exact sum_congr rfl fun k _ => by ring
    simp only
    rw [hdot, max_comm]
    clear_value t
    clear ht hdot
    unfold npSign at hs ⊢
    rcases lt_trichotomy (t - (y : ℚ)) 0 with h | h | h
    · rw [if_neg (by linarith), if_pos h]
      rcases hy with rfl | rfl <;> norm_num [binLoss] at * <;> first | linarith | (congr 1; ring)
    · exact absurd (by linarith) hm
    · rw [if_pos h]
      rcases hy with rfl | rfl <;> norm_num [binLoss] at * <;> first | linarith | (congr 1; ring)
  · intro hm
    unfold binFindConstraint
    rw [bin_lossaug, hm]
    simp [npSign, binJointFeature]

/-- **C108, `objective_primal`.** It is the objective of the linear support vector machine, unless a sample lies exactly on the
margin: then it raises `ValueError`. Hence a learner that computes its final objective raises at the end of training if a sample lies
on the margin. Missing from the full claim: weights with samples on the margin. -/
theorem C108_objective_primal_partial (F : ℕ) (w : W) (samples : List ((ℕ → ℚ) × ℤ)) (hne : samples ≠ [])
    (hd : ∀ s ∈ samples, s.2 = -1 ∨ s.2 = 1) (C : ℚ) (nSlack : Bool) :
    ((∀ s ∈ samples, ¬ OnMargin F w s) → binObjectivePrimal F w samples C nSlack = .ok (linearSVM F C samples w)) ∧
      ((∃ s ∈ samples, OnMargin F w s) → binObjectivePrimal F w samples C nSlack = .error .valueError) := by
  have hE : samples.isEmpty = false := by cases samples <;> simp_all
  have h1 : (∀ s ∈ samples, ¬ OnMargin F w s) → binSlacks F w samples =
      .ok (samples.map fun s => max 0 (1 - s.2 * ∑ k ∈ range F, w k * s.1 k)) := by
    clear hne hE
    induction samples with
    | nil => intro _; rfl
    | cons s r ih =>
      intro h
      obtain ⟨c, e1, -, e2⟩ := (C108_find_constraint_partial F w s (hd s List.mem_cons_self)).1 (h s List.mem_cons_self)
      unfold binSlacks
      rw [e1, ih (fun t ht => hd t (List.mem_cons_of_mem _ ht)) fun t ht => h t (List.mem_cons_of_mem _ ht)]
      simp only [e2, List.map_cons]
  have h2 : (∃ s ∈ samples, OnMargin F w s) → binSlacks F w samples = .error .valueError := by
    clear hne hE h1
    induction samples with
    | nil => rintro ⟨s, hs, -⟩; cases hs
    | cons s r ih =>
      intro h
      have hs := C108_find_constraint_partial F w s (hd s List.mem_cons_self)
      unfold binSlacks
      by_cases hm : OnMargin F w s
      · rw [hs.2 hm]
      · obtain ⟨c, e1, -, -⟩ := hs.1 hm
        rw [e1]
        obtain ⟨t, ht, htm⟩ := h
        rw [ih (fun t ht => hd t (List.mem_cons_of_mem _ ht)) ?_]
        rcases List.mem_cons.mp ht with rfl | ht
        · exact absurd htm hm
        · exact ⟨t, ht, htm⟩
  unfold binObjectivePrimal
  rw [hE]
  constructor
  · intro h
    rw [h1 h]
    simp only [Bool.false_eq_true, if_false]
    have hmap : (samples.map fun s => max 0 (1 - (s.2 : ℚ) * ∑ k ∈ range F, w k * s.1 k)).map (fun s => max s 0) =
        samples.map fun s => max 0 (1 - (s.2 : ℚ) * ∑ k ∈ range F, w k * s.1 k) := by
      rw [List.map_map]
      refine List.map_congr_left fun s _ => ?_
      simp
    rw [hmap, ite_self]
    have hnn : 0 ≤ (samples.map fun s => max 0 (1 - (s.2 : ℚ) * ∑ k ∈ range F, w k * s.1 k)).sum :=
      List.sum_nonneg fun v hv => by
        obtain ⟨s, -, rfl⟩ := List.mem_map.mp hv
        exact le_max_left _ _
    rw [max_eq_left hnn]
    unfold linearSVM
    congr 1
    ring
  · intro h
    rw [h2 h]
    rfl

/-- What the main loop of `OneSlackSSVM` (batch functions) takes for the slack of a sample. -/
def binBatchSlack (F : ℕ) (w : W) (s : (ℕ → ℚ) × ℤ) : ℚ := (findConstraint (binaryModel F) s.1 s.2 w none true true).slack

/-- **C108, batches.** The batch functions, which the main loop of `OneSlackSSVM` uses, raise nothing on the margin; they give the
hinge loss of a sample off the margin, and 1/2 instead of 0 on it. Missing from the full claim: samples on the margin. -/
theorem C108_batch_slack_partial (F : ℕ) (w : W) (s : (ℕ → ℚ) × ℤ) (hy : s.2 = -1 ∨ s.2 = 1) :
    binBatchSlack F w s = max 0 (1 - s.2 * ∑ k ∈ range F, w k * s.1 k) + if OnMargin F w s then 1 / 2 else 0 := by
  obtain ⟨x, y⟩ := s
  unfold OnMargin binBatchSlack findConstraint
  simp only at hy ⊢
  have hla : (binaryModel F).lossAug x y w true = npSign (∑ k ∈ range F, w k * x k - y) := by
    change okD 0 (binLossAugmented ⟨F, x⟩ y ⟨F, w⟩) = _
    rw [bin_lossaug]
    rfl
  have hv := dot_delta (binaryModel F) binOutputs w x y ((binaryModel F).lossAug x y w true)
  simp only [if_true]
  rw [hv, show (problemOf (binaryModel F) binOutputs) = binProblem F from rfl, bin_violation, hla]
  generalize ∑ k ∈ range F, w k * x k = t
  unfold npSign
  rcases lt_trichotomy (t - (y : ℚ)) 0 with h | h | h
  · rw [if_neg (by linarith), if_pos h, if_neg (by intro h'; linarith), max_comm, add_zero]
    rcases hy with rfl | rfl <;> norm_num [binLoss] at * <;> first | linarith | (congr 1; ring)
  · have : t = y := by linarith
    subst this
    rcases hy with rfl | rfl <;> norm_num [binLoss]
  · rw [if_pos h, if_neg (by intro h'; linarith), max_comm, add_zero]
    rcases hy with rfl | rfl <;> norm_num [binLoss] at * <;> first | linarith | (congr 1; ring)

/-- one sample with one feature, both 1. -/
def oneSample : List ((ℕ → ℚ) × ℤ) := [(fun _ => 1, 1)]

/-- a fresh learner with `C = 10` and default options otherwise. -/
def binLearner : OneSlack.Obj ℤ :=
  ⟨⟨10000, 10, false, none, false, 0, 1 / 1000, 0, 1 / 10 ^ 5, 50, .auto⟩, none, []⟩

/-- solver for the two problems that occur. -/
def binSolver : QP.Solver := tableSolver 1 10
  [([(vec2 0 0, 0), (vec2 1 0, 1)], [9, 1], 0),
   ([(vec2 0 0, 0), (vec2 1 0, 1), (vec2 (1 / 2) 0, 1)], [6, 0, 4], 0)]

/-- **C108 is violated by `OneSlackSSVM`.** With an exact QP solver and one sample `x = 1`, `y = 1` it goes on when the sample lies
exactly on the margin and returns the weight 2, whose objective is 2; the objective of the weight 1 is 1/2. -/
theorem C108_violated_oneslack : QP.Exact binSolver ∧
    ∃ o a, binOneSlackFit 1 binSolver binLearner oneSample = .ok o ∧ o.attrs = some a ∧ a.w 0 = 2 ∧
      linearSVM 1 10 oneSample a.w = 2 ∧ linearSVM 1 10 oneSample (fun _ => 1) = 1 / 2 := by
  refine ⟨tableSolver_exact _ _ _ (by decide +kernel), ?_⟩
  have key : (do
      let o ← binOneSlackFit 1 binSolver binLearner oneSample
      match o.attrs with
      | none => .error .valueError
      | some a => pure (a.w 0, linearSVM 1 10 oneSample a.w)) = Except.ok (ε := PyErr) ((2 : ℚ), (2 : ℚ)) := by decide +kernel
  obtain ⟨o, ho, h1⟩ := bind_eq_ok.mp key
  cases ha : o.attrs with
  | none => rw [ha] at h1; cases h1
  | some a =>
    rw [ha] at h1
    simp only [pure, Except.pure, Except.ok.injEq, Prod.mk.injEq] at h1
    exact ⟨o, a, ho, ha, h1.1, h1.2, by decide +kernel⟩

/-- a learner that stops after one iteration. -/
def binLearner1 : OneSlack.Obj ℤ :=
  ⟨⟨1, 10, false, none, false, 0, 1 / 1000, 0, 1 / 10 ^ 5, 50, .auto⟩, none, []⟩

/-- **C108 is violated by the final objective.** With `max_iter=1` the same training finds the best weights, 1, and then raises
`ValueError` when it computes their objective. -/
theorem C108_violated_final : QP.Exact binSolver ∧ binOneSlackFit 1 binSolver binLearner1 oneSample = .error .valueError := by
  refine ⟨tableSolver_exact _ _ _ (by decide +kernel), ?_⟩
  have : (binOneSlackFit 1 binSolver binLearner1 oneSample).toOption.isNone ∧
    (match binOneSlackFit 1 binSolver binLearner1 oneSample with
      | .error .valueError => true
      | _ => false) = true := by decide +kernel
  have h := this.2
  split at h
  · assumption
  · cases h

/-- the hypotheses of the partial statements hold: a sample off the margin. -/
example : ¬ OnMargin 2 (fun _ => 1) (fun _ => 1, 1) ∧ OnMargin 1 (fun _ => 1) (fun _ => 1, 1) ∧
    (binObjectivePrimal 2 (fun _ => 1) [(fun _ => 1, 1), (fun _ => 1, -1)] 1 true).toOption = some 4 := by decide +kernel

/-! ### the perceptron -/

theorem bin_inference (F : ℕ) (x : ℕ → ℚ) (w : W) :
    (binaryModel F).inference x w = binDecide (∑ k ∈ range F, w k * x k) := by
  change okD 0 (binInference ⟨F, x⟩ ⟨F, w⟩) = _
  unfold binInference Vec.dot
  simp only [if_true]
  rw [dot_comm]
  rfl

theorem bin_decide (t : ℚ) : (binDecide t = -1 ∧ t < 0) ∨ (binDecide t = 1 ∧ 0 ≤ t) := by
  unfold binDecide
  split
  · exact .inr ⟨by norm_num, by assumption⟩
  · exact .inl ⟨by norm_num, by linarith⟩

/-- **C109.** If some weights `u` separate the samples with margin `γ > 0` (`y u·x ≥ γ`) and the samples have squared length at most
`R`, then a `StructuredPerceptron` that trains a `BinaryClf` online, without averaging, with constant learning rate and more than
`R |u|² / γ²` epochs, ends with loss zero and weights that classify every training sample correctly. -/
theorem C109_perceptron (F : ℕ) (samples : List ((ℕ → ℚ) × ℤ)) (hne : samples ≠ []) (hd : ∀ s ∈ samples, s.2 = -1 ∨ s.2 = 1)
    (u : ℕ → ℚ) (γ R : ℚ) (hγ : 0 < γ) (hR : ∀ s ∈ samples, ∑ k ∈ range F, s.1 k ^ 2 ≤ R)
    (hsep : ∀ s ∈ samples, γ ≤ s.2 * ∑ k ∈ range F, u k * s.1 k)
    (o : Perceptron.Obj) (hon : o.cfg.batch = false) (hlr : ∀ t, o.cfg.lr t = 1) (havg : o.average = .off)
    (hiter : R * (∑ k ∈ range F, u k ^ 2) / γ ^ 2 < o.cfg.maxIter) :
    ∃ o', Perceptron.fit (binaryModel F) o samples = .ok o' ∧ o'.lossCurve.getLast? = some (some 0) ∧
      ∀ s ∈ samples, binInference ⟨F, s.1⟩ ⟨F, o'.w⟩ = .ok s.2 := by
  have hP : perceptronProblem (binaryModel F) binOutputs = binProblem F := rfl
  have hR0 : 0 ≤ R := by
    obtain ⟨s, l, rfl⟩ := List.exists_cons_of_ne_nil hne
    exact (sum_nonneg fun k _ => sq_nonneg _).trans (hR s List.mem_cons_self)
  have hl0 : ∀ y ŷ : ℤ, 0 ≤ binLoss y ŷ := fun y ŷ => by unfold binLoss; split <;> norm_num
  have hex : (perceptronProblem (binaryModel F) binOutputs).ExactInference (binaryModel F).inference := by
    intro x y w _
    rw [hP, bin_inference]
    generalize ht : ∑ k ∈ range F, w k * x k = t
    have hb := bin_decide t
    refine ⟨hb.imp And.left And.left, fun ŷ hŷ => ?_⟩
    rw [bin_value, bin_value, ht]
    rcases hb with ⟨hb, h⟩ | ⟨hb, h⟩ <;> rw [hb] <;> rcases hŷ with rfl | rfl <;> push_cast <;> linarith
  obtain ⟨o', h1, h2, h3⟩ := C52_converges (binaryModel F) binOutputs o samples u γ R hγ hR0 hon hlr havg hex hd
    (fun s _ w => hl0 _ _) (by
      change 0 < (samples.map fun _ => (1 : ℚ)).sum
      rw [List.map_const', List.sum_replicate]
      have := List.length_pos_of_ne_nil hne
      simp only [nsmul_eq_mul, mul_one]
      exact_mod_cast this) (by
      rintro s hs ŷ hŷ hl
      rw [hP, bin_value, bin_value]
      have hn : s.2 ≠ ŷ := by
        rintro rfl
        apply hl
        change binLoss s.2 s.2 = 0
        simp [binLoss]
      have h := hsep s hs
      have : (ŷ : ℚ) = -s.2 := by
        rcases hd s hs with e | e <;> rcases hŷ with rfl | rfl <;> rw [e] at hn ⊢ <;> first | exact absurd rfl hn | norm_num
      rw [this]
      linarith) (by
      rintro s hs ŷ hŷ hl
      refine le_trans (sum_le_sum (g := fun k => s.1 k ^ 2) fun k _ => ?_) (hR s hs)
      change ((binaryModel F).feat s.1 s.2 s.2 k - (binaryModel F).feat s.1 ŷ s.2 k) ^ 2 ≤ _
      rw [bin_feat, bin_feat]
      have h := sq_nonneg (s.1 k)
      rcases hd s hs with e | e <;> rcases hŷ with rfl | rfl <;> rw [e] <;> push_cast <;> first | nlinarith | skip) hiter
  refine ⟨o', h1, h2, fun s hs => ?_⟩
  have h := h3 s hs
  have hi : binInference ⟨F, s.1⟩ ⟨F, o'.w⟩ = .ok (binDecide (∑ k ∈ range F, o'.w k * s.1 k)) := by
    unfold binInference Vec.dot
    simp only [if_true]
    rw [dot_comm]
    rfl
  rw [hi]
  rw [bin_inference] at h
  change binLoss _ _ = 0 at h
  unfold binLoss at h
  split at h
  · norm_num at h
  · rename_i hh
    rw [not_not.mp hh]

/-- two samples that are separated by `u = 1`, with margin 1. -/
example : ∃ o', Perceptron.fit (binaryModel 1) ⟨⟨2, false, fun _ => 1⟩, .off, fun _ => 0, []⟩
      [(fun _ => 1, 1), (fun _ => -1, -1)] = .ok o' ∧ o'.lossCurve.getLast? = some (some 0) ∧
    ∀ s ∈ [((fun _ => 1 : ℕ → ℚ), (1 : ℤ)), (fun _ => -1, -1)], binInference ⟨1, s.1⟩ ⟨1, o'.w⟩ = .ok s.2 :=
  C109_perceptron 1 _ (by simp) (by decide) (fun _ => 1) 1 1 (by norm_num) (by
    intro s hs
    rcases List.mem_cons.mp hs with rfl | hs
    · norm_num
    · rw [List.mem_singleton] at hs
      subst hs
      norm_num) (by
    intro s hs
    rcases List.mem_cons.mp hs with rfl | hs
    · norm_num
    · rw [List.mem_singleton] at hs
      subst hs
      norm_num) _ rfl (fun _ => rfl) rfl (by norm_num)

end Verif.Props
