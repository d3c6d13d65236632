import Verif.Props.C107
import Verif.Props.C67N

/-!
# C110: what it takes to train

A training problem with exact loss-augmented inference, stated once for all models, and what the four learners make of it.
-/

namespace Verif.Props

open Finset Verif.Common Verif.Spec Verif.Learner Verif.Lemmas

variable {X Y : Type}

/-- A training problem: labelled samples, at least one; loss-augmented inference is exact; squared distances of joint features
are at most `R`; the losses of the samples add up to at most `L`; some output is wrong. -/
structure Trainable (m : SModel X Y) (outputs : X → Set Y) (samples : List (X × Y)) (R L : ℚ) : Prop where
  ne : samples ≠ []
  plain : m.rescaleC = false
  exact_lossAug : (problemOf m outputs).ExactLossAug fun x y w => m.lossAug x y w true
  labelled : (problemOf m outputs).Labelled samples
  range_nonneg : 0 ≤ R
  range : (problemOf m outputs).FeatureRange samples R
  cost : ∃ c : X × Y → ℚ, (∀ s ∈ samples, ∀ ŷ ∈ outputs s.1, (problemOf m outputs).loss s.2 ŷ ≤ c s) ∧ (samples.map c).sum ≤ L
  confusable : ∃ s ∈ samples, ∃ ŷ ∈ outputs s.1, 0 < (problemOf m outputs).loss s.2 ŷ

/-- `OneSlackSSVM` with `inactive_window=0`, an exact QP solver and enough iterations for its tolerance returns weights whose
risk is at most `C n tol` above the minimum. -/
def OneSlackTrains (m : SModel X Y) (outputs : X → Set Y) (samples : List (X × Y)) (R L : ℚ) : Prop :=
  ∀ (qp : QP.Solver), QP.Exact qp → QP.Complete qp → ∀ (eq : Y → Y → Except PyErr Bool) (o : OneSlack.Obj Y),
    (o.cfg.inferenceCache = 0 ∨ ∀ a b, ∃ r, eq a b = .ok r) → 0 < o.cfg.C → 0 < o.cfg.tol → o.cfg.tol ≤ 1 →
    o.cfg.negativity = none → o.cfg.inactiveThreshold ≤ 1 → o.cfg.breakOnBad = false → o.cfg.inactiveWindow = 0 →
    o.cfg.maxIter ≠ 0 →
    ∀ μ : ℚ, 0 ≤ μ → 2 * μ ≤ o.cfg.C * samples.length * o.cfg.tol → 2 * R * μ ≤ o.cfg.tol ^ 2 →
    o.cfg.C * L < ((o.cfg.maxIter : ℚ) - 1) * μ →
    ∃ o' a, OneSlack.fit m qp eq none (fun _ => none) o samples .no = .ok o' ∧ o'.attrs = some a ∧
      (problemOf m outputs).NearOptimal o.cfg.C samples (o.cfg.C * samples.length * o.cfg.tol) a.w

/-- `NSlackSSVM` with `inactive_window=0`, an exact QP solver and enough iterations for its tolerance stops by itself with weights
whose risk is at most `2 C n δ` above the minimum. -/
def NSlackTrains (m : SModel X Y) (outputs : X → Set Y) (eq : Y → Y → Bool) (samples : List (X × Y)) (R L : ℚ) : Prop :=
  ∀ (qp : QP.Solver), QP.Exact qp → QP.Complete qp → ∀ o : NSlack.Obj Y, 0 < o.cfg.C → 0 < o.cfg.tol →
    o.cfg.negativity = none → o.cfg.breakOnBad = false → (o.cfg.batchSize = -1 ∨ 0 < o.cfg.batchSize) →
    o.cfg.inactiveWindow = 0 → o.cfg.maxIter ≠ 0 →
    ∀ δ : ℚ, 1 / 10 ^ 5 ≤ δ → 2 * o.cfg.tol ≤ o.cfg.C * δ → 2 * R * o.cfg.tol ≤ δ ^ 2 →
    o.cfg.C * L < ((o.cfg.maxIter : ℚ) - 2) * o.cfg.tol →
    ∃ o' noNew a, NSlack.fit m qp eq none (fun _ _ => none) o samples none = .ok (o', .stopped noNew) ∧ o'.attrs = some a ∧
      (problemOf m outputs).NearOptimal o.cfg.C samples (2 * o.cfg.C * samples.length * δ) a.w

/-- `FrankWolfeSSVM`, fresh, block-coordinate with line search, with enough iterations for its tolerance returns weights whose risk
is at most `tol` above the minimum. -/
def FrankWolfeTrains (m : SModel X Y) (outputs : X → Set Y) (samples : List (X × Y)) (R L : ℚ) : Prop :=
  ∀ (order : ℕ → List ℕ), VisitsAll samples.length order → ∀ o : FrankWolfe.Obj, o.w = none → o.l = none →
    o.cfg.batchMode = false → o.cfg.lineSearch = true → o.cfg.averaging = false → 0 ≤ o.cfg.C → 0 < o.cfg.tol →
    o.cfg.checkDualEvery ≠ 0 → o.cfg.maxIter ≠ 0 →
    (let n : ℚ := samples.length
    let H : ℚ := o.cfg.C * L
    let K : ℚ := 4 * n ^ 2 * (o.cfg.C ^ 2 * R + 1 / 10 ^ 15 + H + n * o.cfg.C ^ 2 * R)
    o.cfg.checkDualEvery * (K * H) < o.cfg.maxIter * o.cfg.tol ^ 2) →
    ∃ o' w, FrankWolfe.fit m order o samples = .ok o' ∧ o'.w = some w ∧
      (problemOf m outputs).NearOptimal o.cfg.C samples o.cfg.tol w

/-- `SubgradientSSVM` with the Pegasos schedule, one job and even batches, given enough passes, returns weights as close to the
one minimiser of the risk as one likes. -/
def SubgradientTrains (m : SModel X Y) (outputs : X → Set Y) (samples : List (X × Y)) : Prop :=
  ∀ (o : Subgradient.Obj) (t0 : ℚ), Pegasos o.cfg t0 → (o.cfg.averaging = .none ∨ o.t = 0) →
    EvenBatches o.cfg samples.length → ModeOk m o.cfg →
    ∃ u a, (problemOf m outputs).IsRiskMin o.cfg.C samples u a ∧ ∀ ε : ℚ, 0 < ε → ∃ N₀, ∀ N ≥ N₀,
      ∀ order : ℕ → List (X × Y), (∀ it, (order it).Perm samples) →
      ∃ o' w obj, Subgradient.fit m order (withMaxIter o N) samples false = .ok o' ∧ o'.w = some w ∧
        o'.curves.objective.getLast? = some obj ∧ (problemOf m outputs).IsObjective o.cfg.C samples w obj ∧
        ∑ k ∈ range m.dim, (w k - u k) ^ 2 ≤ ε ∧ obj ≤ a + ε

/-! ### the first step -/

theorem zero_violation (m : SModel X Y) (outputs : X → Set Y) (x : X) (y z : Y) :
    (problemOf m outputs).violation (fun _ => 0) x y z = (problemOf m outputs).loss y z := by
  unfold Spec.Problem.violation Spec.Problem.value
  simp

theorem Trainable.first {m : SModel X Y} {outputs : X → Set Y} {samples : List (X × Y)} {R L : ℚ}
    (h : Trainable m outputs samples R L) : ∀ s ∈ samples, ∀ ŷ ∈ outputs s.1,
      (problemOf m outputs).loss s.2 ŷ ≤ m.lossOf s.2 (m.lossAug s.1 s.2 (fun _ => 0) true) := by
  intro s hs ŷ hy
  have := (h.exact_lossAug s.1 s.2 (fun _ => 0) (h.labelled s hs).1 (h.labelled s hs).2).2 ŷ hy
  rw [zero_violation, zero_violation] at this
  exact this

theorem Trainable.first_nonneg {m : SModel X Y} {outputs : X → Set Y} {samples : List (X × Y)} {R L : ℚ}
    (h : Trainable m outputs samples R L) : ∀ s ∈ samples, 0 ≤ m.lossOf s.2 (m.lossAug s.1 s.2 (fun _ => 0) true) := by
  intro s hs
  have := h.first s hs s.2 (h.labelled s hs).1
  rw [(h.labelled s hs).2] at this
  exact this

/-- The risk of zero weights. -/
theorem Trainable.zero {m : SModel X Y} {outputs : X → Set Y} {samples : List (X × Y)} {R L : ℚ}
    (h : Trainable m outputs samples R L) {C : ℚ} (hC : 0 ≤ C) :
    ∃ B, (problemOf m outputs).IsObjective C samples (fun _ => 0) B ∧ B ≤ C * L := by
  obtain ⟨c, hc, hsum⟩ := h.cost
  refine ⟨_, ⟨_, violations_hinge m outputs h.exact_lossAug samples h.labelled _, rfl⟩, ?_⟩
  have h0 : ∑ k ∈ Finset.range (problemOf m outputs).dim, (0 : ℚ) * 0 = 0 := by simp
  rw [h0, zero_div, zero_add]
  refine mul_le_mul_of_nonneg_left ((List.sum_le_sum fun s hs => ?_).trans hsum) hC
  rw [zero_violation]
  exact hc s hs _ (h.exact_lossAug s.1 s.2 (fun _ => 0) (h.labelled s hs).1 (h.labelled s hs).2).1

/-! ### the learners -/

/-- **C110, one-slack.** -/
theorem C110_oneslack (m : SModel X Y) (outputs : X → Set Y) (samples : List (X × Y)) (R L : ℚ)
    (h : Trainable m outputs samples R L) : OneSlackTrains m outputs samples R L := by
  intro qp hqp hcomp eq o heq hC htol htol1 hneg hthr hbr hwin hmi μ hμ0 hμ1 hμ2 hmax
  obtain ⟨s0, hs0, ŷ, hy, hpos⟩ := h.confusable
  obtain ⟨o', hfit⟩ := (C67_returns_iff_partial m qp hqp hcomp eq o heq hC.le hneg hthr hbr htol1 samples h.ne
    h.first_nonneg).mpr ⟨hmi, .inl ⟨s0, hs0, (lt_of_lt_of_le hpos (h.first s0 hs0 ŷ hy)).ne'⟩⟩
  obtain ⟨B, hB, hBle⟩ := h.zero hC.le
  obtain ⟨a, p, h1, h2, h3⟩ := C87_converges m outputs qp hqp eq none o o' samples hC htol hneg hwin h.labelled
    (fun s hs w => (h.exact_lossAug s.1 s.2 w (h.labelled s hs).1 (h.labelled s hs).2).1) (fun _ => h.exact_lossAug) (by simp)
    (.inr h.plain) (QP.complete_first hqp hcomp _ _) R h.range_nonneg h.range μ hμ0 hμ1 hμ2 _ B hB
    (by rw [if_pos rfl, sub_zero]; linarith) hfit
  exact ⟨o', a, hfit, h1, p, h2, h3⟩

/-- **C110, n-slack.** The comparison of outputs is sound, outputs without loss have the features of the truth, and some sample can
cost `1e-5`. -/
theorem C110_nslack (m : SModel X Y) (outputs : X → Set Y) (samples : List (X × Y)) (R L : ℚ)
    (h : Trainable m outputs samples R L) (eq : Y → Y → Bool) (heq : EqSound m outputs eq samples)
    (hz : ∀ s ∈ samples, ∀ ŷ ∈ outputs s.1, (problemOf m outputs).loss s.2 ŷ ≤ 0 →
      ∀ k < m.dim, (problemOf m outputs).feat s.1 ŷ s.2 k = (problemOf m outputs).feat s.1 s.2 s.2 k)
    (hbig : ∃ s ∈ samples, ∃ ŷ ∈ outputs s.1, 1 / 10 ^ 5 ≤ (problemOf m outputs).loss s.2 ŷ) :
    NSlackTrains m outputs eq samples R L := by
  intro qp hqp hcomp o hC htol hneg hbr hbat hwin hmi δ hδ h1 h2 hmax
  obtain ⟨s0, hs0, ŷ, hy, hbig⟩ := hbig
  obtain ⟨o', out, hfit⟩ := (C67_nslack_returns_iff_partial m qp hqp hcomp eq none o hbr hbat hC.le (by rw [hneg]; simp) samples
    h.ne).mpr ⟨hmi, s0, hs0, hbig.trans (h.first s0 hs0 ŷ hy)⟩
  obtain ⟨B, hB, hBle⟩ := h.zero hC.le
  have hmaxB := lt_of_le_of_lt hBle hmax
  obtain ⟨noNew, rfl⟩ := C93_stops m outputs qp hqp _ o o' samples hC h.labelled
    (fun s hs w => (h.exact_lossAug s.1 s.2 w (h.labelled s hs).1 (h.labelled s hs).2).1) htol _ _ hB hmaxB out hfit
  obtain ⟨a, p, e1, e2, e3⟩ := C93_converges m outputs qp hqp _ o o' samples heq hC hneg hwin h.labelled h.exact_lossAug hz
    (complete_nfirst hcomp _ hC.le _) R δ h.range hδ htol h1 h2 _ _ hB hmaxB _ hfit
  exact ⟨o', noNew, a, hfit, e1, p, e2, e3⟩

/-- **C110, Frank-Wolfe.** -/
theorem C110_frankwolfe (m : SModel X Y) (outputs : X → Set Y) (samples : List (X × Y)) (R L : ℚ)
    (h : Trainable m outputs samples R L) : FrankWolfeTrains m outputs samples R L := by
  intro order ho o hw hol hb hls hav hC htol hck hm hmax
  obtain ⟨B, hB, hBle⟩ := h.zero hC
  obtain ⟨o', hfit⟩ := (C65_fit_succeeds_partial m order o samples).mpr ⟨h.ne, hm, h.plain, .inr hck⟩
  obtain ⟨T, -, -, hfin⟩ := C86_fit m outputs order o o' samples hw hol hb hls hav hC htol.le ho h.exact_lossAug h.labelled R
    h.range _ B hB hfit
  have hB0 : 0 ≤ B := objective_nonneg hC h.labelled hB
  simp only at hmax
  obtain ⟨w, p, h1, h2, h3⟩ := hfin (by
    refine lt_of_le_of_lt ?_ hmax
    refine mul_le_mul_of_nonneg_left ?_ (Nat.cast_nonneg _)
    have hn0 : (0 : ℚ) ≤ (samples.length : ℚ) := Nat.cast_nonneg _
    have hC2R : 0 ≤ o.cfg.C ^ 2 * R := mul_nonneg (sq_nonneg _) h.range_nonneg
    have hH0 : 0 ≤ o.cfg.C * L := hB0.trans hBle
    have h5 : 0 ≤ (samples.length : ℚ) * o.cfg.C ^ 2 * R := by rw [mul_assoc]; exact mul_nonneg hn0 hC2R
    have h6 : (0 : ℚ) ≤ 1 / 10 ^ 15 := by norm_num
    refine mul_le_mul ?_ hBle hB0 ?_
    · refine mul_le_mul_of_nonneg_left ?_ (mul_nonneg (by norm_num) (sq_nonneg _))
      linarith
    · refine mul_nonneg (mul_nonneg (by norm_num) (sq_nonneg _)) ?_
      linarith)
  exact ⟨o', w, hfit, h1, p, h2, fun v obj hv => (h3 v obj hv).le⟩

/-- **C110, subgradient.** Finitely many outputs compete. -/
theorem C110_subgradient (m : SModel X Y) (outputs : X → Set Y) (samples : List (X × Y)) (R L : ℚ)
    (h : Trainable m outputs samples R L) (hf : FinitelyMany (problemOf m outputs) samples) :
    SubgradientTrains m outputs samples := by
  intro o t0 hpeg havg heven hmode
  exact C107_subgradient m outputs h.exact_lossAug samples h.ne h.labelled hf R h.range o t0 hpeg havg heven hmode

/-! ### the hypotheses can be met: three classes with different weights, two samples -/

theorem three_trainable : Trainable (multiClassModel (threeClf false)) (classes 3) threeSamples 18 5 := by
  have hlab := multiClass_labelled (threeClf false) rfl threeSamples (by decide)
  have hloss := fun (y : ℕ) (hy : y < (threeClf false).nStates) c => mc_loss (threeClf false) rfl hy c
  exact {
    ne := by decide
    plain := rfl
    exact_lossAug := (multiClass_exact (threeClf false) rfl (by decide +kernel) true).1
    labelled := hlab
    range_nonneg := by norm_num
    range := mc_range (threeClf false) rfl threeSamples (by decide) 18 (three_bound false)
    cost := by
      refine ⟨fun s => (threeClf false).classWeight.get s.2, fun s hs c _ => ?_, by decide +kernel⟩
      have := hloss s.2 ((by decide : ∀ s ∈ threeSamples, s.2 < (threeClf false).nStates) s hs) c
      change (classProblem (threeClf false)).loss s.2 c ≤ _
      rw [this]
      have hp : 0 ≤ (threeClf false).classWeight.get s.2 := by
        change (0 : ℚ) ≤ (s.2 : ℚ) + 1
        positivity
      simp only [classCost, classMargin, show (threeClf false).rescaleC = false from rfl, Bool.false_eq_true, if_false, one_mul]
      split
      · exact hp
      · exact le_rfl
    confusable := by
      refine ⟨_, List.mem_cons_self, 0, (by decide : 0 < 3), ?_⟩
      change 0 < (classProblem (threeClf false)).loss 1 0
      rw [hloss 1 (by decide) 0]
      decide +kernel }

example : ∃ o' a, OneSlack.fit (multiClassModel (threeClf false)) QP.ideal (fun _ _ => .error .typeError) none
    (fun _ => none) ⟨⟨1200, 1, true, none, false, 0, 1 / 2, 0, 1 / 10 ^ 5, 0, .auto⟩, none, []⟩ threeSamples .no = .ok o' ∧
    o'.attrs = some a := by
  obtain ⟨o', a, h1, h2, -⟩ := C110_oneslack _ _ _ _ _ three_trainable QP.ideal QP.ideal_exact.1 QP.ideal_exact.2
    (fun _ _ => .error .typeError)
    ⟨⟨1200, 1, true, none, false, 0, 1 / 2, 0, 1 / 10 ^ 5, 0, .auto⟩, none, []⟩ (.inl rfl) (by norm_num) (by norm_num)
    (by norm_num) rfl (by norm_num) rfl rfl (by norm_num) (1 / 144) (by norm_num)
    (by norm_num [threeSamples]) (by norm_num) (by decide +kernel)
  exact ⟨o', a, h1, h2⟩

example : SubgradientTrains (multiClassModel (threeClf false)) (classes 3) threeSamples :=
  C110_subgradient _ _ _ _ _ three_trainable (mc_finite (threeClf false) threeSamples)

end Verif.Props
