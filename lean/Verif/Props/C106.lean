import Verif.Props.C105
import Verif.Props.C94
import Verif.Props.C88Total
import Verif.Lemmas.RiskClose

/-!
# C106: the learners agree with each other
-/

namespace Verif.Props

open Finset Verif.Common Verif.Spec Verif.Learner Verif.Unstructured Verif.OneSlack Verif.Lemmas

variable {X Y : Type}

/-- `Trained m outputs samples C ε w`: the weights `w` result from training with one of three learners, in a setting in
which the learner promises to come within `ε` of the minimal risk.

`oneslack`: a fresh `OneSlackSSVM` with `inactive_window=0` and an exact QP solver; `R` bounds squared distances between joint
features, `2 μ ≤ C n tol`, `2 R μ ≤ tol²`, and `max_iter - 1` exceeds the risk of some weights over `μ`.

`nslack`: a fresh `NSlackSSVM` with `inactive_window=0` and an exact QP solver.

`frankwolfe`: a fresh `FrankWolfeSSVM` in block-coordinate mode with line search, without averaging; any order of samples. -/
inductive Trained (m : SModel X Y) (outputs : X → Set Y) (samples : List (X × Y)) (C : ℚ) : ℚ → W → Prop
  | oneslack (qp : QP.Solver) (hqp : QP.Exact qp) (eq : Y → Y → Except PyErr Bool) (o o' : OneSlack.Obj Y)
      (hoC : o.cfg.C = C) (htol : 0 < o.cfg.tol) (hneg : o.cfg.negativity = none) (hwin : o.cfg.inactiveWindow = 0)
      (hcr : o.cfg.inferenceCache = 0 ∨ m.rescaleC = false)
      (hfirst : FirstAttempt qp m.dim (o.cfg.C * samples.length))
      (R : ℚ) (hR0 : 0 ≤ R) (hR : (problemOf m outputs).FeatureRange samples R)
      (μ : ℚ) (hμ0 : 0 ≤ μ) (hμ1 : 2 * μ ≤ o.cfg.C * samples.length * o.cfg.tol) (hμ2 : 2 * R * μ ≤ o.cfg.tol ^ 2)
      (w₀ : W) (B : ℚ) (hB : (problemOf m outputs).IsObjective o.cfg.C samples w₀ B)
      (hmax : B < ((o.cfg.maxIter : ℚ) - 1) * μ)
      (h : OneSlack.fit m qp eq none (fun _ => none) o samples .no = .ok o')
      (a : OneSlack.Attrs Y) (ha : o'.attrs = some a) :
      Trained m outputs samples C (C * samples.length * o.cfg.tol) a.w
  | nslack (qp : QP.Solver) (hqp : QP.Exact qp) (eq : Y → Y → Bool) (o o' : NSlack.Obj Y)
      (heq : EqSound m outputs eq samples) (hoC : o.cfg.C = C) (hneg : o.cfg.negativity = none)
      (hwin : o.cfg.inactiveWindow = 0)
      (hz : ∀ s ∈ samples, ∀ ŷ ∈ outputs s.1, (problemOf m outputs).loss s.2 ŷ ≤ 0 →
        ∀ k < m.dim, (problemOf m outputs).feat s.1 ŷ s.2 k = (problemOf m outputs).feat s.1 s.2 s.2 k)
      (hfirst : NFirstAttempt qp m.dim o.cfg.C samples.length)
      (R δ : ℚ) (hR : (problemOf m outputs).FeatureRange samples R) (hδ : 1 / 10 ^ 5 ≤ δ)
      (htol : 0 < o.cfg.tol) (h1 : 2 * o.cfg.tol ≤ o.cfg.C * δ) (h2 : 2 * R * o.cfg.tol ≤ δ ^ 2)
      (w0 : W) (B : ℚ) (hB : (problemOf m outputs).IsObjective o.cfg.C samples w0 B)
      (hmax : B < ((o.cfg.maxIter : ℚ) - 2) * o.cfg.tol) (out : NSlack.Outcome)
      (h : NSlack.fit m qp eq none (fun _ _ => none) o samples none = .ok (o', out))
      (a : NSlack.Attrs Y) (ha : o'.attrs = some a) :
      Trained m outputs samples C (2 * C * samples.length * δ) a.w
  | frankwolfe (order : ℕ → List ℕ) (o o' : FrankWolfe.Obj) (hw : o.w = none) (hol : o.l = none)
      (hb : o.cfg.batchMode = false) (hls : o.cfg.lineSearch = true) (hav : o.cfg.averaging = false)
      (hoC : o.cfg.C = C) (htol : 0 ≤ o.cfg.tol) (ho : VisitsAll samples.length order)
      (R : ℚ) (hR : (problemOf m outputs).FeatureRange samples R)
      (w0 : W) (H : ℚ) (hH : (problemOf m outputs).IsObjective o.cfg.C samples w0 H)
      (hmax : o.cfg.checkDualEvery * (4 * (samples.length : ℚ) ^ 2 * (o.cfg.C ^ 2 * R + 1 / 10 ^ 15 + H +
        samples.length * o.cfg.C ^ 2 * R) * H) < o.cfg.maxIter * o.cfg.tol ^ 2)
      (hfit : FrankWolfe.fit m order o samples = .ok o') (w : W) (hw' : o'.w = some w) :
      Trained m outputs samples C o.cfg.tol w

theorem trained_near (m : SModel X Y) (outputs : X → Set Y)
    (hLA : (problemOf m outputs).ExactLossAug (fun x y w => m.lossAug x y w true))
    (samples : List (X × Y)) (hl : (problemOf m outputs).Labelled samples) {C ε : ℚ} (hC : 0 < C) {w : W}
    (h : Trained m outputs samples C ε w) : (problemOf m outputs).NearOptimal C samples ε w := by
  cases h with
  | oneslack qp hqp eq o o' hoC htol hneg hwin hcr hfirst R hR0 hR μ hμ0 hμ1 hμ2 w₀ B hB hmax h a ha =>
    subst hoC
    obtain ⟨a', p, e1, e2, e3⟩ := C87_converges m outputs qp hqp eq none o o' samples hC htol hneg hwin hl
      (fun s hs w => (hLA s.1 s.2 w (hl s hs).1 (hl s hs).2).1) (fun _ => hLA) (by simp) hcr hfirst R hR0 hR μ hμ0 hμ1 hμ2
      w₀ B hB (by rw [if_pos rfl, sub_zero]; exact hmax) h
    rw [ha] at e1
    cases e1
    exact ⟨p, e2, e3⟩
  | nslack qp hqp eq o o' heq hoC hneg hwin hz hfirst R δ hR hδ htol h1 h2 w0 B hB hmax out h a ha =>
    subst hoC
    obtain ⟨a', p, e1, e2, e3⟩ := C93_converges m outputs qp hqp eq o o' samples heq hC hneg hwin hl hLA hz hfirst R δ hR hδ
      htol h1 h2 w0 B hB hmax out h
    rw [ha] at e1
    cases e1
    exact ⟨p, e2, e3⟩
  | frankwolfe order o o' hw hol hb hls hav hoC htol ho R hR w0 H hH hmax hfit v hv =>
    subst hoC
    obtain ⟨T, -, -, hfin⟩ := C86_fit m outputs order o o' samples hw hol hb hls hav hC.le htol ho hLA hl R hR w0 H hH hfit
    obtain ⟨w', p, e1, e2, e3⟩ := hfin hmax
    rw [hv] at e1
    cases e1
    exact ⟨p, e2, fun w' obj h => (e3 w' obj h).le⟩

/-- **C106.** Two trainings of a model with exact loss-augmented inference on the same data and with the same `C`, by any of the
three learners, with any options, tolerances and orders of samples, give weights whose squared distance is at most four times
the sum of the promised tolerances. -/
theorem C106_weights (m : SModel X Y) (outputs : X → Set Y)
    (hLA : (problemOf m outputs).ExactLossAug (fun x y w => m.lossAug x y w true))
    (samples : List (X × Y)) (hl : (problemOf m outputs).Labelled samples) (C ε δ : ℚ) (hC : 0 < C) (w v : W)
    (hw : Trained m outputs samples C ε w) (hv : Trained m outputs samples C δ v) :
    ∑ k ∈ range m.dim, (w k - v k) ^ 2 ≤ 4 * (ε + δ) :=
  near_close hC.le (fun s hs w => ⟨_, (C29_slack m outputs true hLA s.1 s.2 w (hl s hs).1 (hl s hs).2).1⟩)
    (trained_near m outputs hLA samples hl hC hw) (trained_near m outputs hLA samples hl hC hv)

/-- **C106, predictions.** If under the weights of one training an output `y` of an instance `x` — any instance, in particular
one that was not used for training — beats an output `z` by a margin of more than `2 sqrt((ε + δ) D)`, where `D` is the squared
distance of their joint features, then `y` beats `z` under the weights of the other training, too. -/
theorem C106_predictions (m : SModel X Y) (outputs : X → Set Y)
    (hLA : (problemOf m outputs).ExactLossAug (fun x y w => m.lossAug x y w true))
    (samples : List (X × Y)) (hl : (problemOf m outputs).Labelled samples) (C ε δ : ℚ) (hC : 0 < C) (w v : W)
    (hw : Trained m outputs samples C ε w) (hv : Trained m outputs samples C δ v) (x : X) (y z : Y) (γ : ℚ) (hγ : 0 < γ)
    (hm : dot m.dim w (m.jointFeature x z) + γ ≤ dot m.dim w (m.jointFeature x y))
    (hbig : 4 * (ε + δ) * ∑ k ∈ range m.dim, (m.jointFeature x y k - m.jointFeature x z k) ^ 2 < γ ^ 2) :
    dot m.dim v (m.jointFeature x z) < dot m.dim v (m.jointFeature x y) := by
  have hd := C106_weights m outputs hLA samples hl C ε δ hC w v hw hv
  by_contra hcon
  push Not at hcon
  have h1 : γ ≤ ∑ k ∈ range m.dim, (w k - v k) * (m.jointFeature x y k - m.jointFeature x z k) := by
    have : ∑ k ∈ range m.dim, (w k - v k) * (m.jointFeature x y k - m.jointFeature x z k) =
        (dot m.dim w (m.jointFeature x y) - dot m.dim w (m.jointFeature x z)) -
          (dot m.dim v (m.jointFeature x y) - dot m.dim v (m.jointFeature x z)) := by
      unfold dot
      rw [← sum_sub_distrib, ← sum_sub_distrib, ← sum_sub_distrib]
      exact sum_congr rfl fun k _ => by ring
    rw [this]
    linarith
  have h2 := cauchy_dot m.dim (fun k => w k - v k) (fun k => m.jointFeature x y k - m.jointFeature x z k)
  unfold dot at h2
  have h3 : 0 ≤ ∑ k ∈ range m.dim, (m.jointFeature x y k - m.jointFeature x z k) ^ 2 := sum_nonneg fun k _ => sq_nonneg _
  have h4 := mul_le_mul_of_nonneg_right hd h3
  have h5 : γ ^ 2 ≤ (∑ k ∈ range m.dim, (w k - v k) * (m.jointFeature x y k - m.jointFeature x z k)) ^ 2 :=
    pow_le_pow_left₀ hγ.le h1 2
  linarith

/-- Both sides exist: one-slack training and Frank-Wolfe training of the same classifier. -/
example : ∃ w v, Trained (multiClassModel (threeClf false)) (classes 3) threeSamples 1 1 w ∧
    Trained (multiClassModel (threeClf false)) (classes 3) threeSamples 1 1 v := by
  have hR : (classProblem (threeClf false)).FeatureRange threeSamples 18 :=
    mc_range (threeClf false) rfl threeSamples (by decide) 18 (three_bound false)
  have hB := (C105_objective (threeClf false) rfl (by decide +kernel) 1 threeSamples (by decide) (fun _ => 0) _).mpr rfl
  have hz := mc_zero (threeClf false) 1 threeSamples (by norm_num) (by decide) (by decide +kernel)
  have hz5 : (1 : ℚ) * (threeSamples.map fun s => (threeClf false).classWeight.get s.2).sum = 5 := by decide +kernel
  rw [hz5] at hz
  set B := multiSVM (threeClf false).nStates (threeClf false).nFeatures 1 (classCost (threeClf false))
    (classMargin (threeClf false)) threeSamples fun _ => 0 with hBdef
  have hB0 : 0 ≤ B := objective_nonneg (by norm_num) (multiClass_labelled (threeClf false) rfl threeSamples (by decide)) hB
  obtain ⟨o1, a, h1, h2, -⟩ := C105_oneslack (threeClf false) (by decide) rfl (by decide +kernel) threeSamples
    (by decide) (by decide) QP.ideal QP.ideal_exact.1 QP.ideal_exact.2 (fun _ _ => .error .typeError)
    ⟨⟨1200, 1, true, none, false, 0, 1 / 2, 0, 1 / 10 ^ 5, 0, .auto⟩, none, []⟩ (.inl rfl) (by norm_num) (by norm_num)
    (by norm_num) rfl rfl (by norm_num) rfl 18 (by norm_num) (three_bound false) (1 / 144) (by norm_num)
    (by norm_num [threeSamples]) (by norm_num) (by decide +kernel)
  obtain ⟨o2, v, h3, h4, -⟩ := C105_frankwolfe (threeClf false) rfl rfl (by decide +kernel) threeSamples (by decide) (by decide)
    (fun _ => [1, 0]) (fun _ => (List.Perm.swap 0 1 [])) ⟨⟨30000, 1, 1, false, true, 1, false⟩, none, none, ⟨[], []⟩⟩ rfl rfl
    rfl rfl rfl (by norm_num) (by norm_num) (by decide) (by decide) 18 (by norm_num) (by decide +kernel) (by decide +kernel)
  refine ⟨a.w, v, ?_, ?_⟩
  · have := Trained.oneslack (C := 1) QP.ideal QP.ideal_exact.1 (fun _ _ => .error .typeError)
      ⟨⟨1200, 1, true, none, false, 0, 1 / 2, 0, 1 / 10 ^ 5, 0, .auto⟩, none, []⟩ o1 rfl (by norm_num) rfl rfl (.inl rfl)
      (QP.complete_first QP.ideal_exact.1 QP.ideal_exact.2 _ _) 18 (by norm_num) hR (1 / 144) (by norm_num)
      (by norm_num [threeSamples]) (by norm_num) _ B hB (lt_of_le_of_lt hz (by norm_num)) h1 a h2
    norm_num [threeSamples] at this
    exact this
  · refine Trained.frankwolfe (fun _ => [1, 0]) ⟨⟨30000, 1, 1, false, true, 1, false⟩, none, none, ⟨[], []⟩⟩ o2 rfl rfl rfl rfl
      rfl rfl (by norm_num) (fun _ => (List.Perm.swap 0 1 [])) 18 hR _ B hB ?_ h3 v h4
    norm_num [threeSamples]
    nlinarith

end Verif.Props
