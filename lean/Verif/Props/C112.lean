import Verif.Lemmas.Span
import Verif.Spec.Span
import Verif.Props.C111

/-!
# C112: learned weights are combinations of differences of joint features
-/

namespace Verif.Props

open Finset Verif.Common Verif.Spec Verif.Learner Verif.Lemmas Verif.Unstructured
open Verif.GraphCRF (Infer)
open Verif.EdgeFeature (checkModel)

variable {X Y : Type}

/-- Weights after `fit` of a margin learner, whatever its parameters, solvers, order of samples and interrupts. The first two learners
may have been trained before (`warm_start=False`); the other two continue from weights they have, so they are fresh. `alt` is the
inference method to switch to, if any. -/
inductive Learned (m : SModel X Y) (alt : Option ((X → Y → W → Bool → Y) × (X → W → Y))) (samples : List (X × Y)) : W → Prop
  | oneslack (qp : QP.Solver) (eq : Y → Y → Except PyErr Bool) (intr : ℕ → Option OneSlack.Phase) (o o' : OneSlack.Obj Y)
      (h : OneSlack.fit m qp eq alt intr o samples .no = .ok o') (a : OneSlack.Attrs Y) (ha : o'.attrs = some a) :
      Learned m alt samples a.w
  | nslack (qp : QP.Solver) (eq : Y → Y → Bool) (intr : ℕ → ℕ → Option OneSlack.Phase) (o o' : NSlack.Obj Y) (out : NSlack.Outcome)
      (h : NSlack.fit m qp eq alt intr o samples none = .ok (o', out)) (a : NSlack.Attrs Y) (ha : o'.attrs = some a) :
      Learned m alt samples a.w
  | frankwolfe (order : ℕ → List ℕ) (o o' : FrankWolfe.Obj) (hw : o.w = none)
      (h : FrankWolfe.fit m order o samples = .ok o') (w : W) (hw' : o'.w = some w) : Learned m alt samples w
  | subgradient (order : ℕ → List (X × Y)) (hord : ∀ it, ∀ s ∈ order it, s ∈ samples) (o o' : Subgradient.Obj) (warm : Bool)
      (hw : o.w = none) (h : Subgradient.fit m order o samples warm = .ok o') (w : W) (hw' : o'.w = some w) : Learned m alt samples w

/-! ### combinations -/

theorem combination_linear (P : W → Prop) : LinearSpace (Combination P) where
  zero := ⟨[], by simp, by simp⟩
  add := by
    rintro u v ⟨t, ht, hu⟩ ⟨t', ht', hv⟩
    refine ⟨t ++ t', fun p hp => ?_, fun k => ?_⟩
    · rcases List.mem_append.mp hp with hp | hp
      · exact ht p hp
      · exact ht' p hp
    · change u k + v k = _
      rw [hu, hv, List.map_append, List.sum_append]
  smul := by
    rintro c u ⟨t, ht, hu⟩
    refine ⟨t.map fun p => (c * p.1, p.2), fun p hp => ?_, fun k => ?_⟩
    · obtain ⟨q, hq, rfl⟩ := List.mem_map.mp hp
      exact ht q hq
    · change c * u k = _
      rw [hu, List.map_map, ← List.sum_map_mul_left]
      refine congrArg List.sum (List.map_congr_left fun p _ => ?_)
      simp only [Function.comp]
      ring

theorem combination_single {P : W → Prop} {u : W} (h : P u) : Combination P u :=
  ⟨[(1, u)], by simpa using h, by simp⟩

/-- Combinations of elements of a linear space are in the space. -/
theorem combination_in {P V : W → Prop} (hV : LinearSpace V) (hP : ∀ u, P u → V u) {w : W} (h : Combination P w) : V w := by
  obtain ⟨t, ht, hw⟩ := h
  rw [show w = _ from funext hw]
  clear hw
  induction t with
  | nil => simpa using hV.zero
  | cons p t ih =>
    simp only [List.map_cons, List.sum_cons]
    exact hV.add _ _ (hV.smul _ _ (hP _ (ht p List.mem_cons_self))) (ih fun q hq => ht q (List.mem_cons_of_mem _ hq))

/-- Whatever space contains the differences for all outputs that loss-augmented inference returns contains the learned weights. -/
theorem learned_in {m : SModel X Y} {alt : Option ((X → Y → W → Bool → Y) × (X → W → Y))} {samples : List (X × Y)} {w : W}
    {V : W → Prop} (hV : LinearSpace V) (hm : SpanIn V m samples) (ha : AltIn V m samples alt) (h : Learned m alt samples w) : V w := by
  cases h with
  | oneslack qp eq intr o o' h a hat => exact one_fit_w hV hm ha (.inl rfl) h a hat
  | nslack qp eq intr o o' out h a hat => exact (n_fit_in hV hm ha (by simp) h a hat).1
  | frankwolfe order o o' hw h w hw' => exact fw_fit_in hV hm (by rw [hw]; simp) h w hw'
  | subgradient order hord o o' warm hw h w hw' => exact sub_fit_in hV hm hord (by rw [hw]; simp) h w hw'

theorem difference_in {m : SModel X Y} (hr : m.rescaleC = false) {outs : X × Y → Set Y} {samples : List (X × Y)} {s : X × Y}
    (hs : s ∈ samples) {y : Y} (hy : y ∈ outs s) : DiffIn (Combination (IsDifference m.jointFeature outs samples)) m s y := by
  have hf : ∀ x y z, m.feat x y z = m.jointFeature x y := by
    intro x y z
    unfold SModel.feat
    rw [hr]
    rfl
  have : Combination (IsDifference m.jointFeature outs samples) fun k => m.jointFeature s.1 s.2 k - m.jointFeature s.1 y k :=
    combination_single ⟨s, hs, y, hy, rfl⟩
  unfold DiffIn
  simp only [hf]
  exact ⟨this, this, this⟩

/-! ### the learners -/

/-- **C112.** The weights learned by `OneSlackSSVM`, `NSlackSSVM`, `FrankWolfeSSVM` and `SubgradientSSVM` are linear combinations of
differences `joint_feature(x, y) - joint_feature(x, y_hat)`, where `(x, y)` is a training sample and `y_hat` an output that
loss-augmented inference returns for it. -/
theorem C112_representer (m : SModel X Y) (hr : m.rescaleC = false) (outs : X × Y → Set Y) (samples : List (X × Y))
    (hla : ∀ s ∈ samples, ∀ w, m.lossAug s.1 s.2 w true ∈ outs s)
    (alt : Option ((X → Y → W → Bool → Y) × (X → W → Y)))
    (halt : ∀ la inf, alt = some (la, inf) → ∀ s ∈ samples, ∀ w, la s.1 s.2 w true ∈ outs s)
    (w : W) (h : Learned m alt samples w) : Combination (IsDifference m.jointFeature outs samples) w :=
  learned_in (combination_linear _) (fun s hs w => difference_in hr hs (hla s hs w))
    (fun la inf hal s hs w => difference_in (m := m) hr hs (halt la inf hal s hs w)) h

/-- **C112, perceptron.** The weights learned by `StructuredPerceptron` are such combinations, for outputs that inference returns. -/
theorem C112_perceptron (m : SModel X Y) (hr : m.rescaleC = false) (outs : X × Y → Set Y) (samples : List (X × Y))
    (hinf : ∀ s ∈ samples, ∀ w, m.inference s.1 w ∈ outs s) (o o' : Perceptron.Obj)
    (h : Perceptron.fit m o samples = .ok o') : Combination (IsDifference m.jointFeature outs samples) o'.w :=
  per_fit_in (combination_linear _) (fun s hs w => difference_in hr hs (hinf s hs w)) h

/-- **C112, relations.** A linear function of the joint feature that has the same value for all outputs of a training instance, such as
a feature that does not depend on the output, is zero on the weights. -/
theorem C112_relation (dim : ℕ) (feature : X → Y → W) (outs : X × Y → Set Y) (samples : List (X × Y)) (a : ℕ → ℚ)
    (ha : ∀ s ∈ samples, ∀ y ∈ outs s,
      ∑ k ∈ range dim, a k * feature s.1 y k = ∑ k ∈ range dim, a k * feature s.1 s.2 k)
    (w : W) (h : Combination (IsDifference feature outs samples) w) : ∑ k ∈ range dim, a k * w k = 0 := by
  refine combination_in (V := fun w => ∑ k ∈ range dim, a k * w k = 0) ⟨by simp, ?_, ?_⟩ ?_ h
  · intro u v hu hv
    simp only [mul_add, sum_add_distrib, hu, hv, add_zero]
  · intro c u hu
    have : ∑ k ∈ range dim, a k * (c * u k) = c * ∑ k ∈ range dim, a k * u k := by
      rw [mul_sum]
      exact sum_congr rfl fun k _ => by ring
    rw [this, hu, mul_zero]
  · rintro u ⟨s, hs, y, hy, rfl⟩
    simp only [mul_sub, sum_sub_distrib]
    rw [ha s hs y hy, sub_self]

/-- **C112, constant features.** The weight of a feature that has the same value for all outputs of each training instance stays
zero. -/
theorem C112_constant_feature (feature : X → Y → W) (outs : X × Y → Set Y) (samples : List (X × Y)) (k : ℕ)
    (ha : ∀ s ∈ samples, ∀ y ∈ outs s, feature s.1 y k = feature s.1 s.2 k)
    (w : W) (h : Combination (IsDifference feature outs samples) w) : w k = 0 := by
  have := C112_relation (k + 1) feature outs samples (fun j => if j = k then 1 else 0) (fun s hs y hy => by simp [ha s hs y hy]) w h
  simpa using this

/-! ### `MultiClassClf` -/

theorem mc_feature_sum (m : MultiClass) (hr : m.rescaleC = false) (x : ℕ → ℚ) {y : ℕ} (hy : y < m.nStates) {f : ℕ}
    (hf : f < m.nFeatures) : ∑ c ∈ range m.nStates, (multiClassModel m).jointFeature x y (c * m.nFeatures + f) = x f := by
  change ∑ c ∈ range m.nStates, (okD ⟨0, fun _ => 0⟩ (mcJointFeature m ⟨m.nFeatures, x⟩ y none)).get (c * m.nFeatures + f) = x f
  unfold mcJointFeature
  rw [if_neg (by omega), if_neg (by simp), hr]
  simp only [Bool.false_eq_true, if_false, okD, Mat.ravel, flat_div hf, flat_mod hf]
  rw [sum_ite_eq' (range m.nStates) y, if_pos (mem_range.mpr hy)]

/-- **C112, `MultiClassClf`.** Per feature, the weights of the classes learned by a margin learner add up to zero. -/
theorem C112_multiclass (m : MultiClass) (hr : m.rescaleC = false) (hS : 0 < m.nStates) (hc : m.classWeight.size = m.nStates)
    (samples : List ((ℕ → ℚ) × ℕ)) (hl : ∀ s ∈ samples, s.2 < m.nStates) (w : W)
    (h : Learned (multiClassModel m) none samples w) (f : ℕ) (hf : f < m.nFeatures) :
    ∑ c ∈ range m.nStates, w (c * m.nFeatures + f) = 0 := by
  have h1 := C112_representer (multiClassModel m) hr (fun _ => {c | c < m.nStates}) samples (fun s hs w => ?_) none (by simp) w h
  · refine combination_in (V := fun w => ∑ c ∈ range m.nStates, w (c * m.nFeatures + f) = 0) ⟨by simp, ?_, ?_⟩ ?_ h1
    · intro u v hu hv
      simp only [sum_add_distrib, hu, hv, add_zero]
    · intro c u hu
      simp only [← mul_sum, hu, mul_zero]
    · rintro u ⟨s, hs, y, hy, rfl⟩
      rw [sum_sub_distrib, mc_feature_sum m hr s.1 (hl s hs) hf, mc_feature_sum m hr s.1 hy hf, sub_self]
  · change okD 0 (mcLossAugmented m ⟨m.nFeatures, s.1⟩ s.2 ⟨m.size, w⟩) < m.nStates
    unfold mcLossAugmented
    rw [mcScores_ok hS rfl rfl, hr]
    simp only [Bool.false_eq_true, if_false]
    rw [if_neg (by rw [hc]; have := hl s hs; omega)]
    exact argmaxN_lt _ hS

/-! ### `GraphCRF` -/

/-- Linear functions of the weights, evaluated at the joint feature of a (relaxed) output. -/
theorem graph_feature_value {m : GraphCRF.Model} {x : GraphCRF.X} (hx : Fits m x) (hS : 1 ≤ m.nStates) {v : YVal}
    (hv : IsRelaxed x.features.rows m.nStates x.edges v) (a : ℕ → ℚ) :
    ∑ k ∈ range (GraphCRF.sizeJointFeature m), a k * graphFeature m x v k =
      outputScore x.features.rows m.nStates x.edges (GraphCRF.UN m x.features a) (GraphCRF.PW m a) v :=
  value_output hx.2.1 hx.2.2 hS hv a

theorem symEntry_const (c : ℚ) (i j : ℕ) : Sym.symEntry (fun _ => c) i j = c := by
  unfold Sym.symEntry
  rcases lt_trichotomy i j with h | h | h
  · rw [if_neg (by omega), if_pos h.le, if_neg (by omega)]; ring
  · subst h; simp
  · rw [if_pos h.le, if_neg (by omega), if_neg (by omega)]; ring

theorem size_graph (m : GraphCRF.Model) : m.nStates * m.nFeatures ≤ GraphCRF.sizeJointFeature m := by
  unfold GraphCRF.sizeJointFeature
  split <;> omega

theorem pairwise_const (m : GraphCRF.Model) (c : ℚ) (g : ℕ → ℚ) (a b : ℕ) :
    GraphCRF.PW m (fun k => if k < m.nStates * m.nFeatures then g k else c) a b = c := by
  unfold GraphCRF.PW
  simp only [show ∀ k, ¬ m.nStates * m.nFeatures + k < m.nStates * m.nFeatures from fun k => by omega, if_false]
  rw [symEntry_const]
  exact ite_self _

theorem unary_const (m : GraphCRF.Model) (c : ℚ) (g : ℕ → ℚ) (x : Mat) (i : ℕ) {s : ℕ} (hs : s < m.nStates) :
    GraphCRF.UN m x (fun k => if k < m.nStates * m.nFeatures then g k else c) i s =
      ∑ f ∈ range m.nFeatures, x.get i f * g (s * m.nFeatures + f) := by
  unfold GraphCRF.UN
  exact sum_congr rfl fun f hf => by simp only [if_pos (flat_lt hs (mem_range.mp hf))]

theorem edge_ends {n : ℕ} {edges : Edges} (h : EdgesIn n edges) {e : ℕ} (he : e < edges.length) :
    (edges.getD e (0, 0)).1 < n ∧ (edges.getD e (0, 0)).2 < n := by
  rw [List.getD_eq_getElem _ _ he]
  exact h _ (List.getElem_mem he)

/-- **C112, `GraphCRF`.** Per unary feature, the weights of the states add up to zero, and the pairwise weights add up to zero,
whatever inference method is used. -/
theorem C112_graph (backend : Bool → Infer) (cw : Vec) (m : GraphCRF.Model) (hS : 1 ≤ m.nStates) (samples : List (GraphCRF.X × YVal))
    (hs : ∀ s ∈ samples, Fits m s.1 ∧ IsLabelling s.1.features.rows m.nStates s.2)
    (hla : ∀ s ∈ samples, ∀ w, IsRelaxed s.1.features.rows m.nStates s.1.edges ((graphModel backend cw m).lossAug s.1 s.2 w true))
    (w : W) (h : Learned (graphModel backend cw m) none samples w) :
    (∀ f < m.nFeatures, ∑ s ∈ range m.nStates, w (s * m.nFeatures + f) = 0) ∧
    ∑ k ∈ Ico (m.nStates * m.nFeatures) (GraphCRF.sizeJointFeature m), w k = 0 := by
  have h1 := C112_representer (graphModel backend cw m) rfl (fun s => {v | IsRelaxed s.1.features.rows m.nStates s.1.edges v}) samples
    hla none (by simp) w h
  have key := C112_relation (GraphCRF.sizeJointFeature m) (graphModel backend cw m).jointFeature
    (fun s => {v | IsRelaxed s.1.features.rows m.nStates s.1.edges v}) samples
  constructor
  · intro f hf
    have h2 := key (fun k => if k < m.nStates * m.nFeatures then (if k % m.nFeatures = f then 1 else 0) else 0) ?_ w h1
    · rw [range_eq_Ico, ← sum_Ico_consecutive _ (Nat.zero_le _) (size_graph m), ← range_eq_Ico] at h2
      rw [sum_eq_zero (s := Ico _ _) fun k hk => by rw [if_neg (by have := (mem_Ico.mp hk).1; omega), zero_mul], add_zero,
        sum_range_mul'] at h2
      rw [← h2]
      refine sum_congr rfl fun s hs => ?_
      rw [sum_congr rfl fun g hg => by
        rw [if_pos (flat_lt (mem_range.mp hs) (mem_range.mp hg)), flat_mod (mem_range.mp hg), ite_mul, one_mul, zero_mul],
        sum_ite_eq' (range m.nFeatures) f, if_pos (mem_range.mpr hf)]
    · intro s hs' v hv
      obtain ⟨hfit, hlab⟩ := hs s hs'
      have : ∀ v, IsRelaxed s.1.features.rows m.nStates s.1.edges v →
          ∑ k ∈ range (GraphCRF.sizeJointFeature m), (if k < m.nStates * m.nFeatures then (if k % m.nFeatures = f then 1 else 0) else 0) *
            graphFeature m s.1 v k = ∑ i ∈ range s.1.features.rows, s.1.features.get i f := by
        intro v hv
        have hp := isRelaxed_polytope hfit.2.2 hv
        rw [graph_feature_value hfit hS hv]
        unfold outputScore marginalScore
        simp only [pairwise_const, zero_mul, sum_const_zero, add_zero]
        refine sum_congr rfl fun i hi => ?_
        rw [sum_congr rfl fun t ht => by
          rw [unary_const m 0 _ s.1.features i (mem_range.mp ht), sum_congr rfl fun g hg => by
            rw [flat_mod (mem_range.mp hg), mul_ite, mul_one, mul_zero], sum_ite_eq' (range m.nFeatures) f,
            if_pos (mem_range.mpr hf)], ← mul_sum, hp.normalised i (mem_range.mp hi), mul_one]
      exact (this v hv).trans (this s.2 (.inl hlab)).symm
  · have h2 := key (fun k => if k < m.nStates * m.nFeatures then 0 else 1) ?_ w h1
    · rw [range_eq_Ico, ← sum_Ico_consecutive _ (Nat.zero_le _) (size_graph m), ← range_eq_Ico] at h2
      rw [sum_eq_zero (s := range _) fun k hk => by rw [if_pos (mem_range.mp hk), zero_mul], zero_add] at h2
      rw [← h2]
      exact sum_congr rfl fun k hk => by rw [if_neg (by have := (mem_Ico.mp hk).1; omega), one_mul]
    · intro s hs' v hv
      obtain ⟨hfit, hlab⟩ := hs s hs'
      have : ∀ v, IsRelaxed s.1.features.rows m.nStates s.1.edges v →
          ∑ k ∈ range (GraphCRF.sizeJointFeature m), (if k < m.nStates * m.nFeatures then 0 else 1) *
            graphFeature m s.1 v k = (s.1.edges.length : ℚ) := by
        intro v hv
        have hp := isRelaxed_polytope hfit.2.2 hv
        rw [graph_feature_value hfit hS hv]
        unfold outputScore marginalScore
        simp only [pairwise_const, one_mul]
        rw [sum_eq_zero fun i _ => sum_eq_zero fun t ht => by
          rw [unary_const m 1 _ s.1.features i (mem_range.mp ht)]; simp, zero_add]
        rw [sum_congr rfl fun e he => by
          rw [sum_congr rfl fun a ha => hp.first e (mem_range.mp he) a (mem_range.mp ha),
            hp.normalised _ (edge_ends hfit.2.2 (mem_range.mp he)).1]]
        simp
      exact (this v hv).trans (this s.2 (.inl hlab)).symm

/-! ### `EdgeFeatureGraphCRF` -/

theorem respects_linear (S F : ℕ) (sym anti : List ℕ) : LinearSpace (RespectsSymmetry S F sym anti) where
  zero := ⟨by simp, by simp⟩
  add := fun u v hu hv => ⟨fun k hk a ha b hb => by simp only; rw [hu.1 k hk a ha b hb, hv.1 k hk a ha b hb],
    fun k hk a ha b hb => by simp only; rw [hu.2 k hk a ha b hb, hv.2 k hk a ha b hb]; ring⟩
  smul := fun c u hu => ⟨fun k hk a ha b hb => by simp only; rw [hu.1 k hk a ha b hb],
    fun k hk a ha b hb => by simp only; rw [hu.2 k hk a ha b hb]; ring⟩

theorem edgeFeature_respects {m : EdgeFeature.Model} (hmod : checkModel m = .ok ()) (x : EdgeFeature.X) (y : YVal) :
    RespectsSymmetry m.nStates m.nFeatures m.sym m.anti (EdgeFeature.edgeFeature m x y) := by
  unfold EdgeFeature.edgeFeature
  cases h : EdgeFeature.jointFeature EdgeFeature.checkSizeX m x y with
  | error e => exact (respects_linear _ _ _ _).zero
  | ok ψ => exact C16_joint_feature_blocks m x y ψ hmod h

theorem edge_diff_in {backend : Bool → Infer} {cw : Vec} {m : EdgeFeature.Model} (hmod : checkModel m = .ok ())
    (s : EdgeFeature.X × YVal) (y : YVal) :
    DiffIn (RespectsSymmetry m.nStates m.nFeatures m.sym m.anti) (EdgeFeature.edgeModel backend cw m) s y := by
  have := (respects_linear m.nStates m.nFeatures m.sym m.anti).sub (edgeFeature_respects hmod s.1 s.2) (edgeFeature_respects hmod s.1 y)
  exact ⟨this, this, this⟩

/-- **C112, `EdgeFeatureGraphCRF`.** The learned weights of an edge feature declared symmetric are symmetric matrices, and of one
declared antisymmetric antisymmetric, for all data, learners and inference methods. -/
theorem C112_edge_symmetry (backend : Bool → Infer) (cw : Vec) (m : EdgeFeature.Model) (hmod : checkModel m = .ok ())
    (alt : Option ((EdgeFeature.X → YVal → W → Bool → YVal) × (EdgeFeature.X → W → YVal)))
    (samples : List (EdgeFeature.X × YVal)) (w : W) (h : Learned (EdgeFeature.edgeModel backend cw m) alt samples w) :
    RespectsSymmetry m.nStates m.nFeatures m.sym m.anti w :=
  learned_in (respects_linear _ _ _ _) (fun s _ _ => edge_diff_in hmod s _)
    (fun _ _ _ s _ _ => (edge_diff_in (backend := backend) (cw := cw) hmod s _ :)) h

/-- The same for the perceptron. -/
theorem C112_edge_symmetry_perceptron (backend : Bool → Infer) (cw : Vec) (m : EdgeFeature.Model) (hmod : checkModel m = .ok ())
    (samples : List (EdgeFeature.X × YVal)) (o o' : Perceptron.Obj)
    (h : Perceptron.fit (EdgeFeature.edgeModel backend cw m) o samples = .ok o') :
    RespectsSymmetry m.nStates m.nFeatures m.sym m.anti o'.w :=
  per_fit_in (respects_linear _ _ _ _) (fun s _ _ => edge_diff_in hmod s _) h

/-! ### the hypotheses can be met -/

open Verif.MaxProd (maxProductInfer)

/-- two states, one feature, an edge feature declared symmetric and one declared antisymmetric. -/
def symModel : EdgeFeature.Model := ⟨2, 1, 2, [0], [1]⟩

/-- a chain with its labels. -/
def symChain : List (EdgeFeature.X × YVal) :=
  [(⟨⟨3, 1, fun i _ => i + 1⟩, [(0, 1), (1, 2)], ⟨2, 2, fun e k => e + k⟩⟩, .discrete ⟨3, fun i => if i = 2 then 1 else 0⟩)]

/-- two epochs of subgradient training, evaluated. -/
theorem learned_run {m : SModel X Y} {samples : List (X × Y)} {p : W → Bool}
    (h : ((Subgradient.fit m (fun _ => samples) (exampleSG 2 1 none .none) samples false).toOption.bind fun o => o.w.map p) =
      some true) : ∃ w, Learned m none samples w ∧ p w = true := by
  cases hf : Subgradient.fit m (fun _ => samples) (exampleSG 2 1 none .none) samples false with
  | error e => rw [hf] at h; cases h
  | ok o =>
    rw [hf] at h
    cases hw : o.w with
    | none => simp [Except.toOption, hw] at h
    | some w =>
      simp only [Except.toOption, Option.bind_some, hw, Option.map_some, Option.some.injEq] at h
      exact ⟨w, .subgradient (fun _ => samples) (fun _ _ hs => hs) _ o false rfl hf w hw, h⟩

/-- weights are learned, the pairwise ones are not zero, and they respect the declared symmetry. -/
example : ∃ w, Learned (EdgeFeature.edgeModel (fun _ => maxProductInfer {}) ⟨2, fun _ => 1⟩ symModel) none symChain w ∧
    w 7 ≠ 0 ∧ RespectsSymmetry 2 1 [0] [1] w := by
  obtain ⟨w, h, hp⟩ := learned_run (m := EdgeFeature.edgeModel (fun _ => maxProductInfer {}) ⟨2, fun _ => 1⟩ symModel)
    (samples := symChain) (p := fun w => decide (w 7 ≠ 0)) (by decide +kernel)
  exact ⟨w, h, of_decide_eq_true hp, C112_edge_symmetry _ _ symModel rfl none _ _ h⟩

example : ∃ o', Perceptron.fit (EdgeFeature.edgeModel (fun _ => maxProductInfer {}) ⟨2, fun _ => 1⟩ symModel)
    ⟨⟨2, false, fun _ => 1⟩, .off, fun _ => 0, []⟩ symChain = .ok o' ∧ RespectsSymmetry 2 1 [0] [1] o'.w := by
  obtain ⟨o', h⟩ : ∃ o', Perceptron.fit (EdgeFeature.edgeModel (fun _ => maxProductInfer {}) ⟨2, fun _ => 1⟩ symModel)
      ⟨⟨2, false, fun _ => 1⟩, .off, fun _ => 0, []⟩ symChain = .ok o' := ⟨_, rfl⟩
  exact ⟨o', h, C112_edge_symmetry_perceptron _ _ symModel rfl _ _ _ h⟩

/-- a model with three classes: the class weights that are learned are not zero and add up to zero. -/
example : ∃ w, Learned (multiClassModel (threeClf false)) none threeSamples w ∧ w 0 ≠ 0 ∧
    ∑ c ∈ range 3, w (c * (threeClf false).nFeatures + 0) = 0 := by
  obtain ⟨w, h, hp⟩ := learned_run (m := multiClassModel (threeClf false)) (samples := threeSamples)
    (p := fun w => decide (w 0 ≠ 0)) (by decide +kernel)
  exact ⟨w, h, of_decide_eq_true hp, C112_multiclass (threeClf false) rfl (by decide) rfl threeSamples (by decide) w h 0 (by decide)⟩

/-- a chain: `C112_graph` applies with an exact method. -/
example : ∃ w, Learned (graphModel (fun _ => maxProductInfer {}) chainExampleWeights chainExampleModel) none
    (chainSamples chainExampleData) w ∧ w 0 ≠ 0 ∧ ∑ s ∈ range 2, w (s * 1 + 0) = 0 := by
  obtain ⟨w, h, hp⟩ := learned_run (m := graphModel (fun _ => maxProductInfer {}) chainExampleWeights chainExampleModel)
    (samples := chainSamples chainExampleData) (p := fun w => decide (w 0 ≠ 0)) (by decide +kernel)
  have hdata : ∀ s ∈ chainSamples chainExampleData, Fits chainExampleModel s.1 ∧ s.1.edges = chainEdges s.1.features.rows ∧
      IsLabelling s.1.features.rows 2 s.2 := by
    intro s hs
    obtain ⟨d, hd, rfl⟩ := List.mem_map.mp hs
    obtain ⟨h1, h2, h3, h4⟩ := chainExample_data d hd
    have he : GraphCRF.makeChainEdges d.1.rows = chainEdges d.1.rows := MaxProd.makeChainEdges_eq _
    exact ⟨⟨h1, h2, by change EdgesIn d.1.rows (GraphCRF.makeChainEdges d.1.rows); rw [he]; exact MaxProd.chainEdges_in _⟩, he, d.2, rfl, h3, h4⟩
  refine ⟨w, h, of_decide_eq_true hp, (C112_graph _ _ chainExampleModel (by decide) _ (fun s hs => ⟨(hdata s hs).1, (hdata s hs).2.2⟩) ?_
    w h).1 0 (by decide)⟩
  intro s hs w
  obtain ⟨hfit, hch, y, hy, hys, hyv⟩ := hdata s hs
  have hex := graph_exact (backend := fun _ => maxProductInfer {}) (cw := chainExampleWeights) (m := chainExampleModel) (by decide) rfl
    (O := chainOutputs 2) (fun n edges v hv => .inl hv.2) true (chain_solves {} (by decide)) s.1 s.2 w ⟨hfit, hch, y, hy, hys, hyv⟩
    ((graph_labelled (O := chainOutputs 2) (samples := chainSamples chainExampleData) (by decide) rfl
      (fun s hs => ⟨(hdata s hs).2.2, (hdata s hs).1, (hdata s hs).2.1, (hdata s hs).2.2⟩) s hs).2)
  exact .inl hex.1.2.2

end Verif.Props
