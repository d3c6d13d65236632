import Verif.Props.C160
import Verif.Props.C114
import Verif.Props.C108

/-!
# C161: a `MultiLabelClf` without edges is one binary classifier per label
-/

namespace Verif.Props

open Finset Verif.Common Verif.Spec Verif.Learner Verif.Lemmas
open Verif.GraphCRF (Infer checkSizeW_ok)
open Verif.MultiLabel (multiLabelModel multiLabelFeature)

/-- Sign of a 0/1 entry. -/
def entrySign (b : ℕ) : ℤ := if b = 0 then -1 else 1

/-- The samples with the sign of one label, as samples of a binary classifier. -/
def labelSamples (l : ℕ) (data : List (Vec × Labels)) : List ((ℕ → ℚ) × ℤ) :=
  data.map fun d => (d.1.get, entrySign (d.2.get l))

/-- The weights of one label. -/
def labelBlock (F l : ℕ) (w : ℕ → ℚ) : ℕ → ℚ := fun f => w (l * F + f)

/-- Regularised hinge loss of one label with margins `c 0`, `c 1` for the two entries; scores of entries differ by twice the score. -/
def labelRisk (F : ℕ) (C : ℚ) (c : ℕ → ℚ) (l : ℕ) (data : List (Vec × Labels)) (v : ℕ → ℚ) : ℚ :=
  (∑ f ∈ range F, v f ^ 2) / 2 +
    C * (data.map fun d => max 0 (c (d.2.get l) - 2 * entrySign (d.2.get l) * ∑ f ∈ range F, v f * d.1.get f)).sum

theorem mlU_sign (m : MultiLabel.Model) (x : Vec) (w : ℕ → ℚ) (l s : ℕ) :
    mlU m x w l s = entrySign s * ∑ f ∈ range m.nFeatures, labelBlock m.nFeatures l w f * x.get f := by
  have h : ∑ f ∈ range m.nFeatures, x.get f * w (l * m.nFeatures + f) =
      ∑ f ∈ range m.nFeatures, labelBlock m.nFeatures l w f * x.get f := sum_congr rfl fun f _ => mul_comm _ _
  unfold mlU entrySign
  rw [h]
  split <;> simp

/-- the violation of an output is the sum of the violations at the labels. -/
theorem mlFree_violation {backend : Bool → Infer} {cw : Vec} {m : MultiLabel.Model} (hc : 2 ≤ cw.size) (hE : m.edges = [])
    {outputs : Vec → Set YVal} {x : Vec} (hx : MultiLabelFits m x) {y z : Labels} (ys : y.size = m.nLabels)
    (yv : Valid m.nLabels 2 y.get) (zs : z.size = m.nLabels) (zv : Valid m.nLabels 2 z.get) (w : W) :
    (problemOf (multiLabelModel backend cw m) outputs).violation w x (.discrete y) (.discrete z) =
      ∑ l ∈ range m.nLabels, if z.get l = y.get l then 0 else cw.get (y.get l) -
        2 * entrySign (y.get l) * ∑ f ∈ range m.nFeatures, labelBlock m.nFeatures l w f * x.get f := by
  have val : ∀ t : Labels, t.size = m.nLabels → Valid m.nLabels 2 t.get →
      (problemOf (multiLabelModel backend cw m) outputs).value w x (.discrete y) (.discrete t) =
        ∑ l ∈ range m.nLabels, mlU m x w l (t.get l) := by
    intro t ts tv
    have h := ml_value hx (v := .discrete t) (.inl ⟨t, rfl, ts, tv⟩) w
    rw [edgeScore_labelling hx.2.2 tv] at h
    refine Eq.trans h ?_
    unfold Spec.score
    rw [hE]
    simp
  have hl : (problemOf (multiLabelModel backend cw m) outputs).loss (.discrete y) (.discrete z) =
      weightedHamming m.nLabels cw.get y.get z.get := by
    change okD 0 (Loss.loss (some cw) y z) = _
    rw [loss_some_ok ys zs fun i hi => (yv i hi).trans_le hc]
    rfl
  unfold Problem.violation
  rw [val z zs zv, val y ys yv, hl]
  unfold weightedHamming
  rw [← sum_add_distrib, ← sum_sub_distrib]
  refine sum_congr rfl fun l hl => ?_
  rw [mlU_sign, mlU_sign]
  by_cases e : y.get l = z.get l
  · rw [if_pos e, if_pos e.symm, e]; ring
  · rw [if_neg e, if_neg (Ne.symm e)]
    have h1 := yv l (mem_range.mp hl)
    have h2 := zv l (mem_range.mp hl)
    have h3 : (entrySign (z.get l) : ℚ) = -entrySign (y.get l) := by
      generalize y.get l = a at *
      generalize z.get l = b at *
      interval_cases a <;> interval_cases b <;> simp [entrySign] at e ⊢
    rw [h3]
    ring

theorem mlFree_hinge {backend : Bool → Infer} {cw : Vec} {m : MultiLabel.Model} (hc : 2 ≤ cw.size) (hE : m.edges = [])
    {x : Vec} (hx : MultiLabelFits m x) {y : Labels} (ys : y.size = m.nLabels) (yv : Valid m.nLabels 2 y.get) (w : W) (h : ℚ) :
    (problemOf (multiLabelModel backend cw m) (multiLabelOutputs m (edgeFree 2))).IsHinge w x (.discrete y) h ↔
      h = ∑ l ∈ range m.nLabels, max 0 (cw.get (y.get l) -
        2 * entrySign (y.get l) * ∑ f ∈ range m.nFeatures, labelBlock m.nFeatures l w f * x.get f) := by
  set r : ℕ → ℚ := fun l => cw.get (y.get l) -
        2 * entrySign (y.get l) * ∑ f ∈ range m.nFeatures, labelBlock m.nFeatures l w f * x.get f with hr
  have key : (problemOf (multiLabelModel backend cw m) (multiLabelOutputs m (edgeFree 2))).IsHinge w x (.discrete y)
      (∑ l ∈ range m.nLabels, max 0 (r l)) := by
    constructor
    · have zv : Valid m.nLabels 2 fun l => if r l ≤ 0 then y.get l else 1 - y.get l := by
        intro l hl
        have := yv l hl
        change (if r l ≤ 0 then y.get l else 1 - y.get l) < 2
        split <;> omega
      refine ⟨.discrete ⟨m.nLabels, fun l => if r l ≤ 0 then y.get l else 1 - y.get l⟩, ⟨hx, hE, _, rfl, rfl, zv⟩, ?_⟩
      rw [mlFree_violation hc hE hx ys yv (z := ⟨m.nLabels, fun l => if r l ≤ 0 then y.get l else 1 - y.get l⟩) rfl zv w]
      refine sum_congr rfl fun l hl => ?_
      have h1 := yv l (mem_range.mp hl)
      change max 0 (r l) = (if (if r l ≤ 0 then y.get l else 1 - y.get l) = y.get l then 0 else r l)
      by_cases h0 : r l ≤ 0
      · rw [if_pos h0, if_pos rfl, max_eq_left h0]
      · rw [if_neg h0, if_neg (by omega), max_eq_right (not_le.mp h0).le]
    · rintro v ⟨_, ⟨-, -, z, rfl, zs, zv⟩, rfl⟩
      rw [mlFree_violation hc hE hx ys yv zs zv w]
      refine sum_le_sum fun l _ => ?_
      split
      · exact le_max_left _ _
      · exact le_max_right _ _
  exact ⟨fun hh => hh.unique key, fun hh => hh ▸ key⟩

theorem mlFree_dim {m : MultiLabel.Model} (hE : m.edges = []) : MultiLabel.sizeJointFeature m = m.nLabels * m.nFeatures := by
  unfold MultiLabel.sizeJointFeature
  rw [hE, mul_comm]
  rfl

theorem sum_map_sum {α : Type} (data : List α) (n : ℕ) (f : α → ℕ → ℚ) :
    (data.map fun d => ∑ l ∈ range n, f d l).sum = ∑ l ∈ range n, (data.map fun d => f d l).sum := by
  induction data with
  | nil => simp
  | cons d r ih => simp only [List.map_cons, List.sum_cons, ih, sum_add_distrib]

/-- **C161, objective.** Without edges the regularised risk of a `MultiLabelClf` is the sum over labels of regularised hinge losses,
each of its own block of weights. -/
theorem C161_objective (backend : Bool → Infer) (cw : Vec) (m : MultiLabel.Model) (hc : 2 ≤ cw.size) (hE : m.edges = [])
    (data : List (Vec × Labels)) (hd : MultiLabelData m data) (C : ℚ) (w : W) (a : ℚ) :
    (problemOf (multiLabelModel backend cw m) (multiLabelOutputs m (edgeFree 2))).IsObjective C (labelled data) w a ↔
      a = ∑ l ∈ range m.nLabels, labelRisk m.nFeatures C cw.get l data (labelBlock m.nFeatures l w) := by
  have hs : ∀ hs : List ℚ, List.Forall₂ (fun s h =>
      (problemOf (multiLabelModel backend cw m) (multiLabelOutputs m (edgeFree 2))).IsHinge w s.1 s.2 h) (labelled data) hs ↔
      hs = data.map fun d => ∑ l ∈ range m.nLabels, max 0 (cw.get (d.2.get l) -
        2 * entrySign (d.2.get l) * ∑ f ∈ range m.nFeatures, labelBlock m.nFeatures l w f * d.1.get f) := by
    induction data with
    | nil => intro hs; simp [labelled]
    | cons d r ih =>
      intro hs
      obtain ⟨h1, h2, h3⟩ := hd d List.mem_cons_self
      have h4 := fun h => mlFree_hinge (backend := backend) hc hE h1 h2 h3 w h
      have h5 := ih (fun t ht => hd t (List.mem_cons_of_mem _ ht))
      cases hs with
      | nil => simp [labelled]
      | cons b bs =>
        change List.Forall₂ _ ((d.1, .discrete d.2) :: labelled r) _ ↔ _
        rw [List.forall₂_cons, h4, h5, List.map_cons, List.cons.injEq]
  have hn : (∑ k ∈ range (problemOf (multiLabelModel backend cw m) (multiLabelOutputs m (edgeFree 2))).dim, w k * w k) =
      ∑ l ∈ range m.nLabels, ∑ f ∈ range m.nFeatures, labelBlock m.nFeatures l w f ^ 2 := by
    change ∑ k ∈ range (MultiLabel.sizeJointFeature m), w k * w k = _
    rw [mlFree_dim hE, sum_range_mul']
    exact sum_congr rfl fun l _ => sum_congr rfl fun f _ => (pow_two _).symm
  have hr : ∑ l ∈ range m.nLabels, labelRisk m.nFeatures C cw.get l data (labelBlock m.nFeatures l w) =
      (∑ l ∈ range m.nLabels, ∑ f ∈ range m.nFeatures, labelBlock m.nFeatures l w f ^ 2) / 2 +
      C * (data.map fun d => ∑ l ∈ range m.nLabels, max 0 (cw.get (d.2.get l) -
        2 * entrySign (d.2.get l) * ∑ f ∈ range m.nFeatures, labelBlock m.nFeatures l w f * d.1.get f)).sum := by
    unfold labelRisk
    rw [sum_add_distrib, ← sum_div, ← mul_sum, sum_map_sum]
  unfold Problem.IsObjective
  rw [hn, hr]
  constructor
  · rintro ⟨hs', h1, rfl⟩
    rw [(hs hs').mp h1]
  · rintro rfl
    exact ⟨_, (hs _).mpr rfl, by ring⟩

/-- **C161, linear SVMs.** With unit class weights the risk of a label is a quarter of the objective of a linear support vector
machine with `4 C` on doubled weights. -/
theorem C161_linear (F : ℕ) (C : ℚ) (c : ℕ → ℚ) (l : ℕ) (data : List (Vec × Labels)) (hc : ∀ d ∈ data, c (d.2.get l) = 1)
    (v : ℕ → ℚ) : 4 * labelRisk F C c l data v = linearSVM F (4 * C) (labelSamples l data) fun f => 2 * v f := by
  unfold labelRisk linearSVM labelSamples
  rw [List.map_map]
  have h1 : ∑ k ∈ range F, (2 * v k) ^ 2 = 4 * ∑ k ∈ range F, v k ^ 2 := by
    rw [mul_sum]
    exact sum_congr rfl fun k _ => by ring
  have h2 : (data.map fun d => max 0 (c (d.2.get l) - 2 * entrySign (d.2.get l) * ∑ f ∈ range F, v f * d.1.get f)) =
      data.map ((fun s : (ℕ → ℚ) × ℤ => max 0 (1 - s.2 * ∑ k ∈ range F, 2 * v k * s.1 k)) ∘
        fun d => (d.1.get, entrySign (d.2.get l))) := by
    refine List.map_congr_left fun d hd => ?_
    simp only [Function.comp]
    rw [hc d hd]
    congr 2
    simp only [mul_assoc, ← mul_sum]
    ring
  rw [h1, h2]
  ring

theorem labelRisk_congr {F : ℕ} {C : ℚ} {c : ℕ → ℚ} {l : ℕ} {data : List (Vec × Labels)} {v u : ℕ → ℚ} (h : ∀ f < F, v f = u f) :
    labelRisk F C c l data v = labelRisk F C c l data u := by
  unfold labelRisk
  have h1 : ∑ f ∈ range F, v f ^ 2 = ∑ f ∈ range F, u f ^ 2 := sum_congr rfl fun f hf => by rw [h f (mem_range.mp hf)]
  rw [h1]
  congr 3
  refine List.map_congr_left fun d _ => ?_
  rw [sum_congr rfl fun f hf => by rw [h f (mem_range.mp hf)]]

/-- **C161, near optimality.** Weights of a `MultiLabelClf` without edges that are optimal up to `ε` minimise the risk of every
single label up to `ε`. -/
theorem C161_near (backend : Bool → Infer) (cw : Vec) (m : MultiLabel.Model) (hc : 2 ≤ cw.size) (hE : m.edges = [])
    (data : List (Vec × Labels)) (hd : MultiLabelData m data) (C ε : ℚ) (w : W)
    (h : (problemOf (multiLabelModel backend cw m) (multiLabelOutputs m (edgeFree 2))).NearOptimal C (labelled data) ε w)
    (l : ℕ) (hl : l < m.nLabels) (v : ℕ → ℚ) :
    labelRisk m.nFeatures C cw.get l data (labelBlock m.nFeatures l w) ≤ labelRisk m.nFeatures C cw.get l data v + ε := by
  obtain ⟨p, h1, h2⟩ := h
  rw [C161_objective backend cw m hc hE data hd] at h1
  have h3 := h2 (fun k => if k / m.nFeatures = l then v (k % m.nFeatures) else w k) _
    ((C161_objective backend cw m hc hE data hd C _ _).mpr rfl)
  rw [h1] at h3
  rw [← Finset.add_sum_erase _ _ (mem_range.mpr hl), ← Finset.add_sum_erase _ _ (mem_range.mpr hl)] at h3
  have h4 : ∑ j ∈ (range m.nLabels).erase l, labelRisk m.nFeatures C cw.get j data (labelBlock m.nFeatures j
      fun k => if k / m.nFeatures = l then v (k % m.nFeatures) else w k) =
      ∑ j ∈ (range m.nLabels).erase l, labelRisk m.nFeatures C cw.get j data (labelBlock m.nFeatures j w) := by
    refine sum_congr rfl fun j hj => labelRisk_congr fun f hf => ?_
    simp only [labelBlock]
    rw [flat_div hf, if_neg (mem_erase.mp hj).1]
  have h5 : labelRisk m.nFeatures C cw.get l data (labelBlock m.nFeatures l
      fun k => if k / m.nFeatures = l then v (k % m.nFeatures) else w k) = labelRisk m.nFeatures C cw.get l data v := by
    refine labelRisk_congr fun f hf => ?_
    simp only [labelBlock]
    rw [flat_div hf, flat_mod hf, if_pos rfl]
  rw [h4, h5] at h3
  linarith

/-- the unary method is exact without edges. -/
theorem edgeFree_unary_edges (P : Dispatch.Packages) {S : ℕ} (hS : 1 ≤ S) (relaxed : Bool) :
    SolvesEdges S (edgeFree S) (Dispatch.backend P (.name "unary") relaxed) := by
  rintro n edges hn hE ⟨_, rfl, -⟩ U Q
  obtain ⟨y, h1, h2, h3, h4⟩ := C60_routes_unary P ⟨n, S, U⟩ (.ten ⟨0, S, S, Q⟩) [] Q (denotes_ten S 0 Q) hS false
    [("relaxed", .bool relaxed)] (fun p hp => by
      rw [List.mem_singleton] at hp
      rw [hp]
      change "relaxed" ∉ Dispatch.posArgs
      decide)
  refine ⟨.discrete y, ⟨rfl, y, rfl, h2, h3⟩, ?_, ?_⟩
  · unfold Dispatch.backend
    rw [List.length_nil, h1]
    rfl
  · rintro _ ⟨-, z, rfl, -, zv⟩
    rw [edgeScore_labelling hE zv, edgeScore_labelling hE h3]
    unfold Spec.score
    simpa using h4 z.get zv

theorem mlFree_labelled {backend : Bool → Infer} {cw : Vec} {m : MultiLabel.Model} (hc : 2 ≤ cw.size) (hE : m.edges = [])
    {data : List (Vec × Labels)} (hd : MultiLabelData m data) :
    (problemOf (multiLabelModel backend cw m) (multiLabelOutputs m (edgeFree 2))).Labelled (labelled data) := by
  intro s hs
  obtain ⟨d, hd', rfl⟩ := List.mem_map.mp hs
  obtain ⟨h1, h2, h3⟩ := hd d hd'
  refine ⟨⟨h1, hE, d.2, rfl, h2, h3⟩, ?_⟩
  change okD 0 (Loss.loss (some cw) d.2 d.2) = 0
  rw [loss_some_ok h2 h2 fun i hi => (h3 i hi).trans_le hc]
  simp [okD, weightedHamming]

/-- **C161.** Any of the learners of C106, trained to accuracy `ε` with a `MultiLabelClf` without edges, unary inference and unit
class weights: for every label the doubled weights solve the linear support vector machine with `4 C` that tells the samples with
the label from those without, up to `4 ε`. -/
theorem C161_trained (P : Dispatch.Packages) (cw : Vec) (m : MultiLabel.Model) (hc : 2 ≤ cw.size) (h1 : ∀ c < 2, cw.get c = 1)
    (hE : m.edges = []) (data : List (Vec × Labels)) (hd : MultiLabelData m data) (C ε : ℚ) (hC : 0 < C) (w : W)
    (h : Trained (multiLabelModel (Dispatch.backend P (.name "unary")) cw m) (multiLabelOutputs m (edgeFree 2))
      (labelled data) C ε w) (l : ℕ) (hl : l < m.nLabels) (v : ℕ → ℚ) :
    linearSVM m.nFeatures (4 * C) (labelSamples l data) (fun f => 2 * w (l * m.nFeatures + f)) ≤
      linearSVM m.nFeatures (4 * C) (labelSamples l data) v + 4 * ε := by
  have hn := C161_near _ cw m hc hE data hd C ε w
    (trained_near _ _ (ml_exact hc (fun n edges => edgeFree_relaxed n edges) true (edgeFree_unary_edges P (by omega) true)) _
      (mlFree_labelled hc hE hd) hC h) l hl (fun f => v f / 2)
  have hu : ∀ d ∈ data, cw.get (d.2.get l) = 1 := fun d hdm => h1 _ ((hd d hdm).2.2 l hl)
  have e1 := C161_linear m.nFeatures C cw.get l data hu (labelBlock m.nFeatures l w)
  have e2 := C161_linear m.nFeatures C cw.get l data hu (fun f => v f / 2)
  have e3 : (fun f => 2 * (v f / 2)) = v := funext fun f => by ring
  rw [e3] at e2
  change linearSVM m.nFeatures (4 * C) (labelSamples l data) (fun f => 2 * labelBlock m.nFeatures l w f) ≤ _
  linarith

/-- **C161.** The doubled weights of a label are close to those of any linear support vector machine (with `4 C`, without intercept)
trained for that label alone, such as a `BinaryClf`. -/
theorem C161_same_weights (P : Dispatch.Packages) (cw : Vec) (m : MultiLabel.Model) (hc : 2 ≤ cw.size) (h1 : ∀ c < 2, cw.get c = 1)
    (hE : m.edges = []) (data : List (Vec × Labels)) (hd : MultiLabelData m data) (C ε δ : ℚ) (hC : 0 < C) (w : W)
    (h : Trained (multiLabelModel (Dispatch.backend P (.name "unary")) cw m) (multiLabelOutputs m (edgeFree 2))
      (labelled data) C ε w) (l : ℕ) (hl : l < m.nLabels) (v : ℕ → ℚ)
    (hv : ∀ v', linearSVM m.nFeatures (4 * C) (labelSamples l data) v ≤
      linearSVM m.nFeatures (4 * C) (labelSamples l data) v' + δ) :
    ∑ f ∈ range m.nFeatures, (2 * w (l * m.nFeatures + f) - v f) ^ 2 ≤ 4 * (4 * ε + δ) := by
  have hs : ∀ s ∈ labelSamples l data, s.2 = -1 ∨ s.2 = 1 := by
    intro s hs
    obtain ⟨d, -, rfl⟩ := List.mem_map.mp hs
    unfold entrySign
    simp only
    split
    · exact .inl rfl
    · exact .inr rfl
  have hob := C108_objective m.nFeatures (4 * C) (labelSamples l data) hs
  refine Lemmas.near_close (P := binProblem m.nFeatures) (C := 4 * C) (by linarith)
    (samples := labelSamples l data)
    (fun s hsm w => ⟨_, (bin_hinge m.nFeatures w s.1 s.2 (hs s hsm) _).mpr rfl⟩)
    (w := fun f => 2 * w (l * m.nFeatures + f))
    ⟨_, (hob _ _).mpr rfl, fun w' obj ho => ?_⟩ ⟨_, (hob _ _).mpr rfl, fun w' obj ho => ?_⟩
  · rw [(hob w' obj).mp ho]
    exact C161_trained P cw m hc h1 hE data hd C ε hC w h l hl w'
  · rw [(hob w' obj).mp ho]
    exact hv w'

/-- **C161, predictions.** With unary inference a `MultiLabelClf`, with or without edges, predicts a label if its score is positive:
unless the score is zero this is what a `BinaryClf` with the weights of the label, or with these doubled, predicts. For a score of
zero the `BinaryClf` predicts the label and the `MultiLabelClf` does not. -/
theorem C161_predictions (P : Dispatch.Packages) (m : MultiLabel.Model) (x : Vec) (hF : x.size = m.nFeatures) (w : W) :
    ∃ y : Labels, MultiLabel.inference (Dispatch.backend P (.name "unary") false) m x ⟨MultiLabel.sizeJointFeature m, w⟩ =
        .ok (.discrete y) ∧ y.size = m.nLabels ∧
      ∀ l < m.nLabels, y.get l < 2 ∧ (y.get l = 1 ↔ 0 < ∑ f ∈ range m.nFeatures, w (l * m.nFeatures + f) * x.get f) ∧
        ∀ q : ℚ, 0 < q → Unstructured.binInference x ⟨m.nFeatures, fun f => q * w (l * m.nFeatures + f)⟩ =
          .ok (if ∑ f ∈ range m.nFeatures, w (l * m.nFeatures + f) * x.get f = 0 then 1 else entrySign (y.get l)) := by
  have hb : ∀ t : ℚ, (0 < t → argmaxN (fun s => if s = 0 then -t else t) 2 = 1) ∧
      (¬ 0 < t → argmaxN (fun s => if s = 0 then -t else t) 2 = 0) := by
    intro t
    refine ⟨fun ht => argmaxN_eq_of _ (by omega) ?_ ?_, fun ht => argmaxN_eq_of _ (by omega) ?_ ?_⟩
    · intro j hj
      interval_cases j <;> simp; linarith
    · intro j hj
      interval_cases j; simp; linarith
    · intro j hj
      interval_cases j <;> simp; linarith
    · intro j hj; omega
  refine ⟨⟨m.nLabels, fun l => argmaxN (mlU m x w l) 2⟩, ?_, rfl, fun l _ => ?_⟩
  · unfold MultiLabel.inference
    rw [checkSizeW_ok (w := ⟨MultiLabel.sizeJointFeature m, w⟩) rfl,
      ml_unary_ok (w := ⟨MultiLabel.sizeJointFeature m, w⟩) hF rfl,
      ml_pairwise_ok (w := ⟨MultiLabel.sizeJointFeature m, w⟩) rfl]
    simp only [bind, Except.bind]
    unfold Dispatch.backend
    rw [dispatch_unary P _ _ _ _ _ (fun p hp => by
      rw [List.mem_singleton] at hp
      rw [hp]
      change "relaxed" ∉ Dispatch.posArgs
      decide)]
    simp [Dispatch.inferenceUnaries, validateParams]
    rfl
  · have e0 : ∑ f ∈ range m.nFeatures, x.get f * w (l * m.nFeatures + f) =
        ∑ f ∈ range m.nFeatures, w (l * m.nFeatures + f) * x.get f := sum_congr rfl fun f _ => mul_comm _ _
    have e2 : ∀ q : ℚ, ∑ f ∈ range m.nFeatures, x.get f * (q * w (l * m.nFeatures + f)) =
        q * ∑ f ∈ range m.nFeatures, w (l * m.nFeatures + f) * x.get f := by
      intro q
      rw [mul_sum]; exact sum_congr rfl fun f _ => by ring
    have hu : mlU m x w l = fun s => if s = 0 then -∑ f ∈ range m.nFeatures, w (l * m.nFeatures + f) * x.get f else
        ∑ f ∈ range m.nFeatures, w (l * m.nFeatures + f) * x.get f := by
      funext s; unfold mlU; rw [e0]
    have hi : ∀ q : ℚ, Unstructured.binInference x ⟨m.nFeatures, fun f => q * w (l * m.nFeatures + f)⟩ =
        .ok (Unstructured.binDecide (q * ∑ f ∈ range m.nFeatures, w (l * m.nFeatures + f) * x.get f)) := by
      intro q
      unfold Unstructured.binInference Vec.dot
      simp only [hF, if_true]
      unfold dot
      rw [e2]
    simp only [hu, hi]
    obtain ⟨h1, h2⟩ := hb (∑ f ∈ range m.nFeatures, w (l * m.nFeatures + f) * x.get f)
    generalize ∑ f ∈ range m.nFeatures, w (l * m.nFeatures + f) * x.get f = t at *
    unfold Unstructured.binDecide
    by_cases ht : 0 < t
    · rw [h1 ht]
      refine ⟨by omega, by simp [ht], fun q hq => ?_⟩
      rw [if_pos (mul_pos hq ht).le, if_neg ht.ne']
      rfl
    · rw [h2 ht]
      refine ⟨by omega, by simp [ht], fun q hq => ?_⟩
      rcases (not_lt.mp ht).lt_or_eq with h | h
      · rw [if_neg (not_le.mpr (mul_neg_of_pos_of_neg hq h)), if_neg h.ne]
        rfl
      · rw [h, mul_zero, if_pos le_rfl, if_pos rfl]
        rfl

/-! ### the hypotheses can be met -/

/-- three labels, two features, no edges. -/
def mlFree : MultiLabel.Model := ⟨3, 2, []⟩

theorem mlFree_data : MultiLabelData mlFree mlData := by
  intro d hd
  have hE : EdgesIn 3 mlFree.edges := by unfold EdgesIn; decide
  simp only [mlData, List.mem_cons, List.not_mem_nil, or_false] at hd
  rcases hd with rfl | rfl <;> exact ⟨⟨by decide, rfl, hE⟩, rfl, by unfold Valid; decide⟩

example : (labelSamples 1 mlData).map (fun s => (s.1 0, s.1 1, s.2)) = [(1, 2, -1), (1, 0, 1)] := by decide +kernel

/-- training to any accuracy is possible. -/
example (C ε : ℚ) (hC : 0 < C) (hε : 0 < ε) : ∃ w : W,
    Trained (multiLabelModel (Dispatch.backend idealPackages (.name "unary")) ⟨3, fun _ => 1⟩ mlFree)
      (multiLabelOutputs mlFree (edgeFree 2)) (labelled mlData) C ε w ∧
    ∀ v, linearSVM 2 (4 * C) (labelSamples 1 mlData) (fun f => 2 * w (1 * 2 + f)) ≤
      linearSVM 2 (4 * C) (labelSamples 1 mlData) v + 4 * ε := by
  obtain ⟨w, hw⟩ := trained_exists (multiLabelModel (Dispatch.backend idealPackages (.name "unary")) ⟨3, fun _ => 1⟩ mlFree)
    (multiLabelOutputs mlFree (edgeFree 2))
    (ml_exact (by decide) (fun n edges => edgeFree_relaxed n edges) true (edgeFree_unary_edges _ (by omega) true))
    (labelled mlData) (by simp [labelled, mlData]) rfl (mlFree_labelled (by decide) rfl mlFree_data) 100
    (by
      rintro s hs y ⟨hy1, hy2⟩ z ⟨hz1, hz2⟩
      obtain ⟨d, hd, rfl⟩ := List.mem_map.mp hs
      refine (ml_range hy1 (edgeFree_relaxed _ _ _ hy2) (edgeFree_relaxed _ _ _ hz2)).trans ?_
      simp only [mlData, List.mem_cons, List.not_mem_nil, or_false] at hd
      rcases hd with rfl | rfl <;> decide +kernel) C ε hC hε
  exact ⟨w, hw, C161_trained idealPackages ⟨3, fun _ => 1⟩ mlFree (by decide) (fun _ _ => rfl) rfl mlData mlFree_data C ε hC w hw 1
    (by decide)⟩

end Verif.Props
