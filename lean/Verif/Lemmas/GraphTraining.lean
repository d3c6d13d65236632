import Verif.Props.C88
import Verif.Props.C67

/-!
# Training graph CRFs with an arbitrary inference method
-/

namespace Verif.Props

open Finset Verif.Common Verif.GraphCRF Verif.Spec Verif.Learner

/-- Training data for a `GraphCRF`: graphs with features, and label arrays. -/
def graphSamples (data : List (X × Labels)) : List (X × YVal) := data.map fun d => (d.1, .discrete d.2)

/-- Every graph has vertices, features of the right size and edges between its vertices, and there is one label in
range per vertex. -/
def GraphData (m : Model) (data : List (X × Labels)) : Prop :=
  ∀ d ∈ data, Fits m d.1 ∧ d.2.size = d.1.features.rows ∧ Valid d.1.features.rows m.nStates d.2.get

/-- All labellings of the training graphs compete. -/
def AllLabellings (S : ℕ) (O : ℕ → Edges → Set YVal) (data : List (X × Labels)) : Prop :=
  ∀ d ∈ data, ∀ v, IsLabelling d.1.features.rows S v → v ∈ O d.1.features.rows d.1.edges

theorem graphData_labelled {m : Model} {data : List (X × Labels)} (h : GraphData m data) {O : ℕ → Edges → Set YVal}
    (hA : AllLabellings m.nStates O data) :
    ∀ s ∈ graphSamples data, IsLabelling s.1.features.rows m.nStates s.2 ∧ s.2 ∈ outputsOver m O s.1 := by
  intro s hs
  obtain ⟨d, hd, rfl⟩ := List.mem_map.mp hs
  obtain ⟨h1, h2, h3⟩ := h d hd
  have hl : IsLabelling d.1.features.rows m.nStates (.discrete d.2) := ⟨d.2, rfl, h2, h3⟩
  exact ⟨hl, h1, hA d hd _ hl⟩

theorem graphSamples_maxLoss {m : Model} {cw : Vec} (hc : cw.size = m.nStates) {data : List (X × Labels)}
    (hd : GraphData m data) : ((graphSamples data).map fun s => graphMaxLoss cw s.2).sum =
      (data.map fun d => ∑ i ∈ range d.2.size, cw.get (d.2.get i)).sum := by
  unfold graphSamples
  rw [List.map_map]
  congr 1
  refine List.map_congr_left fun d hd' => ?_
  obtain ⟨-, h3, h4⟩ := hd d hd'
  have hcw : ∀ i < d.2.size, d.2.get i < cw.size := by rw [hc, h3]; exact h4
  change okD 0 (Loss.maxLoss (some cw) d.2) = _
  unfold Loss.maxLoss
  simp only
  rw [if_pos hcw]
  rfl

/-- One-slack training with any inference method that solves loss-augmented problems over `O`. -/
theorem graph_oneslack (backend : Bool → Infer) (cw : Vec) (m : Model) (hS : 1 ≤ m.nStates) (hc : cw.size = m.nStates)
    (hpos : ∀ c < m.nStates, 0 ≤ cw.get c) {O : ℕ → Edges → Set YVal}
    (hO : ∀ n edges, ∀ v ∈ O n edges, IsRelaxed n m.nStates edges v) (hsolve : SolvesOver m.nStates O (backend true))
    (data : List (X × Labels)) (hA : AllLabellings m.nStates O data) (hd : GraphData m data)
    (qp : QP.Solver) (hqp : QP.Exact qp) (hcomp : QP.Complete qp) (eq : YVal → YVal → Except PyErr Bool)
    (o o' : OneSlack.Obj YVal) (hC : 0 < o.cfg.C) (htol : 0 < o.cfg.tol) (hneg : o.cfg.negativity = none)
    (hwin : o.cfg.inactiveWindow = 0) (R : ℚ) (hR0 : 0 ≤ R) (hR : ∀ d ∈ data, featureBound m d.1 ≤ R)
    (μ : ℚ) (hμ0 : 0 ≤ μ) (hμ1 : 2 * μ ≤ o.cfg.C * data.length * o.cfg.tol) (hμ2 : 2 * R * μ ≤ o.cfg.tol ^ 2)
    (hmax : o.cfg.C * (data.map fun d => ∑ i ∈ range d.2.size, cw.get (d.2.get i)).sum <
      ((o.cfg.maxIter : ℚ) - 1) * μ)
    (h : OneSlack.fit (graphModel backend cw m) qp eq none (fun _ => none) o (graphSamples data) .no = .ok o') :
    ∃ a p, o'.attrs = some a ∧
      (problemOf (graphModel backend cw m) (outputsOver m O)).IsObjective o.cfg.C (graphSamples data) a.w p ∧
      ∀ w obj, (problemOf (graphModel backend cw m) (outputsOver m O)).IsObjective o.cfg.C (graphSamples data) w obj →
        p ≤ obj + o.cfg.C * data.length * o.cfg.tol := by
  have hlab := graphData_labelled hd hA
  have hLA := graph_exact (backend := backend) hS hc hO true hsolve
  have hl := graph_labelled (backend := backend) hS hc hlab
  have hlen : ((graphSamples data).length : ℚ) = data.length := by
    unfold graphSamples; rw [List.length_map]
  obtain ⟨B, hB, hBle⟩ := graph_zero_objective (backend := backend) hS hc hpos hO hsolve o.cfg.C hC.le hlab
  rw [graphSamples_maxLoss hc hd] at hBle
  have hRs : ∀ s ∈ graphSamples data, featureBound m s.1 ≤ R := by
    intro s hs
    obtain ⟨d, hd', rfl⟩ := List.mem_map.mp hs
    exact hR d hd'
  have := C87_converges (graphModel backend cw m) (outputsOver m O)
    qp hqp eq none o o' (graphSamples data) hC htol hneg hwin hl
    (fun s hs w => (hLA s.1 s.2 w (hl s hs).1 (hl s hs).2).1) (fun _ => hLA) (by simp) (.inr rfl)
    (QP.complete_first hqp hcomp _ _) R hR0 (graph_range hS hO _ R hRs) μ hμ0 (by rw [hlen]; exact hμ1) hμ2
    _ B hB (by rw [if_pos rfl, sub_zero]; linarith) h
  rw [hlen] at this
  exact this

/-- With two or more states and positive class weights, training returns. -/
theorem graph_oneslack_returns (backend : Bool → Infer) (cw : Vec) (m : Model) (hS : 2 ≤ m.nStates)
    (hc : cw.size = m.nStates) (hpos : ∀ c < m.nStates, 0 < cw.get c) {O : ℕ → Edges → Set YVal}
    (hO : ∀ n edges, ∀ v ∈ O n edges, IsRelaxed n m.nStates edges v) (hsolve : SolvesOver m.nStates O (backend true))
    (data : List (X × Labels)) (hA : AllLabellings m.nStates O data) (hne : data ≠ []) (hd : GraphData m data)
    (qp : QP.Solver) (hqp : QP.Exact qp) (hcomp : QP.Complete qp) (eq : YVal → YVal → Except PyErr Bool)
    (o : OneSlack.Obj YVal) (heq : o.cfg.inferenceCache = 0 ∨ ∀ a b, ∃ r, eq a b = .ok r) (hC : 0 ≤ o.cfg.C)
    (hneg : o.cfg.negativity = none) (hthr : o.cfg.inactiveThreshold ≤ 1) (hbr : o.cfg.breakOnBad = false)
    (htol : o.cfg.tol ≤ 1) (hmax : o.cfg.maxIter ≠ 0) :
    ∃ o', OneSlack.fit (graphModel backend cw m) qp eq none (fun _ => none) o (graphSamples data) .no = .ok o' := by
  have hS1 : 1 ≤ m.nStates := by omega
  have hlab := graphData_labelled hd hA
  have hLA := graph_exact (backend := backend) hS1 hc hO true hsolve
  have hl := graph_labelled (backend := backend) hS1 hc hlab
  have hv : ∀ x y z, (problemOf (graphModel backend cw m) (outputsOver m O)).value (fun _ => 0) x y z = 0 := by
    intro x y z
    unfold Problem.value
    simp
  have hvi : ∀ x y z, (problemOf (graphModel backend cw m) (outputsOver m O)).violation (fun _ => 0) x y z =
      (graphModel backend cw m).lossOf y z := by
    intro x y z
    unfold Problem.violation
    rw [hv, hv, add_zero, sub_zero]
    rfl
  have hbest : ∀ s ∈ graphSamples data, ∀ z ∈ outputsOver m O s.1, (graphModel backend cw m).lossOf s.2 z ≤
      (graphModel backend cw m).lossOf s.2 ((graphModel backend cw m).lossAug s.1 s.2 (fun _ => 0) true) := by
    intro s hs z hz
    have := (hLA s.1 s.2 (fun _ => 0) (hl s hs).1 (hl s hs).2).2 z hz
    rw [hvi, hvi] at this
    exact this
  have hne' : graphSamples data ≠ [] := by
    unfold graphSamples
    simpa using hne
  refine (C67_returns_iff_partial (graphModel backend cw m) qp hqp hcomp eq o heq hC hneg hthr hbr htol (graphSamples data)
    hne' ?_).mpr ⟨hmax, .inl ?_⟩
  · intro s hs
    have h1 := hbest s hs s.2 (hl s hs).1
    have h2 : (graphModel backend cw m).lossOf s.2 s.2 = 0 := (hl s hs).2
    rw [h2] at h1
    exact h1
  · obtain ⟨d, hd'⟩ := List.exists_mem_of_ne_nil _ hne
    obtain ⟨hfit, h3, h4⟩ := hd d hd'
    have hs : ((d.1, .discrete d.2) : X × YVal) ∈ graphSamples data := List.mem_map.mpr ⟨d, hd', rfl⟩
    refine ⟨_, hs, ?_⟩
    have hlz : IsLabelling d.1.features.rows m.nStates
        (.discrete ⟨d.1.features.rows, fun i => if d.2.get i = 0 then 1 else 0⟩) := by
      refine ⟨_, rfl, rfl, fun i _ => ?_⟩
      change (if d.2.get i = 0 then 1 else 0) < m.nStates
      split <;> omega
    have h1 := hbest _ hs _ ⟨hfit, hA d hd' _ hlz⟩
    refine ne_of_gt (lt_of_lt_of_le ?_ h1)
    change 0 < (graphModel backend cw m).lossOf (.discrete d.2) _
    rw [lossOf_output (edges := []) hS1 hc h3 h4 (.inl hlz)]
    unfold marginalLoss nodeMarg
    simp only
    refine sum_pos (fun i hi => ?_) ⟨0, mem_range.mpr hfit.1⟩
    have hp := hpos _ (h4 i (mem_range.mp hi))
    have : ¬ d.2.get i = if d.2.get i = 0 then 1 else 0 := by
      split <;> omega
    rw [if_neg this]
    linarith

/-- Frank-Wolfe training with any inference method that solves loss-augmented problems over `O`. -/
theorem graph_frankwolfe (backend : Bool → Infer) (cw : Vec) (m : Model) (hS : 1 ≤ m.nStates) (hc : cw.size = m.nStates)
    (hpos : ∀ c < m.nStates, 0 ≤ cw.get c) {O : ℕ → Edges → Set YVal}
    (hO : ∀ n edges, ∀ v ∈ O n edges, IsRelaxed n m.nStates edges v) (hsolve : SolvesOver m.nStates O (backend true))
    (data : List (X × Labels)) (hA : AllLabellings m.nStates O data) (hne : data ≠ []) (hd : GraphData m data)
    (order : ℕ → List ℕ) (ho : VisitsAll data.length order) (o : FrankWolfe.Obj) (hw : o.w = none) (hol : o.l = none)
    (hb : o.cfg.batchMode = false) (hls : o.cfg.lineSearch = true) (hav : o.cfg.averaging = false)
    (hC : 0 ≤ o.cfg.C) (htol : 0 < o.cfg.tol) (hck : o.cfg.checkDualEvery ≠ 0) (hm : o.cfg.maxIter ≠ 0)
    (R : ℚ) (hR0 : 0 ≤ R) (hR : ∀ d ∈ data, featureBound m d.1 ≤ R) :
    let n : ℚ := data.length
    let H : ℚ := o.cfg.C * (data.map fun d => ∑ i ∈ range d.2.size, cw.get (d.2.get i)).sum
    let K : ℚ := 4 * n ^ 2 * (o.cfg.C ^ 2 * R + 1 / 10 ^ 15 + H + n * o.cfg.C ^ 2 * R)
    o.cfg.checkDualEvery * (K * H) < o.cfg.maxIter * o.cfg.tol ^ 2 →
    ∃ o' w p, FrankWolfe.fit (graphModel backend cw m) order o (graphSamples data) = .ok o' ∧
      o'.w = some w ∧
      (problemOf (graphModel backend cw m) (outputsOver m O)).IsObjective o.cfg.C (graphSamples data) w p ∧
      ∀ v obj, (problemOf (graphModel backend cw m) (outputsOver m O)).IsObjective o.cfg.C (graphSamples data) v obj →
        p < obj + o.cfg.tol := by
  intro n H K hmax
  have hlab := graphData_labelled hd hA
  have hLA := graph_exact (backend := backend) hS hc hO true hsolve
  have hl := graph_labelled (backend := backend) hS hc hlab
  have hlen : (graphSamples data).length = data.length := by
    unfold graphSamples; rw [List.length_map]
  obtain ⟨B, hB, hBle⟩ := graph_zero_objective (backend := backend) hS hc hpos hO hsolve o.cfg.C hC hlab
  rw [graphSamples_maxLoss hc hd] at hBle
  have hRs : ∀ s ∈ graphSamples data, featureBound m s.1 ≤ R := by
    intro s hs
    obtain ⟨d, hd', rfl⟩ := List.mem_map.mp hs
    exact hR d hd'
  have hne' : graphSamples data ≠ [] := by
    unfold graphSamples
    simpa using hne
  obtain ⟨o', hfit⟩ := (C65_fit_succeeds_partial (graphModel backend cw m) order o
    (graphSamples data)).mpr ⟨hne', hm, rfl, .inr hck⟩
  obtain ⟨T, -, -, hfin⟩ := C86_fit (graphModel backend cw m)
    (outputsOver m O) order o o' (graphSamples data) hw hol hb hls hav hC htol.le
    (by rw [hlen]; exact ho) hLA hl R (graph_range hS hO _ R hRs) _ B hB hfit
  have hB0 : 0 ≤ B := objective_nonneg hC hl hB
  obtain ⟨w, p, h1, h2, h3⟩ := hfin (by
    refine lt_of_le_of_lt ?_ hmax
    rw [hlen]
    refine mul_le_mul_of_nonneg_left ?_ (Nat.cast_nonneg _)
    have hn0 : (0 : ℚ) ≤ n := Nat.cast_nonneg _
    have hC2R : 0 ≤ o.cfg.C ^ 2 * R := mul_nonneg (sq_nonneg _) hR0
    refine mul_le_mul ?_ hBle hB0 ?_
    · refine mul_le_mul_of_nonneg_left ?_ (mul_nonneg (by norm_num) (sq_nonneg _))
      change o.cfg.C ^ 2 * R + 1 / 10 ^ 15 + B + n * o.cfg.C ^ 2 * R ≤ o.cfg.C ^ 2 * R + 1 / 10 ^ 15 + H + n * o.cfg.C ^ 2 * R
      have : B ≤ H := hBle
      linarith
    · have hH0 : 0 ≤ H := hB0.trans hBle
      have : 0 ≤ n * o.cfg.C ^ 2 * R := by rw [mul_assoc]; exact mul_nonneg hn0 hC2R
      refine mul_nonneg (mul_nonneg (by norm_num) (sq_nonneg _)) ?_
      have : (0 : ℚ) ≤ 1 / 10 ^ 15 := by norm_num
      linarith)
  exact ⟨o', w, p, hfit, h1, h2, h3⟩

/-! ### comparing the risks over two families of outputs -/

/-- The risk over fewer outputs is smaller. -/
theorem objective_mono {m : SModel X YVal} {o₁ o₂ : X → Set YVal} (hsub : ∀ x, o₁ x ⊆ o₂ x) {C : ℚ} (hC : 0 ≤ C)
    {samples : List (X × YVal)} {w : W} {a b : ℚ} (h1 : (problemOf m o₁).IsObjective C samples w a)
    (h2 : (problemOf m o₂).IsObjective C samples w b) : a ≤ b := by
  obtain ⟨hs, hf, rfl⟩ := h1
  obtain ⟨ks, kf, rfl⟩ := h2
  change _ ≤ (∑ k ∈ range m.dim, w k * w k) / 2 + C * ks.sum
  change (∑ k ∈ range m.dim, w k * w k) / 2 + C * hs.sum ≤ _
  refine add_le_add le_rfl (mul_le_mul_of_nonneg_left ?_ hC)
  induction hf generalizing ks with
  | nil => cases kf; exact le_rfl
  | cons hh _ ih =>
    cases kf with
    | cons kk kf =>
      rw [List.sum_cons, List.sum_cons]
      refine add_le_add ?_ (ih _ kf)
      obtain ⟨y, hy, e⟩ := hh.1
      exact kk.2 ⟨y, hsub _ hy, e⟩

end Verif.Props
