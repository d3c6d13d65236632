import Verif.Lemmas.GraphOutputs
import Verif.Props.C52
import Verif.Props.C65
import Verif.Props.C87

/-!
# C88: training a ChainCRF, end to end
-/

namespace Verif.Props

open Finset Verif.Common Verif.GraphCRF Verif.Spec Verif.Learner Verif.MaxProd

/-- max-product finds the best label sequence of every chain. -/
theorem chain_solves (opts : Opts) {S : ℕ} (hS : 1 ≤ S) : SolvesOver S (chainOutputs S) (maxProductInfer opts) := by
  rintro n edges hn hE ⟨v0, rfl, -⟩ U P
  obtain ⟨y, hy, hys, hyv, hymax⟩ := inferenceMaxProduct_chain opts ⟨n, S, U⟩ (.mat ⟨S, S, P⟩)
    ⟨n - 1, S, S, fun _ => P⟩ (by simp [validateParams, chainEdges_length]) hn hS
  simp only at hy hys hyv hymax
  refine ⟨.discrete y, ⟨rfl, y, rfl, hys, hyv⟩, ?_, ?_⟩
  · unfold maxProductInfer
    rw [hy]
  · rintro v' ⟨-, y', rfl, -, hv'⟩
    rw [outputScore_labelling hE hv', outputScore_labelling hE hyv]
    exact hymax y'.get hv'

theorem chain_relaxed {S : ℕ} (n : ℕ) (edges : Edges) : ∀ v ∈ chainOutputs S n edges, IsRelaxed n S edges v :=
  fun _ h => .inl h.2

/-- risks are nonnegative. -/
theorem objective_nonneg {X Y : Type} {P : Problem X Y} {C : ℚ} (hC : 0 ≤ C) {samples : List (X × Y)}
    (hl : P.Labelled samples) {w : ℕ → ℚ} {obj : ℚ} (h : P.IsObjective C samples w obj) : 0 ≤ obj := by
  obtain ⟨hs, hf, rfl⟩ := h
  refine add_nonneg (div_nonneg (sum_nonneg fun k _ => mul_self_nonneg _) (by norm_num)) (mul_nonneg hC ?_)
  induction hf with
  | nil => simp
  | cons hh _ ih =>
    rw [List.sum_cons]
    refine add_nonneg ?_ (ih fun t ht => hl t (List.mem_cons_of_mem _ ht))
    obtain ⟨h1, h2⟩ := hl _ List.mem_cons_self
    have := hh.2 ⟨_, h1, rfl⟩
    rw [violation_self, h2] at this
    exact this

/-- at zero weights the risk is at most `C` times the largest possible total loss. -/
theorem graph_zero_objective {backend : Bool → Infer} {cw : Vec} {m : Model} (hS : 1 ≤ m.nStates)
    (hc : cw.size = m.nStates) (hpos : ∀ c < m.nStates, 0 ≤ cw.get c) {O : ℕ → Edges → Set YVal}
    (hO : ∀ n edges, ∀ v ∈ O n edges, IsRelaxed n m.nStates edges v)
    (hsolve : SolvesOver m.nStates O (backend true)) {samples : List (X × YVal)} (C : ℚ) (hC : 0 ≤ C)
    (h : ∀ s ∈ samples, IsLabelling s.1.features.rows m.nStates s.2 ∧ s.2 ∈ outputsOver m O s.1) :
    ∃ B, (problemOf (graphModel backend cw m) (outputsOver m O)).IsObjective C samples (fun _ => 0) B ∧
      B ≤ C * (samples.map fun s => graphMaxLoss cw s.2).sum := by
  have hLA := graph_exact (backend := backend) hS hc hO true hsolve
  have hl := graph_labelled (backend := backend) hS hc h
  refine ⟨_, ⟨_, violations_hinge (graphModel backend cw m) (outputsOver m O) hLA samples hl _, rfl⟩, ?_⟩
  have h0 : ∑ k ∈ range (problemOf (graphModel backend cw m) (outputsOver m O)).dim, (0 : ℚ) * 0 = 0 := by simp
  rw [h0, zero_div, zero_add]
  refine mul_le_mul_of_nonneg_left (List.sum_le_sum fun s hs => ?_) hC
  obtain ⟨hout, hz⟩ := hl s hs
  obtain ⟨⟨y, hy, h1, h2⟩, h3⟩ := h s hs
  obtain ⟨⟨hF, hE⟩, ha⟩ := (hLA s.1 s.2 (fun _ => 0) hout hz).1
  simp only at ha
  generalize (graphModel backend cw m).lossAug s.1 s.2 (fun _ => 0) true = v at ha
  have hv : ∀ z, (problemOf (graphModel backend cw m) (outputsOver m O)).value (fun _ => 0) s.1 s.2 z = 0 := by
    intro z
    unfold Problem.value
    simp
  unfold Problem.violation
  rw [hv, hv, add_zero, sub_zero]
  have hr := hO _ _ v ha
  change (graphModel backend cw m).lossOf s.2 v ≤ _
  rw [hy, lossOf_output hS hc h1 h2 hr]
  change _ ≤ okD 0 (Loss.maxLoss (some cw) y)
  have hcw : ∀ i < y.size, y.get i < cw.size := by rw [hc, h1]; exact h2
  unfold Loss.maxLoss
  simp only
  rw [if_pos hcw]
  change _ ≤ ∑ i ∈ range y.size, cw.get (y.get i)
  unfold marginalLoss
  rw [h1]
  refine sum_le_sum fun i hi => ?_
  have hm := (isRelaxed_polytope hE.2 hr).nonneg i (mem_range.mp hi) _ (h2 i (mem_range.mp hi))
  have := hpos _ (h2 i (mem_range.mp hi))
  nlinarith

/-- Training data for a `ChainCRF`: feature sequences and label sequences. -/
def chainSamples (data : List (Mat × Labels)) : List (X × YVal) := data.map fun d => (chainX d.1, .discrete d.2)

/-- Every sequence is nonempty, has the right number of features, and one label in range per position. -/
def ChainData (m : Model) (data : List (Mat × Labels)) : Prop :=
  ∀ d ∈ data, 1 ≤ d.1.rows ∧ d.1.cols = m.nFeatures ∧ d.2.size = d.1.rows ∧ Valid d.1.rows m.nStates d.2.get

theorem chainData_labelled {m : Model} {data : List (Mat × Labels)} (h : ChainData m data) :
    ∀ s ∈ chainSamples data, IsLabelling s.1.features.rows m.nStates s.2 ∧
      s.2 ∈ outputsOver m (chainOutputs m.nStates) s.1 := by
  intro s hs
  obtain ⟨d, hd, rfl⟩ := List.mem_map.mp hs
  obtain ⟨h1, h2, h3, h4⟩ := h d hd
  have hl : IsLabelling d.1.rows m.nStates (.discrete d.2) := ⟨d.2, rfl, h3, h4⟩
  have he : makeChainEdges d.1.rows = chainEdges d.1.rows := makeChainEdges_eq _
  refine ⟨hl, ⟨h1, h2, ?_⟩, ?_, hl⟩
  · change EdgesIn d.1.rows (makeChainEdges d.1.rows)
    rw [he]
    exact chainEdges_in _
  · exact he

/-- The structured prediction problem posed by a `ChainCRF`: the outputs competing for a sequence are all label
sequences. -/
def chainProblem (opts : Opts) (cw : Vec) (m : Model) : Problem X YVal :=
  problemOf (graphModel (fun _ => maxProductInfer opts) cw m) (outputsOver m (chainOutputs m.nStates))

/-- **C88, prediction.** Whatever the weights, the label sequence predicted for a sequence of the right shape has
the largest inner product of weights and joint feature among all label sequences. -/
theorem C88_prediction (opts : Opts) (cw : Vec) (m : Model) (hS : 1 ≤ m.nStates) (w : W) (f : Mat)
    (hn : 1 ≤ f.rows) (hF : f.cols = m.nFeatures) :
    ∃ y : Labels, predict (graphModel (fun _ => maxProductInfer opts) cw m) w [chainX f] = [.discrete y] ∧
      y.size = f.rows ∧ Valid f.rows m.nStates y.get ∧
      ∀ y' : Labels, y'.size = f.rows → Valid f.rows m.nStates y'.get →
        dot (sizeJointFeature m) w (graphFeature m (chainX f) (.discrete y')) ≤
          dot (sizeJointFeature m) w (graphFeature m (chainX f) (.discrete y)) := by
  have he : makeChainEdges f.rows = chainEdges f.rows := makeChainEdges_eq _
  have hE : EdgesIn f.rows (makeChainEdges f.rows) := by rw [he]; exact chainEdges_in _
  have hfit : Fits m (chainX f) := ⟨hn, hF, hE⟩
  have hmem : ∀ y : Labels, y.size = f.rows → Valid f.rows m.nStates y.get →
      (.discrete y : YVal) ∈ outputsOver m (chainOutputs m.nStates) (chainX f) :=
    fun y h1 h2 => ⟨hfit, he, y, rfl, h1, h2⟩
  have := graph_exact_inference (backend := fun _ => maxProductInfer opts) (cw := cw) hS chain_relaxed
    (chain_solves opts hS) (chainX f) (.discrete ⟨f.rows, fun _ => 0⟩) w
    (hmem _ rfl (fun _ _ => hS))
  obtain ⟨⟨-, -, y, hy, h1, h2⟩, hmax⟩ := this
  refine ⟨y, ?_, h1, h2, fun y' h1' h2' => ?_⟩
  · unfold predict
    rw [List.map_cons, List.map_nil, hy]
  · have h3 := hmax _ (hmem y' h1' h2')
    rw [hy] at h3
    exact h3

/-- **C88, one-slack training.** A fresh `OneSlackSSVM` with `inactive_window=0` and an exact QP solver, trained on
any label sequences with a `ChainCRF` that uses max-product. Let `R` bound `featureBound` over the sequences, `L`
be the sum of the class weights of all labels, `μ` such that `2 μ ≤ C n tol` and `2 R μ ≤ tol²`, and
`C L < (max_iter - 1) μ`. If training returns, the risk of the learned weights — half the squared norm plus `C`
times the sum of the structured hinge losses, over all label sequences — is within `C n tol` of the risk of every
weight vector. -/
theorem C88_oneslack (opts : Opts) (cw : Vec) (m : Model) (hS : 1 ≤ m.nStates) (hc : cw.size = m.nStates)
    (hpos : ∀ c < m.nStates, 0 ≤ cw.get c) (data : List (Mat × Labels)) (hd : ChainData m data)
    (qp : QP.Solver) (hqp : QP.Exact qp) (eq : YVal → YVal → Except PyErr Bool) (o o' : OneSlack.Obj YVal)
    (hC : 0 < o.cfg.C) (htol : 0 < o.cfg.tol) (hneg : o.cfg.negativity = none) (hwin : o.cfg.inactiveWindow = 0)
    (hfirst : FirstAttempt qp (sizeJointFeature m) (o.cfg.C * data.length))
    (R : ℚ) (hR0 : 0 ≤ R) (hR : ∀ d ∈ data, featureBound m (chainX d.1) ≤ R)
    (μ : ℚ) (hμ0 : 0 ≤ μ) (hμ1 : 2 * μ ≤ o.cfg.C * data.length * o.cfg.tol) (hμ2 : 2 * R * μ ≤ o.cfg.tol ^ 2)
    (hmax : o.cfg.C * (data.map fun d => ∑ i ∈ range d.2.size, cw.get (d.2.get i)).sum <
      ((o.cfg.maxIter : ℚ) - 1) * μ)
    (h : OneSlack.fit (graphModel (fun _ => maxProductInfer opts) cw m) qp eq none (fun _ => none) o
      (chainSamples data) .no = .ok o') :
    ∃ a p, o'.attrs = some a ∧ (chainProblem opts cw m).IsObjective o.cfg.C (chainSamples data) a.w p ∧
      ∀ w obj, (chainProblem opts cw m).IsObjective o.cfg.C (chainSamples data) w obj →
        p ≤ obj + o.cfg.C * data.length * o.cfg.tol := by
  have hlab := chainData_labelled hd
  have hLA := graph_exact (backend := fun _ => maxProductInfer opts) hS hc chain_relaxed true (chain_solves opts hS)
  have hl := graph_labelled (backend := fun _ => maxProductInfer opts) hS hc hlab
  have hlen : ((chainSamples data).length : ℚ) = data.length := by
    unfold chainSamples; rw [List.length_map]
  obtain ⟨B, hB, hBle⟩ := graph_zero_objective (backend := fun _ => maxProductInfer opts) hS hc hpos chain_relaxed
    (chain_solves opts hS) o.cfg.C hC.le hlab
  have hsum : ((chainSamples data).map fun s => graphMaxLoss cw s.2).sum =
      (data.map fun d => ∑ i ∈ range d.2.size, cw.get (d.2.get i)).sum := by
    unfold chainSamples
    rw [List.map_map]
    congr 1
    refine List.map_congr_left fun d hd' => ?_
    obtain ⟨-, -, h3, h4⟩ := hd d hd'
    have hcw : ∀ i < d.2.size, d.2.get i < cw.size := by rw [hc, h3]; exact h4
    change okD 0 (Loss.maxLoss (some cw) d.2) = _
    unfold Loss.maxLoss
    simp only
    rw [if_pos hcw]
    rfl
  rw [hsum] at hBle
  have hRs : ∀ s ∈ chainSamples data, featureBound m s.1 ≤ R := by
    intro s hs
    obtain ⟨d, hd', rfl⟩ := List.mem_map.mp hs
    exact hR d hd'
  have := C87_converges (graphModel (fun _ => maxProductInfer opts) cw m) (outputsOver m (chainOutputs m.nStates))
    qp hqp eq none o o' (chainSamples data) hC htol hneg hwin hl
    (fun s hs w => (hLA s.1 s.2 w (hl s hs).1 (hl s hs).2).1) (fun _ => hLA) (by simp) (.inr rfl)
    (by rw [hlen]; exact hfirst) R hR0 (graph_range hS chain_relaxed _ R hRs) μ hμ0 (by rw [hlen]; exact hμ1) hμ2
    _ B hB (by rw [if_pos rfl, sub_zero]; linarith) h
  rw [hlen] at this
  exact this

/-- **C88, Frank-Wolfe training.** A fresh `FrankWolfeSSVM` in block-coordinate mode with line search, without
averaging, every pass visiting every sequence once, trained on any label sequences with a `ChainCRF` that uses
max-product. Let `R` bound `featureBound` over the sequences, `L` be the sum of the class weights of all labels,
`H = C L` and `K = 4 n² (C² R + 1e-15 + H + n C² R)`. If `max_iter tol² > check_dual_every K H`, training returns
weights whose risk is less than `tol` above that of any others. -/
theorem C88_frankwolfe (opts : Opts) (cw : Vec) (m : Model) (hS : 1 ≤ m.nStates) (hc : cw.size = m.nStates)
    (hpos : ∀ c < m.nStates, 0 ≤ cw.get c) (data : List (Mat × Labels)) (hne : data ≠ []) (hd : ChainData m data)
    (order : ℕ → List ℕ) (ho : VisitsAll data.length order) (o : FrankWolfe.Obj) (hw : o.w = none) (hol : o.l = none)
    (hb : o.cfg.batchMode = false) (hls : o.cfg.lineSearch = true) (hav : o.cfg.averaging = false)
    (hC : 0 ≤ o.cfg.C) (htol : 0 < o.cfg.tol) (hck : o.cfg.checkDualEvery ≠ 0) (hm : o.cfg.maxIter ≠ 0)
    (R : ℚ) (hR0 : 0 ≤ R) (hR : ∀ d ∈ data, featureBound m (chainX d.1) ≤ R) :
    let n : ℚ := data.length
    let H : ℚ := o.cfg.C * (data.map fun d => ∑ i ∈ range d.2.size, cw.get (d.2.get i)).sum
    let K : ℚ := 4 * n ^ 2 * (o.cfg.C ^ 2 * R + 1 / 10 ^ 15 + H + n * o.cfg.C ^ 2 * R)
    o.cfg.checkDualEvery * (K * H) < o.cfg.maxIter * o.cfg.tol ^ 2 →
    ∃ o' w p, FrankWolfe.fit (graphModel (fun _ => maxProductInfer opts) cw m) order o (chainSamples data) = .ok o' ∧
      o'.w = some w ∧ (chainProblem opts cw m).IsObjective o.cfg.C (chainSamples data) w p ∧
      ∀ v obj, (chainProblem opts cw m).IsObjective o.cfg.C (chainSamples data) v obj → p < obj + o.cfg.tol := by
  intro n H K hmax
  have hlab := chainData_labelled hd
  have hLA := graph_exact (backend := fun _ => maxProductInfer opts) hS hc chain_relaxed true (chain_solves opts hS)
  have hl := graph_labelled (backend := fun _ => maxProductInfer opts) hS hc hlab
  have hlen : (chainSamples data).length = data.length := by
    unfold chainSamples; rw [List.length_map]
  obtain ⟨B, hB, hBle⟩ := graph_zero_objective (backend := fun _ => maxProductInfer opts) hS hc hpos chain_relaxed
    (chain_solves opts hS) o.cfg.C hC hlab
  have hsum : ((chainSamples data).map fun s => graphMaxLoss cw s.2).sum =
      (data.map fun d => ∑ i ∈ range d.2.size, cw.get (d.2.get i)).sum := by
    unfold chainSamples
    rw [List.map_map]
    congr 1
    refine List.map_congr_left fun d hd' => ?_
    obtain ⟨-, -, h3, h4⟩ := hd d hd'
    have hcw : ∀ i < d.2.size, d.2.get i < cw.size := by rw [hc, h3]; exact h4
    change okD 0 (Loss.maxLoss (some cw) d.2) = _
    unfold Loss.maxLoss
    simp only
    rw [if_pos hcw]
    rfl
  rw [hsum] at hBle
  have hRs : ∀ s ∈ chainSamples data, featureBound m s.1 ≤ R := by
    intro s hs
    obtain ⟨d, hd', rfl⟩ := List.mem_map.mp hs
    exact hR d hd'
  have hne' : chainSamples data ≠ [] := by
    unfold chainSamples
    simpa using hne
  obtain ⟨o', hfit⟩ := (C65_fit_succeeds_partial (graphModel (fun _ => maxProductInfer opts) cw m) order o
    (chainSamples data)).mpr ⟨hne', hm, rfl, .inr hck⟩
  obtain ⟨T, -, -, hfin⟩ := C86_fit (graphModel (fun _ => maxProductInfer opts) cw m)
    (outputsOver m (chainOutputs m.nStates)) order o o' (chainSamples data) hw hol hb hls hav hC htol.le
    (by rw [hlen]; exact ho) hLA hl R (graph_range hS chain_relaxed _ R hRs) _ B hB hfit
  have hB0 : 0 ≤ B := objective_nonneg hC hl hB
  obtain ⟨w, p, h1, h2, h3⟩ := hfin (by
    refine lt_of_le_of_lt ?_ hmax
    rw [hlen]
    refine mul_le_mul_of_nonneg_left ?_ (Nat.cast_nonneg _)
    have hn0 : (0 : ℚ) ≤ n := Nat.cast_nonneg _
    have hC2R : 0 ≤ o.cfg.C ^ 2 * R := mul_nonneg (sq_nonneg _) hR0
    refine mul_le_mul ?_ hBle hB0 ?_
    · refine mul_le_mul_of_nonneg_left ?_ (mul_nonneg (by norm_num) (sq_nonneg _))
      change o.cfg.C ^ 2 * R + 1 / 10 ^ 15 + B + n * o.cfg.C ^ 2 * R ≤ o.cfg.C ^ 2 * R + 1 / 10 ^ 15 + H + n * o.cfg.C ^ 2 * R
      have : B ≤ H := hBle
      linarith
    · have hH0 : 0 ≤ H := hB0.trans hBle
      have : 0 ≤ n * o.cfg.C ^ 2 * R := by rw [mul_assoc]; exact mul_nonneg hn0 hC2R
      refine mul_nonneg (mul_nonneg (by norm_num) (sq_nonneg _)) ?_
      have : (0 : ℚ) ≤ 1 / 10 ^ 15 := by norm_num
      linarith)
  exact ⟨o', w, p, hfit, h1, h2, h3⟩

/-- **C88, perceptron.** `StructuredPerceptron` in online mode with learning rate 1 and without averaging, trained
with a `ChainCRF` that uses max-product and has positive class weights. If some weights `u` give the true label
sequence of every training sequence a score at least `γ > 0` above every other label sequence, and
`max_iter > R ‖u‖² / γ²` where `R` bounds `featureBound`, then training ends with weights that predict every label
of every training sequence correctly. -/
theorem C88_perceptron (opts : Opts) (cw : Vec) (m : Model) (hS : 1 ≤ m.nStates) (hc : cw.size = m.nStates)
    (hpos : ∀ c < m.nStates, 0 < cw.get c) (data : List (Mat × Labels)) (hne : data ≠ []) (hd : ChainData m data)
    (o : Perceptron.Obj) (hon : o.cfg.batch = false) (hlr : ∀ t, o.cfg.lr t = 1) (havg : o.average = .off)
    (u : W) (γ R : ℚ) (hγ : 0 < γ) (hR0 : 0 ≤ R) (hR : ∀ d ∈ data, featureBound m (chainX d.1) ≤ R)
    (hsep : ∀ d ∈ data, ∀ y' : Labels, y'.size = d.1.rows → Valid d.1.rows m.nStates y'.get →
      (∃ i < d.1.rows, y'.get i ≠ d.2.get i) →
      γ ≤ dot (sizeJointFeature m) u (graphFeature m (chainX d.1) (.discrete d.2)) -
        dot (sizeJointFeature m) u (graphFeature m (chainX d.1) (.discrete y')))
    (hiter : R * (∑ k ∈ range (sizeJointFeature m), u k ^ 2) / γ ^ 2 < o.cfg.maxIter) :
    ∃ o', Perceptron.fit (graphModel (fun _ => maxProductInfer opts) cw m) o (chainSamples data) = .ok o' ∧
      ∀ d ∈ data, ∃ y : Labels,
        (graphModel (fun _ => maxProductInfer opts) cw m).inference (chainX d.1) o'.w = .discrete y ∧
        y.size = d.1.rows ∧ ∀ i < d.1.rows, y.get i = d.2.get i := by
  have hlab := chainData_labelled hd
  have hpos' : ∀ c < m.nStates, 0 ≤ cw.get c := fun c h => (hpos c h).le
  set M := graphModel (fun _ => maxProductInfer opts) cw m with hM
  have hinf : (problemOf M (outputsOver m (chainOutputs m.nStates))).ExactInference M.inference :=
    graph_exact_inference (backend := fun _ => maxProductInfer opts) (cw := cw) hS chain_relaxed (chain_solves opts hS)
  -- loss of label sequences
  have hloss : ∀ d ∈ data, ∀ y' : Labels, y'.size = d.1.rows → Valid d.1.rows m.nStates y'.get →
      M.loss (.discrete d.2) (.discrete y') = weightedHamming d.1.rows cw.get d.2.get y'.get := by
    intro d hd' y' h1 h2
    obtain ⟨-, -, h3, h4⟩ := hd d hd'
    change okD 0 (Loss.loss (some cw) d.2 y') = _
    rw [loss_some_ok h3 h1 (by rw [hc]; exact h4)]
    rfl
  have hterm : ∀ d ∈ data, ∀ y' : Labels, ∀ i ∈ range d.1.rows,
      0 ≤ if d.2.get i = y'.get i then 0 else cw.get (d.2.get i) := by
    intro d hd' y' i hi
    split
    · exact le_rfl
    · exact hpos' _ ((hd d hd').2.2.2 i (mem_range.mp hi))
  have hzero : ∀ d ∈ data, ∀ y' : Labels, weightedHamming d.1.rows cw.get d.2.get y'.get = 0 ↔
      ∀ i < d.1.rows, y'.get i = d.2.get i := by
    intro d hd' y'
    unfold weightedHamming
    rw [sum_eq_zero_iff_of_nonneg (hterm d hd' y')]
    constructor
    · intro h i hi
      have h1 := h i (mem_range.mpr hi)
      by_contra hne
      rw [if_neg (Ne.symm hne)] at h1
      exact absurd h1 (hpos _ ((hd d hd').2.2.2 i hi)).ne'
    · intro h i hi
      rw [if_pos (h i (mem_range.mp hi)).symm]
  have hpred : ∀ d ∈ data, ∀ w, ∃ y : Labels, M.inference (chainX d.1) w = .discrete y ∧ y.size = d.1.rows ∧
      Valid d.1.rows m.nStates y.get := by
    intro d hd' w
    have := (hinf (chainX d.1) (.discrete d.2) w
      (hlab (chainX d.1, .discrete d.2) (List.mem_map.mpr ⟨d, hd', rfl⟩)).2).1
    obtain ⟨-, -, y, hy, h1, h2⟩ := this
    exact ⟨y, hy, h1, h2⟩
  have hfeat : ∀ d ∈ data, ∀ y' : Labels, (.discrete y' : YVal) ∈ outputsOver m (chainOutputs m.nStates) (chainX d.1) →
      ∑ k ∈ range (sizeJointFeature m), (graphFeature m (chainX d.1) (.discrete d.2) k -
        graphFeature m (chainX d.1) (.discrete y') k) ^ 2 ≤ R := by
    intro d hd' y' hy'
    have hs : ((chainX d.1, .discrete d.2) : X × YVal) ∈ chainSamples data := List.mem_map.mpr ⟨d, hd', rfl⟩
    have hRs : ∀ s ∈ chainSamples data, featureBound m s.1 ≤ R := by
      intro s hs
      obtain ⟨d, hd', rfl⟩ := List.mem_map.mp hs
      exact hR d hd'
    exact graph_range (backend := fun _ => maxProductInfer opts) (cw := cw) hS chain_relaxed _ R hRs _ hs _ (hlab _ hs).2 _ hy'
  have hml : 0 < ((chainSamples data).map fun s => M.maxLoss s.2).sum := by
    have hone : ∀ d ∈ data, 0 < graphMaxLoss cw (.discrete d.2) := by
      intro d hd'
      obtain ⟨h1, h2, h3, h4⟩ := hd d hd'
      have hcw : ∀ i < d.2.size, d.2.get i < cw.size := by rw [hc, h3]; exact h4
      change 0 < okD 0 (Loss.maxLoss (some cw) d.2)
      unfold Loss.maxLoss
      simp only
      rw [if_pos hcw]
      change 0 < ∑ i ∈ range d.2.size, cw.get (d.2.get i)
      refine sum_pos (fun i hi => hpos _ (h4 i ?_)) ⟨0, mem_range.mpr (by omega)⟩
      have := mem_range.mp hi
      omega
    obtain ⟨d, l, rfl⟩ := List.exists_cons_of_ne_nil hne
    unfold chainSamples
    rw [List.map_map, List.map_cons, List.sum_cons]
    refine add_pos_of_pos_of_nonneg (hone d List.mem_cons_self) (List.sum_nonneg fun v hv => ?_)
    obtain ⟨d', hd', rfl⟩ := List.mem_map.mp hv
    exact (hone d' (List.mem_cons_of_mem _ hd')).le
  obtain ⟨o', hfit, -, hgood⟩ := C52_converges M (outputsOver m (chainOutputs m.nStates)) o (chainSamples data) u γ R
    hγ hR0 hon hlr havg hinf (fun s hs => (hlab s hs).2) (by
      intro s hs w
      obtain ⟨d, hd', rfl⟩ := List.mem_map.mp hs
      obtain ⟨y, hy, h1, h2⟩ := hpred d hd' w
      simp only [hy]
      rw [hloss d hd' y h1 h2]
      exact sum_nonneg (hterm d hd' y)) hml (by
      rintro s hs v ⟨-, -, y', rfl, h1, h2⟩ hl0
      obtain ⟨d, hd', rfl⟩ := List.mem_map.mp hs
      refine hsep d hd' y' h1 h2 ?_
      by_contra hcon
      push Not at hcon
      apply hl0
      change M.loss (.discrete d.2) (.discrete y') = 0
      rw [hloss d hd' y' h1 h2]
      exact (hzero d hd' y').mpr hcon) (by
      rintro s hs v hv hl0
      obtain ⟨-, -, y', rfl, h1, h2⟩ := id hv
      obtain ⟨d, hd', rfl⟩ := List.mem_map.mp hs
      exact hfeat d hd' y' hv) hiter
  refine ⟨o', hfit, fun d hd' => ?_⟩
  obtain ⟨y, hy, h1, h2⟩ := hpred d hd' o'.w
  refine ⟨y, hy, h1, ?_⟩
  have h3 := hgood (chainX d.1, .discrete d.2) (List.mem_map.mpr ⟨d, hd', rfl⟩)
  simp only [hy] at h3
  rw [hloss d hd' y h1 h2] at h3
  exact (hzero d hd' y).mp h3

/-! ### examples -/

/-- one sequence of two positions with one feature each, labelled 0, 1; two states, symmetric pairwise potentials. -/
def chainExampleModel : Model := ⟨2, 1, false⟩

/-- uniform class weights. -/
def chainExampleWeights : Vec := ⟨2, fun _ => 1⟩

/-- the training data. -/
def chainExampleData : List (Mat × Labels) := [(⟨2, 1, fun i _ => if i = 0 then 1 else -1⟩, ⟨2, fun i => i⟩)]

theorem chainExample_data : ChainData chainExampleModel chainExampleData := by
  intro d hd
  rw [chainExampleData, List.mem_singleton] at hd
  subst hd
  exact ⟨by decide, rfl, rfl, fun i hi => hi⟩

theorem chainExample_bound : ∀ d ∈ chainExampleData, featureBound chainExampleModel (chainX d.1) ≤ 20 := by
  intro d hd
  rw [chainExampleData, List.mem_singleton] at hd
  subst hd
  decide +kernel

/-- the joint feature of the true labels minus that of the labels 1, 0. -/
def chainExampleCut : W := fun k => if k = 0 then 2 else if k = 1 then -2 else 0

/-- solver for the QP of the first iteration. -/
def chainExampleSolver : QP.Solver :=
  tableSolver 5 1 [([(fun _ => 0, 0), (chainExampleCut, 2)], [3 / 4, 1 / 4], 0)]

theorem chainExampleSolver_exact : QP.Exact chainExampleSolver :=
  tableSolver_exact _ _ _ (by decide +kernel)

theorem chainExampleSolver_first : FirstAttempt chainExampleSolver 5 1 := by
  intro cs sol h
  rcases solveQP_ok h with h | ⟨-, h⟩
  · exact h
  · exfalso
    unfold chainExampleSolver tableSolver at h
    rw [Option.map_eq_some_iff] at h
    obtain ⟨e, he, -⟩ := h
    have h1 := List.find?_some he
    have h2 := List.mem_of_find?_eq_some he
    rw [List.mem_singleton] at h2
    subst h2
    simp only [decide_eq_true_eq] at h1
    have h3 : ((OneSlack.qpOf 5 none 1 cs (1 / 10 ^ 8)).P.getD 0 []).getD 0 0 =
        ((OneSlack.qpOf 5 none 1 [(fun _ => 0, 0), (chainExampleCut, 2)] 0).P.getD 0 []).getD 0 0 := by rw [h1]
    have h5 : (OneSlack.qpOf 5 none 1 cs (1 / 10 ^ 8)).P.length = 2 := by rw [h1]; rfl
    have h4 : ((OneSlack.qpOf 5 none 1 [(fun _ => 0, 0), (chainExampleCut, 2)] 0).P.getD 0 []).getD 0 0 = 0 := by
      decide +kernel
    rw [h4] at h3
    cases cs with
    | nil => simp [OneSlack.qpOf] at h5
    | cons c cs =>
      simp [OneSlack.qpOf, List.mapIdx_cons] at h3
      have := dot_self_nonneg 5 c.1
      linarith

/-- A fresh learner with `tol=1/2`, `C=1`, no cache and no pruning. -/
def chainExampleOS : OneSlack.Obj YVal :=
  ⟨⟨330, 1, false, none, false, 0, 1 / 2, 0, 1 / 10 ^ 5, 0, .auto⟩, none, []⟩

/-- All hypotheses of `C88_oneslack` are met, with `R = 20` and `μ = 1/160`, and training returns. -/
example : ∃ o' a p, OneSlack.fit (graphModel (fun _ => maxProductInfer {}) chainExampleWeights chainExampleModel)
      chainExampleSolver (fun _ _ => .ok false) none (fun _ => none) chainExampleOS (chainSamples chainExampleData)
      .no = .ok o' ∧ o'.attrs = some a ∧ a.objectiveCurve = [1 / 4, 1 / 4] ∧
    (chainProblem {} chainExampleWeights chainExampleModel).IsObjective 1 (chainSamples chainExampleData) a.w p := by
  have key : (OneSlack.fit (graphModel (fun _ => maxProductInfer {}) chainExampleWeights chainExampleModel)
      chainExampleSolver (fun _ _ => .ok false) none (fun _ => none) chainExampleOS (chainSamples chainExampleData)
      .no).toOption.bind (fun o => o.attrs.map fun a => a.objectiveCurve) = some [1 / 4, 1 / 4] := by
    decide +kernel
  cases hfit : OneSlack.fit (graphModel (fun _ => maxProductInfer {}) chainExampleWeights chainExampleModel)
      chainExampleSolver (fun _ _ => .ok false) none (fun _ => none) chainExampleOS (chainSamples chainExampleData)
      .no with
  | error err => rw [hfit] at key; simp [Except.toOption] at key
  | ok o' =>
    rw [hfit] at key
    obtain ⟨a, p, h1, h2, -⟩ := C88_oneslack {} chainExampleWeights chainExampleModel (by decide) rfl
      (by decide +kernel) chainExampleData chainExample_data chainExampleSolver chainExampleSolver_exact
      (fun _ _ => .ok false) chainExampleOS o' (by decide +kernel) (by decide +kernel) rfl rfl
      (by have := chainExampleSolver_first; change FirstAttempt _ 5 (1 * ((1 : ℕ) : ℚ)); simpa using this)
      20 (by norm_num) chainExample_bound (1 / 160) (by norm_num) (by decide +kernel) (by decide +kernel)
      (by decide +kernel) hfit
    refine ⟨o', a, p, rfl, h1, ?_, h2⟩
    change o'.attrs.map (fun a => a.objectiveCurve) = _ at key
    rw [h1] at key
    simpa using key

/-- All hypotheses of `C88_frankwolfe` are met with `tol = 1`, `C = 1` and 340 passes. -/
example : ∃ o' w p, FrankWolfe.fit (graphModel (fun _ => maxProductInfer {}) chainExampleWeights chainExampleModel)
      (fun _ => [0]) ⟨⟨340, 1, 1, false, true, 1, false⟩, none, none, ⟨[], []⟩⟩ (chainSamples chainExampleData) =
      .ok o' ∧ o'.w = some w ∧
    (chainProblem {} chainExampleWeights chainExampleModel).IsObjective 1 (chainSamples chainExampleData) w p ∧
    ∀ v obj, (chainProblem {} chainExampleWeights chainExampleModel).IsObjective 1 (chainSamples chainExampleData) v obj →
      p < obj + 1 :=
  C88_frankwolfe {} chainExampleWeights chainExampleModel (by decide) rfl (by decide +kernel) chainExampleData (by decide)
    chainExample_data (fun _ => [0]) (fun _ => List.Perm.refl _) ⟨⟨340, 1, 1, false, true, 1, false⟩, none, none, ⟨[], []⟩⟩
    rfl rfl rfl rfl rfl (by norm_num) (by norm_num) (by decide) (by decide) 20 (by norm_num) chainExample_bound
    (by decide +kernel)

/-- All hypotheses of `C88_perceptron` are met with `u = (1, -1, 0, 0, 0)`, margin 2 and 11 passes. -/
example : ∃ o', Perceptron.fit (graphModel (fun _ => maxProductInfer {}) chainExampleWeights chainExampleModel)
      ⟨⟨11, false, fun _ => 1⟩, .off, fun _ => 0, []⟩ (chainSamples chainExampleData) = .ok o' ∧
    ∀ d ∈ chainExampleData, ∃ y : Labels,
      (graphModel (fun _ => maxProductInfer {}) chainExampleWeights chainExampleModel).inference (chainX d.1) o'.w =
        .discrete y ∧ y.size = d.1.rows ∧ ∀ i < d.1.rows, y.get i = d.2.get i := by
  refine C88_perceptron {} chainExampleWeights chainExampleModel (by decide) rfl (by decide +kernel) chainExampleData (by decide)
    chainExample_data ⟨⟨11, false, fun _ => 1⟩, .off, fun _ => 0, []⟩ rfl (fun _ => rfl) rfl
    (vec2 1 (-1)) 2 20 (by norm_num) (by norm_num) chainExample_bound ?_ (by decide +kernel)
  intro d hd y' h1 h2 h3
  rw [chainExampleData, List.mem_singleton] at hd
  subst hd
  have key : ∀ y : Labels, y.size = 2 → Valid 2 2 y.get →
      dot (sizeJointFeature chainExampleModel) (vec2 1 (-1)) (graphFeature chainExampleModel
        (chainX ⟨2, 1, fun i _ => if i = 0 then 1 else -1⟩) (.discrete y)) =
      (if y.get 0 = 0 then 1 else -1) - (if y.get 1 = 0 then 1 else -1) := by
    intro y hs hy
    have hE : EdgesIn 2 (makeChainEdges 2) := by rw [makeChainEdges_eq]; exact chainEdges_in _
    rw [value_output rfl hE (by decide) (.inl ⟨y, rfl, hs, hy⟩)]
    refine (outputScore_labelling (n := 2) (S := 2) (edges := makeChainEdges 2) hE hy _ _).trans ?_
    have e0 := hy 0 (by norm_num)
    have e1 := hy 1 (by norm_num)
    have hfin : ∀ a < 2, ∀ b < 2,
        UN chainExampleModel ⟨2, 1, fun i _ => if i = 0 then 1 else -1⟩ (vec2 1 (-1)) 0 a +
          UN chainExampleModel ⟨2, 1, fun i _ => if i = 0 then 1 else -1⟩ (vec2 1 (-1)) 1 b +
          PW chainExampleModel (vec2 1 (-1)) a b = (if a = 0 then 1 else -1) - (if b = 0 then 1 else -1) := by
      decide +kernel
    have h := hfin _ e0 _ e1
    rw [← h]
    unfold Spec.score
    rw [show makeChainEdges 2 = [(0, 1)] by decide +kernel]
    rw [sum_range_succ, sum_range_one, List.length_singleton, sum_range_one]
    rfl
  rw [key _ rfl (fun i hi => hi), key y' h1 h2]
  have e0 : y'.get 0 < 2 := h2 0 (by decide)
  have e1 : y'.get 1 < 2 := h2 1 (by decide)
  have e2 : ¬(y'.get 0 = 0 ∧ y'.get 1 = 1) := by
    rintro ⟨ha, hb⟩
    obtain ⟨i, hi, hne⟩ := h3
    have hi : i < 2 := hi
    rcases (by omega : i = 0 ∨ i = 1) with rfl | rfl
    · exact hne ha
    · exact hne hb
  have hfin : ∀ a < 2, ∀ b < 2, ¬(a = 0 ∧ b = 1) → (2 : ℚ) ≤ ((if (0 : ℕ) = 0 then 1 else -1) -
      (if (1 : ℕ) = 0 then 1 else -1)) - ((if a = 0 then 1 else -1) - (if b = 0 then 1 else -1)) := by
    decide +kernel
  exact hfin _ e0 _ e1 e2

end Verif.Props
