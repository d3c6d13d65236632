import Verif.Props.C93
import Verif.Props.C91

/-!
# C93 for graph CRFs, and C94: which constraints the n-slack learner takes for known
-/

namespace Verif.Props

open Finset Verif.Common Verif.GraphCRF Verif.Spec Verif.Learner Verif.NSlack Verif.Dispatch Verif.MaxProd

/-! ### labellings with the same labels -/

theorem nodeMarg_congr {n S : ℕ} {y z : Labels} (h : ∀ i < n, y.get i = z.get i) {i : ℕ} (hi : i < n) (s : ℕ) :
    nodeMarg S (.discrete y) i s = nodeMarg S (.discrete z) i s := by
  unfold nodeMarg
  simp only [h i hi]

theorem edgeMarg_congr {n S : ℕ} {edges : Edges} (hE : EdgesIn n edges) {y z : Labels} (h : ∀ i < n, y.get i = z.get i) {e : ℕ}
    (he : e < edges.length) (a b : ℕ) : edgeMarg S edges (.discrete y) e a b = edgeMarg S edges (.discrete z) e a b := by
  obtain ⟨h1, h2⟩ := hE _ (getD_mem he)
  unfold edgeMarg
  simp only [h _ h1, h _ h2]

theorem graphFeature_congr {m : Model} {x : X} (hx : Fits m x) (hS : 1 ≤ m.nStates) {y z : Labels}
    (hy : IsLabelling x.features.rows m.nStates (.discrete y)) (hz : IsLabelling x.features.rows m.nStates (.discrete z))
    (h : ∀ i < x.features.rows, y.get i = z.get i) : graphFeature m x (.discrete y) = graphFeature m x (.discrete z) := by
  obtain ⟨-, hF, hE⟩ := hx
  rw [graphFeature_output hF hE hS (.inl hy), graphFeature_output hF hE hS (.inl hz)]
  have e1 : (fun a b => ∑ e ∈ range x.edges.length, edgeMarg m.nStates x.edges (.discrete y) e a b) =
      fun a b => ∑ e ∈ range x.edges.length, edgeMarg m.nStates x.edges (.discrete z) e a b := by
    funext a b
    exact sum_congr rfl fun e he => edgeMarg_congr hE h (mem_range.mp he) a b
  have e2 : (fun s f => ∑ i ∈ range x.features.rows, nodeMarg m.nStates (.discrete y) i s * x.features.get i f) =
      fun s f => ∑ i ∈ range x.features.rows, nodeMarg m.nStates (.discrete z) i s * x.features.get i f := by
    funext s f
    exact sum_congr rfl fun i hi => by rw [nodeMarg_congr h (mem_range.mp hi)]
  unfold psi
  rw [e1, e2]

/-- For labellings the comparison of outputs is sound. -/
theorem graph_eqSound {backend : Bool → Infer} {cw : Vec} {m : Model} (hS : 1 ≤ m.nStates) (hc : cw.size = m.nStates)
    {O : ℕ → Edges → Set YVal} (hO : ∀ n edges, ∀ v ∈ O n edges, IsLabelling n m.nStates v) {data : List (X × Labels)}
    (hd : GraphData m data) : EqSound (graphModel backend cw m) (outputsOver m O) graphEq (graphSamples data) := by
  intro s hs a ha b hb heq
  obtain ⟨d, hd', rfl⟩ := List.mem_map.mp hs
  obtain ⟨hfit, h3, h4⟩ := hd d hd'
  have la := hO _ _ a ha.2
  have lb := hO _ _ b hb.2
  obtain ⟨y, rfl, hy, -⟩ := id la
  obtain ⟨z, rfl, hz, -⟩ := id lb
  simp only at hy hz la lb
  unfold graphEq at heq
  simp only [decide_eq_true_eq] at heq
  rw [hy] at heq
  refine ⟨?_, fun k _ => ?_⟩
  · rw [lossOf_output (edges := []) hS hc h3 h4 (.inl la), lossOf_output (edges := []) hS hc h3 h4 (.inl lb)]
    unfold marginalLoss
    exact sum_congr rfl fun i hi => by rw [nodeMarg_congr heq.2 (mem_range.mp hi)]
  · exact congrFun (graphFeature_congr hfit hS la lb heq.2) k

/-- A labelling without loss is the true one. -/
theorem graph_zeroLoss {backend : Bool → Infer} {cw : Vec} {m : Model} (hS : 1 ≤ m.nStates) (hc : cw.size = m.nStates)
    (hpos : ∀ c < m.nStates, 0 < cw.get c) {O : ℕ → Edges → Set YVal} (hO : ∀ n edges, ∀ v ∈ O n edges, IsLabelling n m.nStates v)
    {data : List (X × Labels)} (hd : GraphData m data) : ∀ s ∈ graphSamples data, ∀ v ∈ outputsOver m O s.1,
      (problemOf (graphModel backend cw m) (outputsOver m O)).loss s.2 v ≤ 0 → ∀ k < (graphModel backend cw m).dim,
        (problemOf (graphModel backend cw m) (outputsOver m O)).feat s.1 v s.2 k =
          (problemOf (graphModel backend cw m) (outputsOver m O)).feat s.1 s.2 s.2 k := by
  intro s hs v hv hl k _
  obtain ⟨d, hd', rfl⟩ := List.mem_map.mp hs
  obtain ⟨hfit, h3, h4⟩ := hd d hd'
  have lv := hO _ _ v hv.2
  obtain ⟨y, rfl, hy, -⟩ := id lv
  simp only at lv
  have hl' : (graphModel backend cw m).lossOf (.discrete d.2) (.discrete y) ≤ 0 := hl
  rw [lossOf_output (edges := []) hS hc h3 h4 (.inl lv)] at hl'
  have hnn : ∀ i ∈ range d.1.features.rows,
      0 ≤ cw.get (d.2.get i) * (1 - nodeMarg m.nStates (.discrete y) i (d.2.get i)) := by
    intro i hi
    refine mul_nonneg (hpos _ (h4 i (mem_range.mp hi))).le ?_
    unfold nodeMarg
    simp only
    split <;> norm_num
  have hz := (sum_eq_zero_iff_of_nonneg hnn).mp (le_antisymm hl' (sum_nonneg hnn))
  have hag : ∀ i < d.1.features.rows, y.get i = d.2.get i := by
    intro i hi
    by_contra hne
    have := hz i (mem_range.mpr hi)
    unfold nodeMarg at this
    simp only at this
    rw [if_neg (fun h => hne h.symm), sub_zero, mul_one] at this
    exact absurd this (hpos _ (h4 i hi)).ne'
  exact congrFun (graphFeature_congr hfit hS lv ⟨d.2, rfl, h3, h4⟩ hag) k

/-- N-slack training of a `GraphCRF` with any inference method that finds the best of a family of labellings. -/
theorem graph_nslack (backend : Bool → Infer) (cw : Vec) (m : Model) (hS : 2 ≤ m.nStates) (hc : cw.size = m.nStates)
    (hpos : ∀ c < m.nStates, 1 / 10 ^ 5 ≤ cw.get c) {O : ℕ → Edges → Set YVal}
    (hO : ∀ n edges, ∀ v ∈ O n edges, IsLabelling n m.nStates v) (hsolve : SolvesOver m.nStates O (backend true))
    (data : List (X × Labels)) (hA : AllLabellings m.nStates O data) (hne : data ≠ []) (hd : GraphData m data)
    (qp : QP.Solver) (hqp : QP.Exact qp) (hcomp : QP.Complete qp) (o : NSlack.Obj YVal) (hC : 0 < o.cfg.C)
    (htol : 0 < o.cfg.tol) (hneg : o.cfg.negativity = none) (hbr : o.cfg.breakOnBad = false)
    (hbat : o.cfg.batchSize = -1 ∨ 0 < o.cfg.batchSize) (hwin : o.cfg.inactiveWindow = 0)
    (R : ℚ) (hR : ∀ d ∈ data, featureBound m d.1 ≤ R)
    (δ : ℚ) (hδ : 1 / 10 ^ 5 ≤ δ) (h1 : 2 * o.cfg.tol ≤ o.cfg.C * δ) (h2 : 2 * R * o.cfg.tol ≤ δ ^ 2)
    (hmax : o.cfg.C * (data.map fun d => ∑ i ∈ range d.2.size, cw.get (d.2.get i)).sum <
      ((o.cfg.maxIter : ℚ) - 2) * o.cfg.tol) :
    ∃ o' noNew a p, NSlack.fit (graphModel backend cw m) qp graphEq none (fun _ _ => none) o (graphSamples data) none =
        .ok (o', .stopped noNew) ∧ o'.attrs = some a ∧
      (problemOf (graphModel backend cw m) (outputsOver m O)).IsObjective o.cfg.C (graphSamples data) a.w p ∧
      ∀ w obj, (problemOf (graphModel backend cw m) (outputsOver m O)).IsObjective o.cfg.C (graphSamples data) w obj →
        p ≤ obj + 2 * o.cfg.C * data.length * δ := by
  have hS1 : 1 ≤ m.nStates := by omega
  have hp0 : ∀ c < m.nStates, 0 < cw.get c := fun c h => lt_of_lt_of_le (by norm_num) (hpos c h)
  have hO' : ∀ n edges, ∀ v ∈ O n edges, IsRelaxed n m.nStates edges v := fun n e v hv => .inl (hO n e v hv)
  have hlab := graphData_labelled hd hA
  have hLA := graph_exact (backend := backend) hS1 hc hO' true hsolve
  have hl := graph_labelled (backend := backend) hS1 hc hlab
  have hlen : ((graphSamples data).length : ℚ) = data.length := by
    unfold graphSamples; rw [List.length_map]
  obtain ⟨B, hB, hBle⟩ := graph_zero_objective (backend := backend) hS1 hc (fun c h => (hp0 c h).le) hO' hsolve o.cfg.C hC.le hlab
  rw [graphSamples_maxLoss hc hd] at hBle
  have hRs : ∀ s ∈ graphSamples data, featureBound m s.1 ≤ R := by
    intro s hs
    obtain ⟨d, hd', rfl⟩ := List.mem_map.mp hs
    exact hR d hd'
  have hne' : graphSamples data ≠ [] := by
    unfold graphSamples
    simpa using hne
  have hla : ∀ s ∈ graphSamples data, ∀ w, (graphModel backend cw m).lossAug s.1 s.2 w true ∈ outputsOver m O s.1 :=
    fun s hs w => (hLA s.1 s.2 w (hl s hs).1 (hl s hs).2).1
  have hmi : o.cfg.maxIter ≠ 0 := by
    intro h0
    rw [h0] at hmax
    have h3 := objective_nonneg hC.le hl hB
    push_cast at hmax
    linarith
  obtain ⟨o', out, hfit⟩ := (C67_nslack_returns_iff_partial (graphModel backend cw m) qp hqp hcomp graphEq none o hbr hbat hC.le
    (by rw [hneg]; simp) (graphSamples data) hne').mpr ⟨hmi, by
      obtain ⟨d, hd'⟩ := List.exists_mem_of_ne_nil _ hne
      obtain ⟨hfit, h3, h4⟩ := hd d hd'
      have hs : ((d.1, .discrete d.2) : X × YVal) ∈ graphSamples data := List.mem_map.mpr ⟨d, hd', rfl⟩
      refine ⟨_, hs, ?_⟩
      have hlz : IsLabelling d.1.features.rows m.nStates
          (.discrete ⟨d.1.features.rows, fun i => if d.2.get i = 0 then 1 else 0⟩) := by
        refine ⟨_, rfl, rfl, fun i _ => ?_⟩
        change (if d.2.get i = 0 then 1 else 0) < m.nStates
        split <;> omega
      have hbest := (hLA _ _ (fun _ => 0) (hl _ hs).1 (hl _ hs).2).2 _ ⟨hfit, hA d hd' _ hlz⟩
      have hv : ∀ x y z, (problemOf (graphModel backend cw m) (outputsOver m O)).value (fun _ => 0) x y z = 0 := by
        intro x y z
        unfold Problem.value
        simp
      have hvi : ∀ x y z, (problemOf (graphModel backend cw m) (outputsOver m O)).violation (fun _ => 0) x y z =
          (graphModel backend cw m).lossOf y z := by
        intro x y z
        unfold Problem.violation
        rw [hv, hv, add_zero, sub_zero]
        rfl
      rw [hvi, hvi] at hbest
      refine le_trans ?_ hbest
      change _ ≤ (graphModel backend cw m).lossOf (.discrete d.2) _
      rw [lossOf_output (edges := []) hS1 hc h3 h4 (.inl hlz)]
      unfold marginalLoss
      have hnn : ∀ i ∈ range d.1.features.rows, 0 ≤ cw.get (d.2.get i) * (1 - nodeMarg m.nStates
          (.discrete ⟨d.1.features.rows, fun i => if d.2.get i = 0 then 1 else 0⟩) i (d.2.get i)) := by
        intro i hi
        refine mul_nonneg (hp0 _ (h4 i (mem_range.mp hi))).le ?_
        unfold nodeMarg
        simp only
        split_ifs <;> norm_num
      refine le_trans ?_ (single_le_sum hnn (mem_range.mpr hfit.1))
      unfold nodeMarg
      simp only
      have hn0 : ¬ d.2.get 0 = if d.2.get 0 = 0 then 1 else 0 := by
        intro h
        by_cases h0 : d.2.get 0 = 0 <;> simp [h0] at h
      rw [if_neg hn0, sub_zero, mul_one]
      exact hpos _ (h4 0 hfit.1)⟩
  have hmaxB : B < ((o.cfg.maxIter : ℚ) - 2) * o.cfg.tol := lt_of_le_of_lt hBle hmax
  obtain ⟨noNew, rfl⟩ := C93_stops (graphModel backend cw m) (outputsOver m O) qp hqp graphEq o o' (graphSamples data) hC hl hla
    htol _ B hB hmaxB out hfit
  obtain ⟨a, p, e1, e2, e3⟩ := C93_converges (graphModel backend cw m) (outputsOver m O) qp hqp graphEq o o' (graphSamples data)
    (graph_eqSound hS1 hc hO hd) hC hneg hwin hl hLA (graph_zeroLoss hS1 hc hp0 hO hd) (complete_nfirst hcomp _ hC.le _) R δ
    (graph_range hS1 hO' _ R hRs) hδ htol h1 h2 _ B hB hmaxB _ hfit
  rw [hlen] at e3
  exact ⟨o', noNew, a, p, hfit, e1, e2, e3⟩

/-- **C93, chains.** A fresh `NSlackSSVM` with `inactive_window=0` and an exact QP solver, trained on labelled sequences with
a `ChainCRF` with two or more states and max-product inference. Let `R` bound `featureBound` over the sequences, `L` be the
sum of the class weights of all labels, `δ ≥ 1e-5` with `2 tol ≤ C δ` and `2 R tol ≤ δ²`, and `C L < (max_iter - 2) tol`. Then
training stops by itself, and the risk of the learned weights is within `2 C n δ` of that of any weights. -/
theorem C93_chain (opts : Opts) (cw : Vec) (m : Model) (hS : 2 ≤ m.nStates) (hc : cw.size = m.nStates)
    (hpos : ∀ c < m.nStates, 1 / 10 ^ 5 ≤ cw.get c) (data : List (Mat × Labels)) (hne : data ≠ []) (hd : ChainData m data)
    (qp : QP.Solver) (hqp : QP.Exact qp) (hcomp : QP.Complete qp) (o : NSlack.Obj YVal) (hC : 0 < o.cfg.C)
    (htol : 0 < o.cfg.tol) (hneg : o.cfg.negativity = none) (hbr : o.cfg.breakOnBad = false)
    (hbat : o.cfg.batchSize = -1 ∨ 0 < o.cfg.batchSize) (hwin : o.cfg.inactiveWindow = 0)
    (R : ℚ) (hR : ∀ d ∈ data, featureBound m (chainX d.1) ≤ R)
    (δ : ℚ) (hδ : 1 / 10 ^ 5 ≤ δ) (h1 : 2 * o.cfg.tol ≤ o.cfg.C * δ) (h2 : 2 * R * o.cfg.tol ≤ δ ^ 2)
    (hmax : o.cfg.C * (data.map fun d => ∑ i ∈ range d.2.size, cw.get (d.2.get i)).sum <
      ((o.cfg.maxIter : ℚ) - 2) * o.cfg.tol) :
    ∃ o' noNew a p, NSlack.fit (graphModel (fun _ => maxProductInfer opts) cw m) qp graphEq none (fun _ _ => none) o
        (chainSamples data) none = .ok (o', .stopped noNew) ∧ o'.attrs = some a ∧
      (chainProblem opts cw m).IsObjective o.cfg.C (chainSamples data) a.w p ∧
      ∀ w obj, (chainProblem opts cw m).IsObjective o.cfg.C (chainSamples data) w obj →
        p ≤ obj + 2 * o.cfg.C * data.length * δ := by
  have hS1 : 1 ≤ m.nStates := by omega
  have e : chainSamples data = graphSamples (data.map fun d => (chainX d.1, d.2)) := by
    unfold chainSamples graphSamples
    rw [List.map_map]
    rfl
  have hgd : GraphData m (data.map fun d => (chainX d.1, d.2)) := by
    intro d hd'
    obtain ⟨b, hb, rfl⟩ := List.mem_map.mp hd'
    obtain ⟨h1, h2, h3, h4⟩ := hd b hb
    refine ⟨⟨h1, h2, ?_⟩, h3, h4⟩
    change EdgesIn b.1.rows (makeChainEdges b.1.rows)
    rw [makeChainEdges_eq]
    exact chainEdges_in _
  have hA : AllLabellings m.nStates (chainOutputs m.nStates) (data.map fun d => (chainX d.1, d.2)) := by
    intro d hd' v hv
    obtain ⟨b, hb, rfl⟩ := List.mem_map.mp hd'
    exact ⟨makeChainEdges_eq _, hv⟩
  have := graph_nslack (fun _ => maxProductInfer opts) cw m hS hc hpos (fun _ _ _ h => h.2) (chain_solves opts hS1)
    (data.map fun d => (chainX d.1, d.2)) hA (by simpa using hne) hgd qp hqp hcomp o hC htol hneg hbr hbat hwin R
    (by
      intro d hd'
      obtain ⟨b, hb, rfl⟩ := List.mem_map.mp hd'
      exact hR b hb) δ hδ h1 h2 (by rw [List.map_map]; exact hmax)
  rw [← e, List.length_map] at this
  exact this

/-- **C93, graphs.** The same for arbitrary graphs and an AD3 that finds the best labelling of every graph. -/
theorem C93_graph (P : Packages) (solve solve') (hP : P.ad3 = some (solve, solve')) (hex : Ad3AlwaysExact solve)
    (cw : Vec) (m : Model) (hS : 2 ≤ m.nStates) (hc : cw.size = m.nStates)
    (hpos : ∀ c < m.nStates, 1 / 10 ^ 5 ≤ cw.get c) (data : List (X × Labels)) (hne : data ≠ []) (hd : GraphData m data)
    (qp : QP.Solver) (hqp : QP.Exact qp) (hcomp : QP.Complete qp) (o : NSlack.Obj YVal) (hC : 0 < o.cfg.C)
    (htol : 0 < o.cfg.tol) (hneg : o.cfg.negativity = none) (hbr : o.cfg.breakOnBad = false)
    (hbat : o.cfg.batchSize = -1 ∨ 0 < o.cfg.batchSize) (hwin : o.cfg.inactiveWindow = 0)
    (R : ℚ) (hR : ∀ d ∈ data, featureBound m d.1 ≤ R)
    (δ : ℚ) (hδ : 1 / 10 ^ 5 ≤ δ) (h1 : 2 * o.cfg.tol ≤ o.cfg.C * δ) (h2 : 2 * R * o.cfg.tol ≤ δ ^ 2)
    (hmax : o.cfg.C * (data.map fun d => ∑ i ∈ range d.2.size, cw.get (d.2.get i)).sum <
      ((o.cfg.maxIter : ℚ) - 2) * o.cfg.tol) :
    ∃ o' noNew a p, NSlack.fit (graphModel (backend P (.name "ad3")) cw m) qp graphEq none (fun _ _ => none) o
        (graphSamples data) none = .ok (o', .stopped noNew) ∧ o'.attrs = some a ∧
      (graphProblem P (.name "ad3") cw m (labellings m.nStates)).IsObjective o.cfg.C (graphSamples data) a.w p ∧
      ∀ w obj, (graphProblem P (.name "ad3") cw m (labellings m.nStates)).IsObjective o.cfg.C (graphSamples data) w obj →
        p ≤ obj + 2 * o.cfg.C * data.length * δ :=
  graph_nslack (backend P (.name "ad3")) cw m hS hc hpos (fun _ _ _ h => h)
    (ad3_exact_solves P (by omega) hP hex true) data (fun _ _ _ h => h) hne hd qp hqp hcomp o hC htol hneg hbr hbat hwin R hR δ hδ
    h1 h2 hmax

/-- All hypotheses can be met, with the ideal QP solver and the training set of the example for `C88_oneslack`. -/
example : ∃ o' b, NSlack.fit (graphModel (fun _ => maxProductInfer {}) ⟨2, fun _ => 1⟩ chainExampleModel) QP.ideal
    graphEq none (fun _ _ => none)
    ⟨⟨1000, 1, true, none, false, 0, 100, 1 / 160, 1 / 10 ^ 5, 0⟩, none, []⟩ (chainSamples chainExampleData) none =
      .ok (o', .stopped b) := by
  obtain ⟨o', b, a, p, h1, -⟩ := C93_chain {} ⟨2, fun _ => 1⟩ chainExampleModel (by decide) rfl
    (by decide +kernel) chainExampleData (by decide) chainExample_data QP.ideal QP.ideal_exact.1 QP.ideal_exact.2
    ⟨⟨1000, 1, true, none, false, 0, 100, 1 / 160, 1 / 10 ^ 5, 0⟩, none, []⟩
    (by norm_num) (by norm_num) rfl rfl (.inr (by decide)) rfl 20 chainExample_bound (1 / 2) (by norm_num) (by norm_num)
    (by norm_num) (by decide +kernel)
  exact ⟨o', b, h1⟩

/-! ### C94: known constraints -/

/-- **C94, labellings.** A constraint of a label array is taken for known exactly if the working set has the constraint of
the same array. -/
theorem C94_labellings_partial (y : List ℕ) (old : List (NCon OneSlack.Output)) :
    (old.any fun c => plainEq (.discrete y) c.yhat) = true ↔ ∃ c ∈ old, c.yhat = .discrete y := by
  rw [List.any_eq_true]
  constructor
  · rintro ⟨c, hc, h⟩
    refine ⟨c, hc, ?_⟩
    cases hy : c.yhat with
    | discrete z =>
      rw [hy] at h
      simp only [plainEq, decide_eq_true_eq] at h
      rw [h]
    | relaxed u p => rw [hy] at h; cases h
    | multi u p => rw [hy] at h; cases h
  · rintro ⟨c, hc, h⟩
    exact ⟨c, hc, by rw [h]; simp [plainEq]⟩

/-- **C94 fails for tuples of marginals.** The constraint of a tuple of marginals is not added if the working set has a
constraint with the same unary marginals, whatever its pairwise marginals, its slack and the weights. -/
theorem C94_violated_relaxed (cfg : NSlack.Config) (dim : ℕ) (w : W) (u p p' : List ℚ) (dj : W) (loss slack : ℚ)
    (old : List (NCon OneSlack.Output)) (h : (⟨.relaxed u p', dj, loss⟩ : NCon OneSlack.Output) ∈ old) :
    NSlack.checkBad cfg plainEq dim w (.relaxed u p) slack old = .ok true := by
  unfold NSlack.checkBad
  split_ifs with h1 h2
  · rfl
  · rfl
  all_goals exact absurd (List.any_eq_true.mpr ⟨_, h, by simp [plainEq]⟩) h2

/-- **C94 fails for tuples of marginals, `GraphCRF`.** Two outputs of a `GraphCRF` are taken for the same exactly if both are
label arrays with the same entries or both are tuples of marginals with the same unary marginals; so a constraint whose
pairwise marginals differ from those of every constraint held is taken for known. -/
theorem C94_violated_graph (cfg : NSlack.Config) (dim : ℕ) (w : W) (slack : ℚ) (old : List (NCon YVal)) :
    (∀ u p v q, graphEq (.relaxed u p) (.relaxed v q) = true ↔ u.size = v.size ∧ ∀ i < u.size, u.get i = v.get i) ∧
    (∀ y z, graphEq (.discrete y) (.discrete z) = true ↔ y.size = z.size ∧ ∀ i < y.size, y.get i = z.get i) ∧
    (∀ y v q, graphEq (.discrete y) (.relaxed v q) = false ∧ graphEq (.relaxed v q) (.discrete y) = false) ∧
    ∀ u p p' dj loss, (⟨.relaxed u p', dj, loss⟩ : NCon YVal) ∈ old →
      NSlack.checkBad cfg graphEq dim w (.relaxed u p) slack old = .ok true := by
  refine ⟨fun u p v q => by simp [graphEq], fun y z => by simp [graphEq], fun y v q => ⟨rfl, rfl⟩, ?_⟩
  intro u p p' dj loss h
  unfold NSlack.checkBad
  split_ifs with h1 h2
  · rfl
  · rfl
  all_goals exact absurd (List.any_eq_true.mpr ⟨_, h, by simp [graphEq]⟩) h2

/-- The outputs of the example: two binary nodes that are joined by an edge, the labelling `(0, 0)`, and two fractional
labellings with the same unary marginals: both nodes agree, or both disagree. -/
def relaxedNames (y : ℕ) : OneSlack.Output :=
  if y = 0 then .discrete [0, 0]
  else if y = 1 then .relaxed [1 / 2, 1 / 2, 1 / 2, 1 / 2] [1 / 2, 0, 0, 1 / 2]
  else .relaxed [1 / 2, 1 / 2, 1 / 2, 1 / 2] [0, 1 / 2, 1 / 2, 0]

/-- one feature: 1/2 (scaled) for disagreeing nodes, -1/2 for fractional agreeing ones. -/
def relaxedTable : SModel Unit ℕ :=
  tableModel 1 3 (fun y => if y = 1 then vec2 1 0 else if y = 2 then vec2 (-1) 0 else vec2 0 0) (fun _ => 1)

/-- solver for the only problem that occurs. -/
def relaxedSolver : QP.Solver := nTable 1 10 1 [⟨[[⟨1, vec2 1 0, 1⟩]], [1], [0]⟩]

set_option synthInstance.maxSize 2000

/-- **C94 fails for tuples of marginals, training.** With exact solver and exact inference, training stops because "there is
no new constraint", although the last constraint found has slack 2 and different joint features from the only one held; its
unary marginals are the same. The risk of the learned weights is 41/2, that of zero weights 10. -/
theorem C94_violated_training :
    QP.Exact relaxedSolver ∧
    (problemOf relaxedTable (fun _ => {y | y < 3})).ExactLossAug (fun x y w => relaxedTable.lossAug x y w true) ∧
    (problemOf relaxedTable (fun _ => {y | y < 3})).Labelled [((), 0)] ∧
    ∃ o a, NSlack.fit relaxedTable relaxedSolver (fun a b => plainEq (relaxedNames a) (relaxedNames b)) none
        (fun _ _ => none) (exampleNS 100 10 100 50) [((), 0)] none = .ok (o, .stopped true) ∧ o.attrs = some a ∧
      (problemOf relaxedTable (fun _ => {y | y < 3})).IsObjective 10 [((), 0)] a.w (41 / 2) ∧
      (problemOf relaxedTable (fun _ => {y | y < 3})).IsObjective 10 [((), 0)] (fun _ => 0) 10 := by
  have hl : (problemOf relaxedTable (fun _ => {y | y < 3})).Labelled [((), 0)] := by
    intro s hs
    rw [List.mem_singleton] at hs
    subst hs
    exact ⟨(by decide : 0 < 3), by decide +kernel⟩
  have hLA := tableModel_exact 1 3
    (fun y => if y = 1 then vec2 1 0 else if y = 2 then vec2 (-1) 0 else vec2 0 0) (fun _ => 1) true
  refine ⟨nTable_exact _ _ _ _ (by decide +kernel), hLA, hl, ?_⟩
  have key : (do
      let (o, out) ← NSlack.fit relaxedTable relaxedSolver (fun a b => plainEq (relaxedNames a) (relaxedNames b)) none
        (fun _ _ => none) (exampleNS 100 10 100 50) [((), 0)] none
      match o.attrs with
      | none => .error .valueError
      | some a =>
        let p ← objectivePrimal relaxedTable a.w [((), 0)] 10 true
        pure (p, out)) = .ok (41 / 2, .stopped true) := by decide +kernel
  obtain ⟨⟨o, out⟩, ho, h1⟩ := bind_eq_ok.mp key
  simp only at h1
  cases ha : o.attrs with
  | none => rw [ha] at h1; cases h1
  | some a =>
    rw [ha] at h1
    obtain ⟨p, hp, h2⟩ := bind_eq_ok.mp h1
    simp only [pure, Except.pure, Except.ok.injEq, Prod.mk.injEq] at h2
    obtain ⟨rfl, rfl⟩ := h2
    refine ⟨o, a, ho, ha, ?_, ?_⟩
    · obtain ⟨obj, hob, hiso⟩ := C30_objective relaxedTable (fun _ => {y | y < 3}) hLA [((), 0)] hl (by simp)
        a.w 10 true
      rw [hp, Except.ok.injEq] at hob
      rw [hob]
      exact hiso
    · obtain ⟨obj, hob, hiso⟩ := C30_objective relaxedTable (fun _ => {y | y < 3}) hLA [((), 0)] hl (by simp)
        (fun _ => 0) 10 true
      have : objectivePrimal relaxedTable (fun _ => 0) [((), 0)] 10 true = .ok 10 := by
        decide +kernel
      rw [this, Except.ok.injEq] at hob
      rw [← hob] at hiso
      exact hiso

end Verif.Props
