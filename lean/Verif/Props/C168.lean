import Verif.Lemmas.Rescale
import Verif.Props.C91
import Verif.Props.C160

/-!
# C168: only the differences between potentials matter, not their scale

Multiplying all potentials by a positive number, adding a constant to those of one node (or one edge), does not change
which labellings are best. The full claim - it does not change what is predicted either - is false for the code with
`max-product` on graphs with cycles: the number of rounds depends on the absolute size of the messages, which in one of
the two directions are not normalised (`C168_violated_loopy`).
-/

namespace Verif.Props

open Finset Verif.Common Verif.MaxProd Verif.Spec Verif.Lemmas

/-- **C168 (partial), max-product without cycles.** `inference_max_product` on a graph without cycles returns the same
labels, ties included, for potentials which differ by a positive factor and by a constant per node and edge; the calls
which raise an exception are the same. Missing: graphs with cycles, for which it is false. -/
theorem C168_max_product_partial (opts : Opts) {n S : ℕ} {a : ℚ} {U U' : ℕ → ℕ → ℚ} {P P' : ℕ → ℕ → ℕ → ℚ}
    {pw pw' : Pairwise} {edges : Edges} (hP : Denotes S edges.length pw P) (hP' : Denotes S edges.length pw' P')
    (hc : ¬ HasCycle edges) (h : Rescaled n S edges.length a U U' P P') :
    SameAnswer (inferenceMaxProduct opts ⟨n, S, U⟩ pw edges) (inferenceMaxProduct opts ⟨n, S, U'⟩ pw' edges) := by
  unfold inferenceMaxProduct
  rw [validateParams_denotes (unary := ⟨n, S, U⟩) hP, validateParams_denotes (unary := ⟨n, S, U'⟩) hP']
  simp only
  by_cases hch : isChain edges n = true
  · rw [if_pos hch, if_pos hch]
    obtain ⟨r, r', h1, h2, h3⟩ := viterbi_rescaled h
    rw [h1, h2]
    rcases h3 with ⟨err, rfl, rfl⟩ | ⟨y, y', rfl, rfl, hy⟩
    · exact Or.inl ⟨err, rfl, rfl⟩
    · exact Or.inr ⟨_, _, rfl, rfl, rfl, hy⟩
  · rw [if_neg hch, if_neg hch]
    by_cases hE : EdgesIn n edges
    · by_cases hne : edges = []
      · subst hne
        have hn : n ≠ 0 := by
          rintro rfl
          exact hch (by decide)
        refine Or.inl ⟨.valueError, ?_, ?_⟩ <;> simp [isForest, hn]
      · obtain ⟨b, hb, hbiff⟩ := isForest_ok edges n hne hE
        rw [hb, hbiff.mpr hc]
        exact tree_rescaled edges h
    · cases hf : isForest edges (some n) with
      | error err => exact Or.inl ⟨err, rfl, rfl⟩
      | ok b =>
        cases b with
        | true => exact tree_rescaled edges h
        | false =>
          simp only
          unfold iterativeMaxProduct
          by_cases hS : S = 0
          · exact Or.inl ⟨.valueError, by rw [if_pos hS], by rw [if_pos hS]⟩
          have hE' : ¬ ∀ e ∈ edges, e.1 < n ∧ e.2 < n := hE
          rw [if_neg hS, if_neg hS, if_pos hE', if_pos hE']
          by_cases hk : opts.maxIter = 0
          · rw [if_pos hk, if_pos hk]
            refine Or.inr ⟨_, _, rfl, rfl, rfl, fun v hv => ?_⟩
            obtain ⟨⟨c, hc'⟩, -⟩ := rescaled_shift h
            refine argmaxN_rescaled h.pos (c := c v) fun s hs => ?_
            have e2 := hc' v hv s hs
            simp only
            rw [e2]
            ring
          · exact Or.inl ⟨.indexError, by rw [if_neg hk], by rw [if_neg hk]⟩

/-- **C168 (partial), rounds of message passing.** On any graph `iterative_max_product` returns the same labels if the
stopping rule is switched off (`tol ≤ 0`), whatever the number of rounds and the damping. Missing: the default
tolerance, for which it is false. -/
theorem C168_loopy_partial {n S : ℕ} {a : ℚ} {U U' : ℕ → ℕ → ℚ} {P P' : ℕ → ℕ → ℕ → ℚ} {edges : Edges}
    (h : Rescaled n S edges.length a U U' P P') (maxIter : ℕ) (damping tol : ℚ) (htol : tol ≤ 0) :
    SameAnswer (iterativeMaxProduct ⟨n, S, U⟩ P edges maxIter damping tol)
      (iterativeMaxProduct ⟨n, S, U'⟩ P' edges maxIter damping tol) := by
  obtain ⟨⟨c, hc⟩, -⟩ := rescaled_shift h
  unfold iterativeMaxProduct
  by_cases hS : S = 0
  · exact Or.inl ⟨.valueError, by rw [if_pos hS], by rw [if_pos hS]⟩
  rw [if_neg hS, if_neg hS]
  by_cases hE : ∀ e ∈ edges, e.1 < n ∧ e.2 < n
  · rw [if_neg (not_not.mpr hE), if_neg (not_not.mpr hE)]
    have h0 : LoopyRel n S edges.length a ⟨fun _ _ => 0, fun _ _ => 0, fun _ _ => 0, 0⟩
        ⟨fun _ _ => 0, fun _ _ => 0, fun _ _ => 0, 0⟩ :=
      ⟨fun _ _ _ _ => by ring, ⟨fun _ => 0, fun _ _ _ _ => by ring⟩, ⟨fun _ => 0, fun _ _ _ _ => by ring⟩⟩
    obtain ⟨-, -, ⟨μ, hμ⟩⟩ := iter_rescaled (damping := damping) hE (by omega) h htol maxIter h0
    refine Or.inr ⟨_, _, rfl, rfl, rfl, fun v hv => ?_⟩
    refine argmaxN_rescaled h.pos (c := μ v + c v) fun s hs => ?_
    have e1 := hμ v hv s hs
    have e2 := hc v hv s hs
    simp only
    rw [e1, e2]
    ring
  · rw [if_pos hE, if_pos hE]
    by_cases hk : maxIter = 0
    · rw [if_pos hk, if_pos hk]
      refine Or.inr ⟨_, _, rfl, rfl, rfl, fun v hv => ?_⟩
      refine argmaxN_rescaled h.pos (c := c v) fun s hs => ?_
      have e2 := hc v hv s hs
      simp only
      rw [e2]
      ring
    · exact Or.inl ⟨.indexError, by rw [if_neg hk], by rw [if_neg hk]⟩

/-- **C168, unary inference.** -/
theorem C168_unary {n S : ℕ} {a : ℚ} {U U' : ℕ → ℕ → ℚ} {P P' : ℕ → ℕ → ℕ → ℚ} {pw pw' : Pairwise} {edges : Edges}
    (hP : Denotes S edges.length pw P) (hP' : Denotes S edges.length pw' P') (h : Rescaled n S edges.length a U U' P P') :
    SameAnswer (Dispatch.inferenceUnaries ⟨n, S, U⟩ pw edges) (Dispatch.inferenceUnaries ⟨n, S, U'⟩ pw' edges) := by
  unfold Dispatch.inferenceUnaries
  rw [validateParams_denotes (unary := ⟨n, S, U⟩) hP, validateParams_denotes (unary := ⟨n, S, U'⟩) hP']
  simp only
  by_cases hS : S = 0
  · exact Or.inl ⟨.valueError, by rw [if_pos hS], by rw [if_pos hS]⟩
  rw [if_neg hS, if_neg hS]
  obtain ⟨⟨c, hc⟩, -⟩ := rescaled_shift h
  exact Or.inr ⟨_, _, rfl, rfl, rfl, fun v hv => argmaxN_rescaled h.pos (hc v hv)⟩

theorem score_rescaled {n S : ℕ} {a : ℚ} {U U' : ℕ → ℕ → ℚ} {P P' : ℕ → ℕ → ℕ → ℚ} {edges : Edges} (hE : EdgesIn n edges)
    (h : Rescaled n S edges.length a U U' P P') :
    ∃ K, ∀ y, Valid n S y → Spec.score n edges U' P' y = a * Spec.score n edges U P y + K := by
  obtain ⟨⟨c, hc⟩, ⟨d, hd⟩⟩ := rescaled_shift h
  refine ⟨∑ i ∈ range n, c i + ∑ e ∈ range edges.length, d e, fun y hy => ?_⟩
  unfold Spec.score
  have h1 : ∑ i ∈ range n, U' i (y i) = a * ∑ i ∈ range n, U i (y i) + ∑ i ∈ range n, c i := by
    rw [mul_sum, ← sum_add_distrib]
    exact sum_congr rfl fun i hi => hc i (mem_range.mp hi) _ (hy i (mem_range.mp hi))
  have h2 : ∑ e ∈ range edges.length, P' e (y (edges.getD e (0, 0)).1) (y (edges.getD e (0, 0)).2) =
      a * ∑ e ∈ range edges.length, P e (y (edges.getD e (0, 0)).1) (y (edges.getD e (0, 0)).2) +
        ∑ e ∈ range edges.length, d e := by
    rw [mul_sum, ← sum_add_distrib]
    refine sum_congr rfl fun e he => ?_
    obtain ⟨h1, h2⟩ := hE _ (edge_mem (mem_range.mp he))
    exact hd e (mem_range.mp he) _ (hy _ h1) _ (hy _ h2)
  rw [h1, h2]
  ring

/-- **C168, best labellings.** The labellings of largest score are the same. -/
theorem C168_best {n S : ℕ} {a : ℚ} {U U' : ℕ → ℕ → ℚ} {P P' : ℕ → ℕ → ℕ → ℚ} {edges : Edges} (hE : EdgesIn n edges)
    (h : Rescaled n S edges.length a U U' P P') (y : ℕ → ℕ) : IsMAP n S edges U' P' y ↔ IsMAP n S edges U P y := by
  obtain ⟨K, hK⟩ := score_rescaled hE h
  refine and_congr_right fun hy => forall₂_congr fun z hz => ?_
  rw [hK z hz, hK y hy, add_le_add_iff_right, mul_le_mul_iff_right₀ h.pos]

theorem marginalScore_rescaled {n S : ℕ} {a : ℚ} {U U' : ℕ → ℕ → ℚ} {P P' : ℕ → ℕ → ℕ → ℚ} {edges : Edges}
    (hE : EdgesIn n edges) (h : Rescaled n S edges.length a U U' P P') :
    ∃ K, ∀ μ ν, LocalPolytope n S edges μ ν →
      marginalScore n S edges U' P' μ ν = a * marginalScore n S edges U P μ ν + K := by
  obtain ⟨⟨c, hc⟩, ⟨d, hd⟩⟩ := rescaled_shift h
  refine ⟨∑ i ∈ range n, c i + ∑ e ∈ range edges.length, d e, fun μ ν hμ => ?_⟩
  unfold marginalScore
  have h1 : ∑ i ∈ range n, ∑ s ∈ range S, U' i s * μ i s =
      a * ∑ i ∈ range n, ∑ s ∈ range S, U i s * μ i s + ∑ i ∈ range n, c i := by
    rw [mul_sum, ← sum_add_distrib]
    refine sum_congr rfl fun i hi => ?_
    have hi' := mem_range.mp hi
    rw [mul_sum]
    calc ∑ s ∈ range S, U' i s * μ i s = ∑ s ∈ range S, (a * (U i s * μ i s) + c i * μ i s) :=
          sum_congr rfl fun s hs => by rw [hc i hi' s (mem_range.mp hs)]; ring
      _ = _ := by rw [sum_add_distrib, ← mul_sum (range S) (fun s => μ i s) (c i), hμ.normalised i hi', mul_one]
  have h2 : ∑ e ∈ range edges.length, ∑ s ∈ range S, ∑ t ∈ range S, P' e s t * ν e s t =
      a * ∑ e ∈ range edges.length, ∑ s ∈ range S, ∑ t ∈ range S, P e s t * ν e s t + ∑ e ∈ range edges.length, d e := by
    rw [mul_sum, ← sum_add_distrib]
    refine sum_congr rfl fun e he => ?_
    have he' := mem_range.mp he
    have hone : ∑ s ∈ range S, ∑ t ∈ range S, ν e s t = 1 := by
      rw [sum_congr rfl fun s hs => hμ.first e he' s (mem_range.mp hs)]
      exact hμ.normalised _ (hE _ (edge_mem he')).1
    calc ∑ s ∈ range S, ∑ t ∈ range S, P' e s t * ν e s t =
          ∑ s ∈ range S, ∑ t ∈ range S, (a * (P e s t * ν e s t) + d e * ν e s t) :=
          sum_congr rfl fun s hs => sum_congr rfl fun t ht => by
            rw [hd e he' s (mem_range.mp hs) t (mem_range.mp ht)]; ring
      _ = a * ∑ s ∈ range S, ∑ t ∈ range S, P e s t * ν e s t + d e * ∑ s ∈ range S, ∑ t ∈ range S, ν e s t := by
          simp only [sum_add_distrib, mul_sum]
      _ = _ := by rw [hone, mul_one]
  rw [h1, h2]
  ring

/-- **C168, best marginals.** The solutions of the relaxation are the same. -/
theorem C168_relaxed {n S : ℕ} {a : ℚ} {U U' : ℕ → ℕ → ℚ} {P P' : ℕ → ℕ → ℕ → ℚ} {edges : Edges} (hE : EdgesIn n edges)
    (h : Rescaled n S edges.length a U U' P P') (μ : ℕ → ℕ → ℚ) (ν : ℕ → ℕ → ℕ → ℚ) :
    BestMarginals n S edges U' P' μ ν ↔ BestMarginals n S edges U P μ ν := by
  obtain ⟨K, hK⟩ := marginalScore_rescaled hE h
  refine and_congr_right fun hμ => forall_congr' fun μ' => forall₂_congr fun ν' hμ' => ?_
  rw [hK _ _ hμ', hK _ _ hμ, add_le_add_iff_right, mul_le_mul_iff_right₀ h.pos]

/-- **C168, linear programs.** The programs which `inference_lp` hands to the solver have the same solutions. -/
theorem C168_lp {n S : ℕ} (hn : 1 ≤ n) (hS : 1 ≤ S) {a : ℚ} {U U' : ℕ → ℕ → ℚ} {P P' : ℕ → ℕ → ℕ → ℚ} {edges : Edges}
    (hE : EdgesIn n edges) (h : Rescaled n S edges.length a U U' P P') :
    ∃ p p', LP.build ⟨n, S, fun i s => - U i s⟩ edges ⟨edges.length, S, S, fun e s t => - P e s t⟩ = .ok p ∧
      LP.build ⟨n, S, fun i s => - U' i s⟩ edges ⟨edges.length, S, S, fun e s t => - P' e s t⟩ = .ok p' ∧
      ∀ x, p'.Optimal x ↔ p.Optimal x := by
  obtain ⟨p, hp, hfeas⟩ := C09_local_polytope ⟨n, S, fun i s => - U i s⟩ edges
    ⟨edges.length, S, S, fun e s t => - P e s t⟩ hn hS rfl rfl rfl hE
  obtain ⟨p', hp', hfeas'⟩ := C09_local_polytope ⟨n, S, fun i s => - U' i s⟩ edges
    ⟨edges.length, S, S, fun e s t => - P' e s t⟩ hn hS rfl rfl rfl hE
  refine ⟨p, p', hp, hp', fun x => ?_⟩
  have o1 := objective_eq ⟨n, S, fun i s => - U i s⟩ edges ⟨edges.length, S, S, fun e s t => - P e s t⟩ rfl rfl rfl
  have o2 := objective_eq ⟨n, S, fun i s => - U' i s⟩ edges ⟨edges.length, S, S, fun e s t => - P' e s t⟩ rfl rfl rfl
  rw [build_ok (unaries := ⟨n, S, fun i s => - U i s⟩) hn hS rfl rfl rfl] at hp
  rw [build_ok (unaries := ⟨n, S, fun i s => - U' i s⟩) hn hS rfl rfl rfl] at hp'
  injection hp with hp
  injection hp' with hp'
  have d1 : ∀ z, dot p.nVars p.c.get z = - marginalScore n S edges U P (nodeVars S z) (edgeVars n S z) := by
    intro z
    rw [← marginalScore_neg, ← hp]
    exact o1 z
  have d2 : ∀ z, dot p'.nVars p'.c.get z = - marginalScore n S edges U' P' (nodeVars S z) (edgeVars n S z) := by
    intro z
    rw [← marginalScore_neg, ← hp']
    exact o2 z
  obtain ⟨K, hK⟩ := marginalScore_rescaled hE h
  unfold LP.Program.Optimal
  rw [hfeas, hfeas']
  refine and_congr_right fun hx => ?_
  refine forall_congr' fun z => ?_
  rw [hfeas, hfeas']
  refine forall_congr' fun hz => ?_
  rw [d1, d1, d2, d2, hK _ _ hx, hK _ _ hz, neg_le_neg_iff, neg_le_neg_iff, add_le_add_iff_right, mul_le_mul_iff_right₀ h.pos]

/-! ### models -/

theorem UN_rescaled {m : GraphCRF.Model} {k : ℕ} {a : ℚ} {w w' : ℕ → ℚ} (h : RescaledWeights m.nStates m.nFeatures k a w w')
    (x : Mat) (i : ℕ) : SameDifferences m.nStates a (GraphCRF.UN m x w i) (GraphCRF.UN m x w' i) := by
  intro s hs t ht
  unfold GraphCRF.UN
  rw [← sum_sub_distrib, ← sum_sub_distrib, mul_sum]
  refine sum_congr rfl fun f hf => ?_
  have := h.unary f (mem_range.mp hf) s hs t ht
  simp only at this
  rw [← mul_sub, this]
  ring

/-- number of pairwise weights of a `GraphCRF`. -/
def pairWeights (m : GraphCRF.Model) : ℕ := if m.directed then m.nStates ^ 2 else m.nStates * (m.nStates + 1) / 2

theorem PW_index (m : GraphCRF.Model) {s t : ℕ} (hs : s < m.nStates) (ht : t < m.nStates) :
    ∃ i < pairWeights m, ∀ w, GraphCRF.PW m w s t = w (m.nStates * m.nFeatures + i) := by
  unfold GraphCRF.PW pairWeights
  by_cases hd : m.directed
  · exact ⟨s * m.nStates + t, by rw [if_pos hd, pow_two]; exact flat_lt hs ht, fun w => by rw [if_pos hd]⟩
  · rcases le_total t s with hle | hle
    · refine ⟨Sym.tri s + t, by rw [if_neg hd]; exact Sym.tri_add_lt hle hs, fun w => ?_⟩
      rw [if_neg hd, Sym.symEntry_lower _ hle]
    · refine ⟨Sym.tri t + s, by rw [if_neg hd]; exact Sym.tri_add_lt hle ht, fun w => ?_⟩
      rw [if_neg hd, Sym.symEntry_comm, Sym.symEntry_lower _ hle]

theorem graph_rescaled {m : GraphCRF.Model} {a : ℚ} {w w' : ℕ → ℚ}
    (h : RescaledWeights m.nStates m.nFeatures (pairWeights m) a w w') (x : Mat) (edges : Edges) :
    Rescaled x.rows m.nStates edges.length a (GraphCRF.UN m x w) (GraphCRF.UN m x w') (fun _ => GraphCRF.PW m w)
      (fun _ => GraphCRF.PW m w') := by
  refine ⟨h.pos, fun v _ => UN_rescaled h x v, fun e _ s hs t ht s' hs' t' ht' => ?_⟩
  obtain ⟨i, hi, e1⟩ := PW_index m hs ht
  obtain ⟨j, hj, e2⟩ := PW_index m hs' ht'
  rw [e1, e1, e2, e2]
  exact h.pairwise i hi j hj

/-- labels predicted by `GraphCRF.inference` with `max-product`. -/
def predictedLabels (opts : Opts) (m : GraphCRF.Model) (x : GraphCRF.X) (w : Vec) : Except PyErr Labels :=
  match GraphCRF.inference (maxProductInfer opts) m x w with
  | .error err => .error err
  | .ok (.discrete y) => .ok y
  | .ok (.relaxed _ _) => .error .typeError

/-- **C168 (partial), `GraphCRF`.** For graphs without cycles the labels predicted with `max-product` do not change when
all weights are multiplied by a positive number, when the weights of all states for one feature are increased by the same
amount, or when all pairwise weights are. -/
theorem C168_graph_partial (opts : Opts) (m : GraphCRF.Model) (x : GraphCRF.X) (hF : x.features.cols = m.nFeatures)
    (hc : ¬ HasCycle x.edges) {a : ℚ} {w w' : ℕ → ℚ} (h : RescaledWeights m.nStates m.nFeatures (pairWeights m) a w w') :
    SameAnswer (predictedLabels opts m x ⟨GraphCRF.sizeJointFeature m, w⟩)
      (predictedLabels opts m x ⟨GraphCRF.sizeJointFeature m, w'⟩) := by
  have key := C168_max_product_partial opts (U := GraphCRF.UN m x.features w) (U' := GraphCRF.UN m x.features w')
    (pw := .mat ⟨m.nStates, m.nStates, GraphCRF.PW m w⟩) (pw' := .mat ⟨m.nStates, m.nStates, GraphCRF.PW m w'⟩)
    ⟨rfl, rfl, fun _ _ _ => rfl⟩ ⟨rfl, rfl, fun _ _ _ => rfl⟩ hc (graph_rescaled h x.features x.edges)
  have e : ∀ v, predictedLabels opts m x ⟨GraphCRF.sizeJointFeature m, v⟩ =
      inferenceMaxProduct opts ⟨x.features.rows, m.nStates, GraphCRF.UN m x.features v⟩
        (.mat ⟨m.nStates, m.nStates, GraphCRF.PW m v⟩) x.edges := by
    intro v
    unfold predictedLabels GraphCRF.inference
    rw [GraphCRF.checkSizeW_ok (w := ⟨GraphCRF.sizeJointFeature m, v⟩) rfl,
      GraphCRF.unary_ok (w := ⟨GraphCRF.sizeJointFeature m, v⟩) hF rfl,
      GraphCRF.pairwise_ok (w := ⟨GraphCRF.sizeJointFeature m, v⟩) hF rfl]
    simp only [bind, Except.bind, maxProductInfer]
    cases inferenceMaxProduct opts ⟨x.features.rows, m.nStates, GraphCRF.UN m x.features v⟩
        (.mat ⟨m.nStates, m.nStates, GraphCRF.PW m v⟩) x.edges <;> rfl
  rw [e, e]
  exact key

/-- **C168, `MultiClassClf`.** -/
theorem C168_multiclass (m : Unstructured.MultiClass) (x : ℕ → ℚ) {k : ℕ} {a : ℚ} {w w' : ℕ → ℚ}
    (h : RescaledWeights m.nStates m.nFeatures k a w w') :
    Unstructured.mcInference m ⟨m.nFeatures, x⟩ ⟨m.size, w'⟩ = Unstructured.mcInference m ⟨m.nFeatures, x⟩ ⟨m.size, w⟩ := by
  unfold Unstructured.mcInference Unstructured.mcScores Unstructured.MultiClass.size
  by_cases hS : m.nStates = 0
  · rw [if_pos hS, if_pos hS]
  simp only
  have q1 : ¬ m.nStates * m.nFeatures % m.nStates ≠ 0 := by simp
  have q2 : ¬ m.nStates * m.nFeatures / m.nStates ≠ m.nFeatures := by
    rw [Nat.mul_div_cancel_left _ (by omega)]
    simp
  rw [if_neg hS, if_neg hS, if_neg q1, if_neg q1, if_neg q2, if_neg q2]
  simp only
  congr 1
  have hd : SameDifferences m.nStates a (fun s => ∑ f ∈ range m.nFeatures, w (s * m.nFeatures + f) * x f)
      (fun s => ∑ f ∈ range m.nFeatures, w' (s * m.nFeatures + f) * x f) := by
    intro s hs t ht
    simp only
    rw [← sum_sub_distrib, ← sum_sub_distrib, mul_sum]
    refine sum_congr rfl fun f hf => ?_
    have := h.unary f (mem_range.mp hf) s hs t ht
    simp only at this
    rw [← sub_mul, this]
    ring
  refine argmaxN_order fun i hi j hj => ?_
  have := hd j hj i hi
  constructor
  · intro hlt
    have : 0 < a * _ := mul_pos h.pos (sub_pos.mpr hlt)
    linarith
  · intro hlt
    by_contra hge
    have : a * _ ≤ a * 0 := mul_le_mul_of_nonneg_left (sub_nonpos.mpr (not_lt.mp hge)) h.pos.le
    linarith

/-- **C168, `BinaryClf`.** Multiplying the weights by a positive number does not change the prediction. (There is one
weight per feature only, and adding the same number to all of them does.) -/
theorem C168_binary (x w : Vec) {a : ℚ} (ha : 0 < a) :
    Unstructured.binInference x ⟨w.size, fun k => a * w.get k⟩ = Unstructured.binInference x w := by
  unfold Unstructured.binInference Vec.dot
  simp only
  by_cases hs : x.size = w.size
  · rw [if_pos hs, if_pos hs]
    simp only
    rw [dot_smul_right]
    unfold Unstructured.binDecide
    have : 0 ≤ a * dot x.size x.get w.get ↔ 0 ≤ dot x.size x.get w.get := mul_nonneg_iff_of_pos_left ha
    simp only [this]
  · rw [if_neg hs, if_neg hs]

/-! ### the violation -/

/-- two nodes joined by two edges, with tiny potentials. -/
def faintU (c : ℚ) : Mat := ⟨2, 2, fun v s => (if v = 1 ∧ s = 0 then 1 / 10000000 else 0) + c⟩

/-- see `faintU`. -/
def faintP : Ten := ⟨2, 2, 2, fun e s t => if e = 0 ∧ s = 1 ∧ t = 1 then 2 / 10000000 else 0⟩

/-- the state after the first round with `faintU 1`, up to constants. -/
def faintSt : LSt :=
  ⟨fun e s => if e = 0 ∧ s = 0 then -1 / 10000000 else 0, fun e s => if e = 0 ∧ s = 1 then 1 / 20000000 else 0,
    fun v s => if v = 0 ∧ s = 1 then 1 / 20000000 else if v = 1 ∧ s = 0 then -1 / 10000000 else 0, 0⟩

/-- see `faintSt`. -/
def faintPass (st : LSt) : LSt := loopyPass 2 (faintU 1).get faintP.get [(0, 1), (1, 0)] (1 / 2) st

theorem faint_first : LoopyRel 2 2 2 1 faintSt (faintPass ⟨fun _ _ => 0, fun _ _ => 0, fun _ _ => 0, 0⟩) := by
  refine ⟨by decide +kernel, ⟨fun e => if e = 0 then 10000001 / 20000000 else 15000001 / 20000000, by decide +kernel⟩,
    ⟨fun v => if v = 0 then 10000001 / 20000000 else 15000001 / 20000000, by decide +kernel⟩⟩

theorem faint_second : LoopyRel 2 2 2 1 (faintPass faintSt) (faintPass (faintPass ⟨fun _ _ => 0, fun _ _ => 0, fun _ _ => 0, 0⟩)) :=
  pass_rescaled (edges := [(0, 1), (1, 0)]) (by unfold EdgesIn; decide) (by norm_num)
    ⟨by norm_num, fun _ _ _ _ _ _ => by ring, fun _ _ _ _ _ _ _ _ _ _ => by ring⟩ faint_first

theorem faint_shifted : inferenceMaxProduct { maxIter := 2 } (faintU 1) (.ten faintP) [(0, 1), (1, 0)] =
    .ok ⟨2, fun v => argmaxN (fun s => (faintPass (faintPass ⟨fun _ _ => 0, fun _ _ => 0, fun _ _ => 0, 0⟩)).inc v s +
      (faintU 1).get v s) 2⟩ := by
  have hv : validateParams (faintU 1) (.ten faintP) 2 = .ok (2, faintP) := by
    unfold validateParams
    exact if_pos ⟨rfl, rfl, rfl⟩
  have hd : ¬ (faintPass ⟨fun _ _ => 0, fun _ _ => 0, fun _ _ => 0, 0⟩).diff < 1 / 100000 := by decide +kernel
  unfold inferenceMaxProduct
  rw [show ([(0, 1), (1, 0)] : Edges).length = 2 from rfl, hv]
  simp only
  rw [if_neg (by decide), show isForest [(0, 1), (1, 0)] (some (faintU 1).rows) = .ok false from by decide]
  simp only
  unfold iterativeMaxProduct
  rw [if_neg (by decide), if_neg (by decide)]
  have hl : loopyIter (faintU 1).cols (faintU 1).get faintP.get [(0, 1), (1, 0)] (1 / 2) (1 / 100000) 2
      ⟨fun _ _ => 0, fun _ _ => 0, fun _ _ => 0, 0⟩ = faintPass (faintPass ⟨fun _ _ => 0, fun _ _ => 0, fun _ _ => 0, 0⟩) := by
    have e : ∀ st, loopyPass (faintU 1).cols (faintU 1).get faintP.get [(0, 1), (1, 0)] (1 / 2) st = faintPass st := fun _ => rfl
    simp only [loopyIter, e]
    rw [if_neg hd, ite_self]
  simp only
  rw [hl]
  rfl

/-- **C168, violated.** Adding `1` to all unary potentials changes the labels which `max-product` returns on a graph with
a cycle: without it the messages are small and the first round is the last one. -/
theorem C168_violated_loopy :
    Rescaled 2 2 2 1 (faintU 0).get (faintU 1).get faintP.get faintP.get ∧
      (∃ y, inferenceMaxProduct { maxIter := 2 } (faintU 0) (.ten faintP) [(0, 1), (1, 0)] = .ok y ∧ y.get 0 = 1 ∧ y.get 1 = 0) ∧
      ∃ y, inferenceMaxProduct { maxIter := 2 } (faintU 1) (.ten faintP) [(0, 1), (1, 0)] = .ok y ∧ y.get 0 = 1 ∧ y.get 1 = 1 := by
  refine ⟨⟨by norm_num, ?_, ?_⟩, ?_, ?_⟩
  · intro v _ s _ t _
    simp only [faintU]
    ring
  · intro e _ s _ t _ s' _ t' _
    ring
  · have h : (inferenceMaxProduct { maxIter := 2 } (faintU 0) (.ten faintP) [(0, 1), (1, 0)]).map (fun y => (y.get 0, y.get 1)) =
        .ok (1, 0) := by decide +kernel
    cases hr : inferenceMaxProduct { maxIter := 2 } (faintU 0) (.ten faintP) [(0, 1), (1, 0)] with
    | error err => rw [hr] at h; cases h
    | ok y =>
      rw [hr] at h
      simp only [Except.map, Except.ok.injEq, Prod.mk.injEq] at h
      exact ⟨y, rfl, h⟩
  · refine ⟨_, faint_shifted, ?_, ?_⟩
    all_goals
      obtain ⟨-, -, ⟨μ, hμ⟩⟩ := faint_second
      simp only
    · rw [argmaxN_rescaled (a := 1) (c := μ 0) (f := fun s => (faintPass faintSt).inc 0 s + (faintU 1).get 0 s) (by norm_num)
        (fun s hs => by rw [hμ 0 (by norm_num) s hs]; ring)]
      decide +kernel
    · rw [argmaxN_rescaled (a := 1) (c := μ 1) (f := fun s => (faintPass faintSt).inc 1 s + (faintU 1).get 1 s) (by norm_num)
        (fun s hs => by rw [hμ 1 (by norm_num) s hs]; ring)]
      decide +kernel

/-! ### loss-augmented inference -/

theorem lossAugment_rescaled {n S m : ℕ} {U U' : ℕ → ℕ → ℚ} {P P' : ℕ → ℕ → ℕ → ℚ} (h : Rescaled n S m 1 U U' P P') (y : Labels)
    (cw : Vec) : (∃ err, Loss.lossAugmentUnaries ⟨n, S, U⟩ y cw = .error err ∧ Loss.lossAugmentUnaries ⟨n, S, U'⟩ y cw = .error err) ∨
      ∃ A A', Loss.lossAugmentUnaries ⟨n, S, U⟩ y cw = .ok ⟨n, S, A⟩ ∧ Loss.lossAugmentUnaries ⟨n, S, U'⟩ y cw = .ok ⟨n, S, A'⟩ ∧
        Rescaled n S m 1 A A' P P' := by
  unfold Loss.lossAugmentUnaries
  simp only
  by_cases h1 : y.size < n
  · exact Or.inl ⟨_, by rw [if_pos h1], by rw [if_pos h1]⟩
  rw [if_neg h1, if_neg h1]
  by_cases h2 : ∀ i < n, y.get i < cw.size
  swap
  · exact Or.inl ⟨_, by rw [if_pos h2], by rw [if_pos h2]⟩
  rw [if_neg (not_not.mpr h2), if_neg (not_not.mpr h2)]
  refine Or.inr ⟨_, _, rfl, rfl, h.pos, fun v hv s hs t ht => ?_, h.pairwise⟩
  have := h.unary v hv s hs t ht
  split_ifs <;> linarith

/-- labels found by `GraphCRF.loss_augmented_inference` with `max-product`. -/
def augmentedLabels (opts : Opts) (cw : Vec) (m : GraphCRF.Model) (x : GraphCRF.X) (y : Labels) (w : Vec) : Except PyErr Labels :=
  match GraphCRF.lossAugmentedInference (maxProductInfer opts) cw m x y w with
  | .error err => .error err
  | .ok (.discrete y) => .ok y
  | .ok (.relaxed _ _) => .error .typeError

/-- **C168 (partial), loss-augmented inference.** On graphs without cycles increasing the weights of all states for one
feature, or all pairwise weights, by the same amount does not change the labels found by loss-augmented inference either.
(A factor does, as the loss is not multiplied.) Missing: graphs with cycles. -/
theorem C168_loss_augmented_partial (opts : Opts) (cw : Vec) (m : GraphCRF.Model) (x : GraphCRF.X)
    (hF : x.features.cols = m.nFeatures) (hc : ¬ HasCycle x.edges) (y : Labels) {w w' : ℕ → ℚ}
    (h : RescaledWeights m.nStates m.nFeatures (pairWeights m) 1 w w') :
    SameAnswer (augmentedLabels opts cw m x y ⟨GraphCRF.sizeJointFeature m, w⟩)
      (augmentedLabels opts cw m x y ⟨GraphCRF.sizeJointFeature m, w'⟩) := by
  have e : ∀ v, augmentedLabels opts cw m x y ⟨GraphCRF.sizeJointFeature m, v⟩ =
      (Loss.lossAugmentUnaries ⟨x.features.rows, m.nStates, GraphCRF.UN m x.features v⟩ y cw).bind fun A =>
        inferenceMaxProduct opts A (.mat ⟨m.nStates, m.nStates, GraphCRF.PW m v⟩) x.edges := by
    intro v
    unfold augmentedLabels GraphCRF.lossAugmentedInference
    rw [GraphCRF.checkSizeW_ok (w := ⟨GraphCRF.sizeJointFeature m, v⟩) rfl,
      GraphCRF.unary_ok (w := ⟨GraphCRF.sizeJointFeature m, v⟩) hF rfl,
      GraphCRF.pairwise_ok (w := ⟨GraphCRF.sizeJointFeature m, v⟩) hF rfl]
    simp only [bind, Except.bind, maxProductInfer]
    cases Loss.lossAugmentUnaries ⟨x.features.rows, m.nStates, GraphCRF.UN m x.features v⟩ y cw with
    | error err => rfl
    | ok A =>
      simp only
      cases inferenceMaxProduct opts A (.mat ⟨m.nStates, m.nStates, GraphCRF.PW m v⟩) x.edges <;> rfl
  rw [e, e]
  rcases lossAugment_rescaled (graph_rescaled h x.features x.edges) y cw with ⟨err, h1, h2⟩ | ⟨A, A', h1, h2, hA⟩
  · rw [h1, h2]
    exact Or.inl ⟨err, rfl, rfl⟩
  · rw [h1, h2]
    exact C168_max_product_partial opts (pw := .mat ⟨m.nStates, m.nStates, GraphCRF.PW m w⟩)
      (pw' := .mat ⟨m.nStates, m.nStates, GraphCRF.PW m w'⟩) ⟨rfl, rfl, fun _ _ _ => rfl⟩ ⟨rfl, rfl, fun _ _ _ => rfl⟩ hc hA

/-! ### concrete cases -/

/-- weights of two states with one feature, and of the three pairs of states: multiplied by two, with three added to the
weights of the states and one to those of the pairs. -/
theorem weights_example : RescaledWeights 2 1 3 2 (fun k => ([1, -1, 2, 0, 1] : List ℚ).getD k 0)
    (fun k => ([5, 1, 5, 1, 3] : List ℚ).getD k 0) := by
  refine ⟨by norm_num, ?_, ?_⟩
  · unfold SameDifferences; decide +kernel
  · unfold SameDifferences; decide +kernel

/-- a star: not a chain, so `tree_max_product` is used. -/
def starX : GraphCRF.X := ⟨⟨4, 1, fun i _ => i - 1⟩, [(0, 1), (0, 2), (0, 3)]⟩

theorem star_no_cycle : ¬ HasCycle starX.edges :=
  (explore_isSome_iff true (n := 4) (by unfold EdgesIn; decide)).mp (by decide)

example : SameAnswer (predictedLabels {} ⟨2, 1, false⟩ starX ⟨5, fun k => ([1, -1, 2, 0, 1] : List ℚ).getD k 0⟩)
    (predictedLabels {} ⟨2, 1, false⟩ starX ⟨5, fun k => ([5, 1, 5, 1, 3] : List ℚ).getD k 0⟩) :=
  C168_graph_partial {} ⟨2, 1, false⟩ starX rfl star_no_cycle weights_example

example : (predictedLabels {} ⟨2, 1, false⟩ starX ⟨5, fun k => ([1, -1, 2, 0, 1] : List ℚ).getD k 0⟩).map
    (fun y => (List.range y.size).map y.get) = .ok [0, 0, 0, 0] := by decide +kernel

end Verif.Props
