import Verif.Model.Dispatch
import Verif.Model.EdgeFeature
import Verif.Model.InitMore
import Verif.Model.LatentNode
import Verif.Model.Subgradient

/-!
# C117: malformed input is reported, and by which exception

Labellings of the wrong length, labels that are no states, edges to nodes that do not exist, features and weights of the wrong
size, training without samples, options that contradict each other.
-/

namespace Verif.Props

open Verif.Common Verif.Learner

/-! ### GraphCRF -/

theorem graph_check_ok {m : GraphCRF.Model} {x : GraphCRF.X} (hF : x.features.cols = m.nFeatures) :
    GraphCRF.checkSizeX m x = .ok () := by
  unfold GraphCRF.checkSizeX; rw [if_neg (not_not.2 hF)]

/-- `GraphCRF.joint_feature`: `ValueError` for features or a labelling of the wrong size, `IndexError` for a label that is
no state, and for an edge to a node that does not exist. -/
theorem C117_graph_joint (m : GraphCRF.Model) (x : GraphCRF.X) (y : Labels) :
    (x.features.cols ≠ m.nFeatures → GraphCRF.jointFeature m x (.discrete y) = .error .valueError) ∧
    (x.features.cols = m.nFeatures → y.size ≠ x.features.rows →
      GraphCRF.jointFeature m x (.discrete y) = .error .valueError) ∧
    (x.features.cols = m.nFeatures → y.size = x.features.rows → (∃ i < y.size, m.nStates ≤ y.get i) →
      GraphCRF.jointFeature m x (.discrete y) = .error .indexError) ∧
    (x.features.cols = m.nFeatures → y.size = x.features.rows → (∀ i < y.size, y.get i < m.nStates) →
      (∃ e ∈ x.edges, y.size ≤ e.1 ∨ y.size ≤ e.2) → GraphCRF.jointFeature m x (.discrete y) = .error .indexError) := by
  refine ⟨fun h => ?_, fun hF hy => ?_, fun hF hy hl => ?_, fun hF hy hl he => ?_⟩
  · unfold GraphCRF.jointFeature GraphCRF.checkSizeX
    rw [if_pos h]; rfl
  · unfold GraphCRF.jointFeature
    rw [graph_check_ok hF]
    unfold GraphCRF.marginals GraphCRF.oneHot
    simp only
    rw [if_pos hy]; rfl
  · unfold GraphCRF.jointFeature
    rw [graph_check_ok hF]
    unfold GraphCRF.marginals GraphCRF.oneHot
    simp only
    rw [if_neg (not_not.2 hy), if_pos]
    · rfl
    · obtain ⟨i, hi, h⟩ := hl
      exact fun h' => absurd (h' i (hy ▸ hi)) (by omega)
  · unfold GraphCRF.jointFeature
    rw [graph_check_ok hF]
    unfold GraphCRF.marginals GraphCRF.oneHot
    simp only
    rw [if_neg (not_not.2 hy), if_neg (not_not.2 (hy ▸ hl))]
    simp only [bind, Except.bind]
    unfold GraphCRF.takeRows
    simp only
    by_cases h1 : ∀ i ∈ x.edges.map Prod.fst, i < x.features.rows
    · rw [if_neg (not_not.2 h1)]
      simp only
      rw [if_pos]
      intro h2
      obtain ⟨e, he, h⟩ := he
      have h3 := h1 _ (List.mem_map_of_mem he)
      have h4 := h2 _ (List.mem_map_of_mem he)
      omega
    · rw [if_pos h1]

/-- `GraphCRF.inference`: weights or features of the wrong size are a `ValueError`, whatever the backend does. -/
theorem C117_graph_inference (inf : GraphCRF.Infer) (m : GraphCRF.Model) (x : GraphCRF.X) (w : Vec)
    (h : w.size ≠ GraphCRF.sizeJointFeature m ∨ x.features.cols ≠ m.nFeatures) :
    GraphCRF.inference inf m x w = .error .valueError := by
  unfold GraphCRF.inference
  by_cases hw : w.size = GraphCRF.sizeJointFeature m
  · have hx : x.features.cols ≠ m.nFeatures := h.resolve_left (not_not.2 hw)
    have hc : GraphCRF.checkSizeW (GraphCRF.sizeJointFeature m) w = .ok () := by
      unfold GraphCRF.checkSizeW; rw [if_neg (not_not.2 hw)]
    rw [hc]
    unfold GraphCRF.unaryPotentials
    rw [hc]
    unfold GraphCRF.checkSizeX
    rw [if_pos hx]; rfl
  · unfold GraphCRF.checkSizeW
    rw [if_pos hw]; rfl

/-! ### EdgeFeatureGraphCRF and EdgeFeatureLatentNodeCRF -/

/-- The features, or the edge features, or their number do not fit the model. -/
def BadSizes (nFeatures nEdgeFeatures : ℕ) (features : Mat) (edges : Edges) (edgeFeatures : Mat) : Prop :=
  features.cols ≠ nFeatures ∨ edges.length ≠ edgeFeatures.rows ∨ edgeFeatures.cols ≠ nEdgeFeatures

theorem edge_check_bad {m : EdgeFeature.Model} {x : EdgeFeature.X}
    (h : BadSizes m.nFeatures m.nEdgeFeatures x.features x.edges x.edgeFeatures) :
    EdgeFeature.checkSizeX m x = .error .valueError := by
  unfold EdgeFeature.checkSizeX
  unfold BadSizes at h
  by_cases h1 : x.features.cols ≠ m.nFeatures
  · rw [if_pos h1]
  · rw [if_neg h1]
    by_cases h2 : x.edges.length ≠ x.edgeFeatures.rows
    · rw [if_pos h2]
    · rw [if_neg h2, if_pos ((h.resolve_left h1).resolve_left h2)]

theorem eln_check_bad {m : LatentNode.EModel} {x : LatentNode.EX}
    (h : BadSizes m.base.nFeatures m.nEdgeFeatures x.features x.edges x.edgeFeatures) :
    LatentNode.eCheckSizeX m x = .error .valueError := by
  unfold LatentNode.eCheckSizeX
  unfold BadSizes at h
  by_cases h1 : x.features.cols ≠ m.base.nFeatures
  · rw [if_pos h1]
  · rw [if_neg h1]
    by_cases h2 : x.edges.length ≠ x.edgeFeatures.rows
    · rw [if_pos h2]
    · rw [if_neg h2, if_pos ((h.resolve_left h1).resolve_left h2)]

/-- `EdgeFeatureGraphCRF`: features, edges and edge features that do not fit are a `ValueError` in `joint_feature` and in
`inference`, whatever the backend does. -/
theorem C117_edge (inf : GraphCRF.Infer) (m : EdgeFeature.Model) (x : EdgeFeature.X) (y : YVal) (w : Vec)
    (h : BadSizes m.nFeatures m.nEdgeFeatures x.features x.edges x.edgeFeatures) :
    EdgeFeature.jointFeature EdgeFeature.checkSizeX m x y = .error .valueError ∧
      EdgeFeature.inference EdgeFeature.checkSizeX inf m x w = .error .valueError := by
  refine ⟨?_, ?_⟩
  · unfold EdgeFeature.jointFeature
    rw [edge_check_bad h]; rfl
  · unfold EdgeFeature.inference
    by_cases hw : w.size = EdgeFeature.sizeJointFeature m
    · have hc : GraphCRF.checkSizeW (EdgeFeature.sizeJointFeature m) w = .ok () := by
        unfold GraphCRF.checkSizeW; rw [if_neg (not_not.2 hw)]
      rw [hc]
      unfold EdgeFeature.unaryPotentials
      rw [hc, edge_check_bad h]; rfl
    · unfold GraphCRF.checkSizeW
      rw [if_pos hw]; rfl

/-- The same for `EdgeFeatureLatentNodeCRF`; also `loss_augmented_inference` and `latent`. -/
theorem C117_edge_latent (inf : GraphCRF.Infer) (m : LatentNode.EModel) (x : LatentNode.EX) (y : YVal) (h l : Labels)
    (cw w : Vec) (hb : BadSizes m.base.nFeatures m.nEdgeFeatures x.features x.edges x.edgeFeatures) :
    LatentNode.eJointFeature m x y = .error .valueError ∧
      LatentNode.eLossAugmentedInference inf cw m x h w = .error .valueError ∧
      LatentNode.eLatent inf m x l w = .error .valueError := by
  have hu : LatentNode.eUnary m x w = .error .valueError := by
    unfold LatentNode.eUnary GraphCRF.checkSizeW
    by_cases hw : w.size ≠ LatentNode.eSize m
    · rw [if_pos hw]; rfl
    · rw [if_neg hw, eln_check_bad hb]; rfl
  refine ⟨?_, ?_, ?_⟩
  · unfold LatentNode.eJointFeature
    rw [eln_check_bad hb]; rfl
  · unfold LatentNode.eLossAugmentedInference
    rw [hu]
    unfold GraphCRF.checkSizeW
    by_cases hw : w.size ≠ LatentNode.eSize m
    · rw [if_pos hw]; rfl
    · rw [if_neg hw]; rfl
  · unfold LatentNode.eLatent
    rw [hu]; rfl

/-! ### training without samples -/

/-- `initialize` of every CRF class is an `IndexError` without samples. -/
theorem C117_no_samples (st : Init.State) (ef : Init.EFState) (lg : Init.LGState) (ln : Init.LNState)
    (setSize : Init.LGState → Except PyErr Init.LGState) (Y : List (List ℤ)) :
    Init.initializeCRF st [] Y = .error .indexError ∧ Init.efInitialize ef [] Y = .error .indexError ∧
      Init.dirInitialize ef [] Y = .error .indexError ∧ Init.lgInitialize setSize lg [] Y = .error .indexError ∧
      Init.lnInitialize ln [] Y = .error .indexError :=
  ⟨rfl, rfl, rfl, rfl, rfl⟩

/-! ### learners -/

/-- `SubgradientSSVM.fit`: `batch_size` together with `n_jobs` other than 1 is a `ValueError`, if there is anything to do. -/
theorem C117_batch_and_jobs {X Y : Type} (m : SModel X Y) (order : ℕ → List (X × Y)) (o : Subgradient.Obj)
    (samples : List (X × Y)) (hj : o.cfg.nJobs ≠ 1) (hb : o.cfg.batchSize ≠ none) (hi : o.cfg.maxIter ≠ 0) :
    Subgradient.fit m order o samples false = .error .valueError := by
  obtain ⟨k, hk⟩ := Nat.exists_eq_succ_of_ne_zero hi
  unfold Subgradient.fit Subgradient.setup
  simp only [Bool.false_eq_true, if_false]
  rw [hk]
  unfold Subgradient.loop
  simp only
  unfold Subgradient.learn
  rw [if_neg hj]
  unfold Subgradient.parallelLearning
  rw [if_pos hb]

/-! ### inference -/

open Verif.Dispatch in
/-- `inference_ad3` with a result without states is a `ValueError`, unless marginals are returned. -/
theorem C117_ad3_no_states (P : Packages) (solve solve') (hP : P.ad3 = some (solve, solve')) (U : Mat) (t : Ten)
    (edges : Edges) (ht : t.d0 = edges.length) (h1 : t.d1 = U.cols) (h2 : t.d2 = U.cols) (re : Bool)
    (hr : (solve U edges t false).unary.cols = 0) :
    dispatch P U (.ten t) edges (.name "ad3") re [] = .error .valueError := by
  have hv : validateParams U (.ten t) edges.length = .ok (U.cols, t) := by
    unfold validateParams
    simp only [h1, h2, ht]
    first
      | rfl
      | simp
  change inferenceAd3 P U (.ten t) edges _ = _
  unfold inferenceAd3
  rw [hP]
  simp only
  rw [hv]
  simp only
  have hf : ∀ n d, n ≠ "return_energy" → KW.flag [("return_energy", .bool re)] n d = d := by
    intro n d hn
    unfold KW.flag KW.val
    have : List.lookup n [("return_energy", KVal.bool re)] = none := by
      simp [List.lookup, beq_eq_false_iff_ne.2 hn]
    rw [this]
  have h3 : KW.flag ([("return_energy", .bool re)] ++ []) "branch_and_bound" false = false := hf _ _ (by decide)
  have h4 : KW.flag ([("return_energy", .bool re)] ++ []) "relaxed" false = false := hf _ _ (by decide)
  rw [h3, h4, Bool.and_false, if_neg (by decide)]
  unfold decodeRows
  rw [if_pos hr]

open Verif.Dispatch in
/-- The number of rounds of max-product may be given as a Python boolean: `True` is one round, `False` none. -/
theorem C117_max_product_bool (P : Packages) (U : Mat) (pw : Pairwise) (edges : Edges) (re b : Bool) :
    dispatch P U pw edges (.withOpts "max-product" [("max_iter", .bool b)]) re [] =
      dispatch P U pw edges (.withOpts "max-product" [("max_iter", .num (if b then 1 else 0))]) re [] := by
  cases b <;> rfl

/-! ### LatentNodeCRF with features for hidden nodes -/

/-- The end of Python's slice `a[:stop]` of a list of length `len`. -/
def pySliceEnd (len : ℕ) (stop : ℤ) : ℕ := (if stop < 0 then max (len + stop) 0 else min stop len).toNat

/-- In a model with `latent_node_features=True`, `features[:n_visible]` with `n_visible = len(features) - n_hidden` follows
Python's rules for slices also if more hidden nodes are declared than there are nodes: nodes in the slice may not have
hidden states, others only hidden states. -/
theorem C117_latent_slice (m : LatentNode.Model) (hl : m.latentFeatures = true) (features params : Mat) (nHidden : ℕ)
    (hc : features.cols = params.cols) (hr : features.rows * params.rows ≠ 0) :
    ∃ U, LatentNode.unaryCore m features nHidden params = .ok U ∧ ∃ big : ℚ, 1 ≤ big ∧ ∀ i s,
      U.get i s = if (i < pySliceEnd features.rows (features.rows - nHidden) ↔ m.nLabels ≤ s) then -100 * big
        else ∑ f ∈ Finset.range features.cols, features.get i f * params.get s f := by
  have hm : features.mul params.T =
      .ok ⟨features.rows, params.rows, fun i s => ∑ f ∈ Finset.range features.cols, features.get i f * params.get s f⟩ := by
    unfold Mat.mul
    exact if_pos hc
  have hs : LatentNode.visibleStop features.rows nHidden = pySliceEnd features.rows (features.rows - nHidden) := by
    unfold LatentNode.visibleStop pySliceEnd
    split_ifs with h1 h2 h2 <;> omega
  unfold LatentNode.unaryCore
  rw [hm]
  simp only [bind, Except.bind]
  rw [if_pos hl]
  unfold LatentNode.forbid
  rw [if_neg hr, hs]
  refine ⟨_, rfl, max (LatentGraph.matMax ⟨features.rows, params.rows,
    fun i s => ∑ f ∈ Finset.range features.cols, features.get i f * params.get s f⟩) 1, le_max_right _ _, fun i s => ?_⟩
  dsimp only
  by_cases h1 : i < pySliceEnd features.rows (features.rows - nHidden)
  · rw [if_pos h1]
    by_cases h2 : m.nLabels ≤ s
    · rw [if_pos h2, if_pos (by simp [h1, h2])]
    · rw [if_neg h2, if_neg (by simp [h1, h2])]
  · rw [if_neg h1]
    by_cases h2 : m.nLabels ≤ s
    · rw [if_neg (by omega), if_neg (by simp [h1, h2])]
    · rw [if_pos (by omega), if_pos (by simp [h1, h2])]

/-! ### the hypotheses are met -/

/-- an edge to a node that does not exist -/
example : GraphCRF.jointFeature ⟨2, 1, false⟩ ⟨⟨2, 1, fun _ _ => 1⟩, [(0, 2)]⟩ (.discrete ⟨2, fun i => i⟩) =
    .error .indexError :=
  (C117_graph_joint _ _ _).2.2.2 rfl rfl (by decide) ⟨(0, 2), by decide, by decide⟩

/-- two edges, one row of edge features -/
example : BadSizes 1 1 ⟨2, 1, fun _ _ => 1⟩ [(0, 1), (1, 0)] ⟨1, 1, fun _ _ => 1⟩ := .inr (.inl (by decide))

/-- three nodes, five of them hidden: the first node is visible -/
example : pySliceEnd 3 (3 - 5) = 1 := by decide

end Verif.Props
