import Verif.Spec.Symmetry
import Verif.Lemmas.GraphCRF
import Verif.Lemmas.EdgeFeature
import Verif.Model.Instances
import Mathlib.Algebra.BigOperators.Field
import Mathlib.Tactic.IntervalCases

/-!
# C148: numbering of nodes, order of edges, names of states
-/

namespace Verif.Props

open Finset Verif.Common Verif.Sym

/-! ### sums over moved nodes and edges -/

theorem sum_moved {n : ℕ} {σ : Equiv.Perm ℕ} (hσ : Spec.Renumbering n σ) (f f' : ℕ → ℚ)
    (h : ∀ i < n, f' (σ i) = f i) : ∑ i ∈ range n, f' i = ∑ i ∈ range n, f i :=
  (sum_equiv σ (fun i => by rw [mem_range, mem_range]; exact (hσ i).symm)
    (fun i hi => (h i (mem_range.mp hi)).symm)).symm

theorem sum_edges_list (E : Edges) (f : ℕ × ℕ → ℚ) :
    ∑ e ∈ range E.length, f (edge E e) = (E.map f).sum := by
  induction E with
  | nil => rfl
  | cons e E ih =>
    rw [List.length_cons, sum_range_succ', List.map_cons, List.sum_cons, ← ih, add_comm]
    rfl

theorem moved_sum {σ : Equiv.Perm ℕ} {flip : Prop} {E E' : Edges} (h : Spec.EdgesMoved σ flip E E')
    (f f' : ℕ × ℕ → ℚ) (hf : ∀ e ∈ E, ∀ e', Spec.EdgeMoved σ flip e e' → f' e' = f e) :
    (E'.map f').sum = (E.map f).sum := by
  obtain ⟨E₁, h1, h2⟩ := h
  rw [(h2.map f').sum_eq]
  clear h2
  induction h1 with
  | nil => rfl
  | cons he _ ih =>
    rw [List.map_cons, List.map_cons, List.sum_cons, List.sum_cons, hf _ List.mem_cons_self _ he,
      ih fun e hm => hf e (List.mem_cons_of_mem _ hm)]

theorem moved_in {σ : Equiv.Perm ℕ} {flip : Prop} {E E' : Edges} (h : Spec.EdgesMoved σ flip E E') {n : ℕ}
    (hσ : Spec.Renumbering n σ) : Spec.EdgesIn n E' ↔ Spec.EdgesIn n E := by
  obtain ⟨E₁, h1, h2⟩ := h
  have e1 : Spec.EdgesIn n E' ↔ Spec.EdgesIn n E₁ :=
    ⟨fun h e he => h e (h2.mem_iff.mpr he), fun h e he => h e (h2.mem_iff.mp he)⟩
  rw [e1]
  clear h2 e1
  unfold Spec.EdgesIn
  induction h1 with
  | nil => simp
  | cons he _ ih =>
    rw [List.forall_mem_cons, List.forall_mem_cons]
    refine and_congr ?_ ih
    rcases he with rfl | ⟨_, rfl⟩
    · simp only [hσ _]
    · simp only [hσ _]; exact and_comm

theorem moved_length {σ : Equiv.Perm ℕ} {flip : Prop} {E E' : Edges} (h : Spec.EdgesMoved σ flip E E') :
    E'.length = E.length := by
  obtain ⟨E₁, h1, h2⟩ := h
  rw [h2.length_eq, h1.length_eq]

theorem moved_valid {σ : Equiv.Perm ℕ} {n S : ℕ} (hσ : Spec.Renumbering n σ) {y y' : ℕ → ℕ}
    (h : Spec.LabelsMoved σ n y y') : Spec.Valid n S y' ↔ Spec.Valid n S y := by
  constructor
  · intro hv i hi
    rw [← h i hi]
    exact hv _ ((hσ i).mpr hi)
  · intro hv i hi
    have h1 : σ.symm i < n := (hσ _).mp (by rw [σ.apply_symm_apply]; exact hi)
    have := h _ h1
    rw [σ.apply_symm_apply] at this
    rw [this]
    exact hv _ h1

/-! ### `GraphCRF` -/

open Classical in
/-- `joint_feature` of a label array: which checks it makes, and its value. -/
theorem graph_feature_cases (m : GraphCRF.Model) (x : GraphCRF.X) (y : Labels) :
    GraphCRF.jointFeature m x (.discrete y) =
      if x.features.cols ≠ m.nFeatures then .error .valueError
      else if y.size ≠ x.features.rows then .error .valueError
      else if ¬ Spec.Valid x.features.rows m.nStates y.get then .error .indexError
      else if ¬ Spec.EdgesIn x.features.rows x.edges then .error .indexError
      else .ok (GraphCRF.psi m x.features (fun i s => if s = y.get i then 1 else 0)
        (GraphCRF.hotPair x.edges y.get)) := by
  by_cases h1 : x.features.cols ≠ m.nFeatures
  · rw [if_pos h1]
    unfold GraphCRF.jointFeature GraphCRF.checkSizeX
    rw [if_pos h1]
    rfl
  rw [if_neg h1]
  have h1' := not_not.mp h1
  by_cases h2 : y.size ≠ x.features.rows
  · rw [if_pos h2]
    have h : GraphCRF.oneHot x.features.rows m.nStates y = .error .valueError := if_pos h2
    unfold GraphCRF.jointFeature GraphCRF.marginals
    simp only [GraphCRF.checkSizeX_ok h1', h]
    rfl
  rw [if_neg h2]
  have h2' := not_not.mp h2
  by_cases h3 : ¬ Spec.Valid x.features.rows m.nStates y.get
  · rw [if_pos h3]
    have h : GraphCRF.oneHot x.features.rows m.nStates y = .error .indexError :=
      (if_neg h2).trans (if_pos h3)
    unfold GraphCRF.jointFeature GraphCRF.marginals
    simp only [GraphCRF.checkSizeX_ok h1', h]
    rfl
  rw [if_neg h3]
  have h3' := not_not.mp h3
  by_cases h4 : ¬ Spec.EdgesIn x.features.rows x.edges
  · rw [if_pos h4]
    unfold GraphCRF.jointFeature GraphCRF.marginals
    simp only [bind, Except.bind, GraphCRF.checkSizeX_ok h1', GraphCRF.oneHot_ok h2' h3']
    obtain ⟨A, hA, hr⟩ : ∃ A : Mat, A = ⟨x.features.rows, m.nStates,
        fun i s => if s = y.get i then 1 else 0⟩ ∧ A.rows = x.features.rows := ⟨_, rfl, rfl⟩
    rw [← hA]
    by_cases h5 : ∀ i ∈ x.edges.map Prod.fst, i < A.rows
    · rw [GraphCRF.takeRows_ok h5]
      simp only
      have h6 : ¬ ∀ i ∈ x.edges.map Prod.snd, i < A.rows := by
        intro h6
        apply h4
        rw [← hr]
        intro e he
        exact ⟨h5 _ (List.mem_map.mpr ⟨e, he, rfl⟩), h6 _ (List.mem_map.mpr ⟨e, he, rfl⟩)⟩
      have h7 : GraphCRF.takeRows A (x.edges.map Prod.snd) = .error .indexError := if_pos h6
      rw [h7]
    · have h7 : GraphCRF.takeRows A (x.edges.map Prod.fst) = .error .indexError := if_pos h5
      rw [h7]
  rw [if_neg h4]
  exact GraphCRF.jointFeature_of_marginals h1'
    (GraphCRF.marginals_discrete h2' h3' (not_not.mp h4))

theorem hotPair_moved {σ : Equiv.Perm ℕ} {n : ℕ} {E E' : Edges} (hE : Spec.EdgesMoved σ False E E')
    (hin : Spec.EdgesIn n E) {y y' : ℕ → ℕ} (hy : Spec.LabelsMoved σ n y y') :
    GraphCRF.hotPair E' y' = GraphCRF.hotPair E y := by
  funext a b
  unfold GraphCRF.hotPair
  rw [sum_edges_list E' fun e => (if a = y' e.1 then 1 else 0) * (if b = y' e.2 then 1 else 0),
    sum_edges_list E fun e => (if a = y e.1 then 1 else 0) * (if b = y e.2 then 1 else 0)]
  refine moved_sum hE _ _ ?_
  intro e he e' hm
  rcases hm with rfl | ⟨h, _⟩
  · simp only [hy _ (hin e he).1, hy _ (hin e he).2]
  · exact h.elim

theorem mkSym_moved {σ : Equiv.Perm ℕ} {flip : Prop} {n : ℕ} {E E' : Edges} (hE : Spec.EdgesMoved σ flip E E')
    (hin : Spec.EdgesIn n E) {y y' : ℕ → ℕ} (hy : Spec.LabelsMoved σ n y y') :
    mkSym (GraphCRF.hotPair E' y') = mkSym (GraphCRF.hotPair E y) := by
  funext a b
  have key : ∀ (E : Edges) (y : ℕ → ℕ), mkSym (GraphCRF.hotPair E y) a b =
      (E.map fun e => mkSym (fun a b => (if a = y e.1 then 1 else 0) * (if b = y e.2 then 1 else 0)) a b).sum := by
    intro E y
    rw [← sum_edges_list E fun e =>
      mkSym (fun a b => (if a = y e.1 then 1 else 0) * (if b = y e.2 then 1 else 0)) a b]
    unfold mkSym GraphCRF.hotPair
    by_cases hab : a = b
    · simp only [if_pos hab]
      rw [sum_sub_distrib, sum_add_distrib]
    · simp only [if_neg hab]
      rw [sum_sub_distrib, sum_add_distrib, sum_const_zero]
  rw [key, key]
  refine moved_sum hE _ _ ?_
  intro e he e' hm
  rcases hm with rfl | ⟨_, rfl⟩
  · simp only [hy _ (hin e he).1, hy _ (hin e he).2]
  · simp only [hy _ (hin e he).1, hy _ (hin e he).2, mkSym]
    by_cases hab : a = b
    · subst hab
      ring_nf
    · simp only [if_neg hab]
      ring

/-- **C148**, `GraphCRF`: numbering the nodes differently, listing the edges in another order and, in an
undirected model, turning edges round, changes neither the value of `joint_feature` nor the exception it raises. -/
theorem C148_graph (m : GraphCRF.Model) (x x' : GraphCRF.X) (y y' : Labels) (σ : Equiv.Perm ℕ)
    (hσ : Spec.Renumbering x.features.rows σ) (hf : Spec.RowsMoved σ x.features x'.features)
    (hE : Spec.EdgesMoved σ (m.directed = false) x.edges x'.edges) (hs : y'.size = y.size)
    (hy : Spec.LabelsMoved σ x.features.rows y.get y'.get) :
    GraphCRF.jointFeature m x' (.discrete y') = GraphCRF.jointFeature m x (.discrete y) := by
  classical
  obtain ⟨hr, hc, hg⟩ := hf
  rw [graph_feature_cases, graph_feature_cases, hr, hc, hs]
  by_cases h1 : x.features.cols ≠ m.nFeatures
  · rw [if_pos h1, if_pos h1]
  by_cases h2 : y.size ≠ x.features.rows
  · rw [if_neg h1, if_neg h1, if_pos h2, if_pos h2]
  rw [if_neg h1, if_neg h1, if_neg h2, if_neg h2]
  simp only [moved_valid hσ hy, moved_in hE hσ]
  by_cases h3 : ¬ Spec.Valid x.features.rows m.nStates y.get
  · rw [if_pos h3, if_pos h3]
  by_cases h4 : ¬ Spec.EdgesIn x.features.rows x.edges
  · rw [if_neg h3, if_neg h3, if_pos h4, if_pos h4]
  rw [if_neg h3, if_neg h3, if_neg h4, if_neg h4]
  have h4' := not_not.mp h4
  congr 1
  unfold GraphCRF.psi
  rw [hr]
  have hu : (fun s f => ∑ i ∈ range x.features.rows,
      (if s = y'.get i then (1 : ℚ) else 0) * x'.features.get i f) =
      fun s f => ∑ i ∈ range x.features.rows, (if s = y.get i then 1 else 0) * x.features.get i f := by
    funext s f
    refine sum_moved hσ _ _ ?_
    intro i hi
    simp only [hy i hi, hg i hi f]
  rw [hu]
  congr 1
  by_cases hd : m.directed
  · rw [if_pos hd, if_pos hd]
    have hE' : Spec.EdgesMoved σ False x.edges x'.edges := by
      have : (m.directed = false) = False := by rw [hd]; simp
      rw [this] at hE
      exact hE
    rw [hotPair_moved hE' h4' hy]
  · rw [if_neg hd, if_neg hd, mkSym_moved hE h4' hy]

/-- **C148**, the loss does not depend on the numbering of the nodes either. -/
theorem C148_loss (cw : Option Vec) (y y' z z' : Labels) (σ : Equiv.Perm ℕ) (hσ : Spec.Renumbering y.size σ)
    (hs : y'.size = y.size) (hz : z'.size = z.size) (hy : Spec.LabelsMoved σ y.size y.get y'.get)
    (hyz : Spec.LabelsMoved σ y.size z.get z'.get) : Loss.loss cw y' z' = Loss.loss cw y z := by
  unfold Loss.loss
  rw [hs, hz]
  by_cases h1 : y.size ≠ z.size
  · rw [if_pos h1, if_pos h1]
  rw [if_neg h1, if_neg h1]
  cases cw with
  | none =>
    simp only
    rw [sum_moved hσ (fun i => if y.get i ≠ z.get i then 1 else 0) _
      (fun i hi => by simp only [hy i hi, hyz i hi])]
  | some c =>
    simp only
    have hv := moved_valid (S := c.size) hσ hy
    unfold Spec.Valid at hv
    rw [sum_moved hσ (fun i => c.get (y.get i) * if y.get i ≠ z.get i then 1 else 0) _
      (fun i hi => by simp only [hy i hi, hyz i hi])]
    by_cases h2 : ∀ i < y.size, y.get i < c.size
    · rw [if_pos h2, if_pos (hv.mpr h2)]
    · rw [if_neg h2, if_neg (fun h => h2 (hv.mp h))]

/-- **C148**, decoding: a labelling of largest score, or of largest loss plus score, stays one when the graph is
numbered differently. -/
theorem C148_decoding (m : GraphCRF.Model) (x x' : GraphCRF.X) (cw : Option Vec) (t t' y y' : Labels) (w : ℕ → ℚ)
    (c : ℚ) (σ : Equiv.Perm ℕ) (hσ : Spec.Renumbering x.features.rows σ)
    (hf : Spec.RowsMoved σ x.features x'.features)
    (hE : Spec.EdgesMoved σ (m.directed = false) x.edges x'.edges)
    (hts : t.size = x.features.rows) (hts' : t'.size = x.features.rows)
    (ht : Spec.LabelsMoved σ x.features.rows t.get t'.get)
    (hys : y.size = x.features.rows) (hys' : y'.size = x.features.rows)
    (hy : Spec.LabelsMoved σ x.features.rows y.get y'.get)
    (best : ∀ z : Labels, z.size = x.features.rows → Spec.Valid x.features.rows m.nStates z.get →
      c * Learner.okD 0 (Loss.loss cw t z) +
          dot (GraphCRF.sizeJointFeature m) w (Learner.graphFeature m x (.discrete z)) ≤
        c * Learner.okD 0 (Loss.loss cw t y) +
          dot (GraphCRF.sizeJointFeature m) w (Learner.graphFeature m x (.discrete y)))
    (z' : Labels) (hz' : z'.size = x'.features.rows) (hv' : Spec.Valid x'.features.rows m.nStates z'.get) :
    c * Learner.okD 0 (Loss.loss cw t' z') +
        dot (GraphCRF.sizeJointFeature m) w (Learner.graphFeature m x' (.discrete z')) ≤
      c * Learner.okD 0 (Loss.loss cw t' y') +
        dot (GraphCRF.sizeJointFeature m) w (Learner.graphFeature m x' (.discrete y')) := by
  have hr := hf.1
  have key : ∀ (z z' : Labels), z.size = x.features.rows → z'.size = x.features.rows →
      Spec.LabelsMoved σ x.features.rows z.get z'.get →
      c * Learner.okD 0 (Loss.loss cw t' z') +
        dot (GraphCRF.sizeJointFeature m) w (Learner.graphFeature m x' (.discrete z')) =
      c * Learner.okD 0 (Loss.loss cw t z) +
        dot (GraphCRF.sizeJointFeature m) w (Learner.graphFeature m x (.discrete z)) := by
    intro z z' hz hz' hm
    unfold Learner.graphFeature
    rw [C148_graph m x x' z z' σ hσ hf hE (hz'.trans hz.symm) hm,
      C148_loss cw t t' z z' σ (by rw [hts]; exact hσ) (hts'.trans hts.symm) (hz'.trans hz.symm)
        (by rw [hts]; exact ht) (by rw [hts]; exact hm)]
  have hm : Spec.LabelsMoved σ x.features.rows (fun i => z'.get (σ i)) z'.get := fun i _ => rfl
  rw [key y y' hys hys' hy, key ⟨x.features.rows, fun i => z'.get (σ i)⟩ z' rfl (hz'.trans hr) hm]
  refine best _ rfl ?_
  rw [hr] at hv'
  exact (moved_valid hσ hm).mp hv'

/-! ### `EdgeFeatureGraphCRF` -/

theorem entries_of_dot {n : ℕ} {v v' : ℕ → ℚ} (h : ∀ w, dot n w v' = dot n w v) (k : ℕ) (hk : k < n) :
    v' k = v k := by
  have e : ∀ v : ℕ → ℚ, dot n (fun j => if j = k then 1 else 0) v = v k := by
    intro v
    unfold dot
    rw [sum_eq_single k (fun j _ hj => by simp only [if_neg hj, zero_mul])
      (fun hn => absurd (mem_range.mpr hk) hn)]
    simp only [if_true, one_mul]
  rw [← e v, ← e v', h]

open Classical in
theorem edge_feature_cases (m : EdgeFeature.Model) (hok : EdgeFeature.checkModel m = .ok ())
    (x : EdgeFeature.X) (y : Labels) :
    EdgeFeature.jointFeature EdgeFeature.checkSizeX m x (.discrete y) =
      if x.features.cols ≠ m.nFeatures then .error .valueError
      else if x.edges.length ≠ x.edgeFeatures.rows then .error .valueError
      else if x.edgeFeatures.cols ≠ m.nEdgeFeatures then .error .valueError
      else if y.size ≠ x.features.rows then .error .valueError
      else if ¬ Spec.Valid x.features.rows m.nStates y.get then .error .indexError
      else if ¬ Spec.EdgesIn x.features.rows x.edges then .error .indexError
      else .ok (EdgeFeature.psi m x (fun i s => if s = y.get i then 1 else 0)
        (fun e k => if k = y.get (edge x.edges e).2 + m.nStates * y.get (edge x.edges e).1 then 1 else 0)) := by
  have hc : EdgeFeature.checkSizeX m x = .ok () → x.features.cols = m.nFeatures ∧
      x.edges.length = x.edgeFeatures.rows ∧ x.edgeFeatures.cols = m.nEdgeFeatures := by
    intro h
    unfold EdgeFeature.checkSizeX at h
    by_cases h1 : x.features.cols ≠ m.nFeatures
    · rw [if_pos h1] at h; cases h
    by_cases h2 : x.edges.length ≠ x.edgeFeatures.rows
    · rw [if_neg h1, if_pos h2] at h; cases h
    by_cases h3 : x.edgeFeatures.cols ≠ m.nEdgeFeatures
    · rw [if_neg h1, if_neg h2, if_pos h3] at h; cases h
    exact ⟨not_not.mp h1, not_not.mp h2, not_not.mp h3⟩
  have hsa : ∀ i ∈ m.sym ++ m.anti, i < m.nEdgeFeatures := by
    by_contra hn
    unfold EdgeFeature.checkModel at hok
    rw [if_pos hn] at hok
    cases hok
  by_cases h1 : x.features.cols ≠ m.nFeatures
  · have h : EdgeFeature.checkSizeX m x = .error .valueError := if_pos h1
    rw [if_pos h1]
    unfold EdgeFeature.jointFeature
    rw [h]
    rfl
  rw [if_neg h1]
  by_cases h2 : x.edges.length ≠ x.edgeFeatures.rows
  · have h : EdgeFeature.checkSizeX m x = .error .valueError := (if_neg h1).trans (if_pos h2)
    rw [if_pos h2]
    unfold EdgeFeature.jointFeature
    rw [h]
    rfl
  rw [if_neg h2]
  by_cases h3 : x.edgeFeatures.cols ≠ m.nEdgeFeatures
  · have h : EdgeFeature.checkSizeX m x = .error .valueError :=
      (if_neg h1).trans ((if_neg h2).trans (if_pos h3))
    rw [if_pos h3]
    unfold EdgeFeature.jointFeature
    rw [h]
    rfl
  rw [if_neg h3]
  have hx := EdgeFeature.checkSizeX_ok (not_not.mp h1) (not_not.mp h2).symm (not_not.mp h3)
  by_cases h4 : y.size ≠ x.features.rows
  · have h : GraphCRF.oneHot x.features.rows m.nStates y = .error .valueError := if_pos h4
    rw [if_pos h4]
    unfold EdgeFeature.jointFeature EdgeFeature.marginals
    simp only [hx, h]
    rfl
  rw [if_neg h4]
  by_cases h5 : ¬ Spec.Valid x.features.rows m.nStates y.get
  · have h : GraphCRF.oneHot x.features.rows m.nStates y = .error .indexError :=
      (if_neg h4).trans (if_pos h5)
    rw [if_pos h5]
    unfold EdgeFeature.jointFeature EdgeFeature.marginals
    simp only [hx, h]
    rfl
  rw [if_neg h5]
  by_cases h6 : ¬ Spec.EdgesIn x.features.rows x.edges
  · have h : EdgeFeature.pairIndicators m.nStates x.features.rows x.edges y = .error .indexError := if_pos h6
    rw [if_pos h6]
    unfold EdgeFeature.jointFeature EdgeFeature.marginals
    simp only [hx, h, GraphCRF.oneHot_ok (not_not.mp h4) (not_not.mp h5)]
    rfl
  rw [if_neg h6]
  exact EdgeFeature.jointFeature_of_marginals hx (not_not.mp h1) (not_not.mp h3) hsa
    (EdgeFeature.marginals_discrete (not_not.mp h4) (not_not.mp h2).symm (not_not.mp h5) (not_not.mp h6))

theorem proj_turned {sym anti : List ℕ} (hdis : ∀ i ∈ sym, i ∉ anti) (k : ℕ) (W : ℕ → ℕ → ℚ) (a b : ℕ) (c c' : ℚ)
    (h : (k ∈ sym ∧ c' = c) ∨ (k ∈ anti ∧ c' = -c)) :
    c' * EdgeFeature.proj sym anti k W b a = c * EdgeFeature.proj sym anti k W a b := by
  unfold EdgeFeature.proj
  rcases h with ⟨hk, rfl⟩ | ⟨hk, rfl⟩
  · rw [if_neg (hdis k hk), if_pos hk, if_neg (hdis k hk), if_pos hk]; ring
  · rw [if_pos hk, if_pos hk]; ring

/-- **C148**, `EdgeFeatureGraphCRF`: numbering nodes and edges differently, and turning edges round while changing
the sign of the antisymmetric features, if all features are declared symmetric or antisymmetric, changes neither
the value of `joint_feature` nor the exception it raises. -/
theorem C148_edge_features (m : EdgeFeature.Model) (hok : EdgeFeature.checkModel m = .ok ())
    (x x' : EdgeFeature.X) (y y' : Labels) (σ ρ : Equiv.Perm ℕ)
    (hσ : Spec.Renumbering x.features.rows σ) (hρ : Spec.Renumbering x.edges.length ρ)
    (hf : Spec.RowsMoved σ x.features x'.features)
    (hE : Spec.EdgesWithFeaturesMoved σ ρ m.sym m.anti x.edges x'.edges x.edgeFeatures x'.edgeFeatures)
    (hs : y'.size = y.size) (hy : Spec.LabelsMoved σ x.features.rows y.get y'.get) :
    Spec.SameEnd (EdgeFeature.jointFeature EdgeFeature.checkSizeX m x (.discrete y))
      (EdgeFeature.jointFeature EdgeFeature.checkSizeX m x' (.discrete y')) := by
  classical
  obtain ⟨hr, hc, hg⟩ := hf
  obtain ⟨hl, her, hec, hmov⟩ := hE
  have hdis : ∀ i ∈ m.sym, i ∉ m.anti := by
    by_contra hn
    unfold EdgeFeature.checkModel at hok
    by_cases h1 : ¬ ∀ i ∈ m.sym ++ m.anti, i < m.nEdgeFeatures
    · rw [if_pos h1] at hok; cases hok
    · rw [if_neg h1, if_pos hn] at hok; cases hok
  have hin : Spec.EdgesIn x.features.rows x'.edges ↔ Spec.EdgesIn x.features.rows x.edges := by
    have one : ∀ e < x.edges.length,
        (((edge x'.edges (ρ e)).1 < x.features.rows ∧ (edge x'.edges (ρ e)).2 < x.features.rows) ↔
        ((edge x.edges e).1 < x.features.rows ∧ (edge x.edges e).2 < x.features.rows)) := by
      intro e he
      rcases hmov e he with ⟨h, _⟩ | ⟨h, _⟩
      · have h' : edge x'.edges (ρ e) = _ := h
        rw [h']; exact and_congr (hσ _) (hσ _)
      · have h' : edge x'.edges (ρ e) = _ := h
        rw [h']; exact (and_congr (hσ _) (hσ _)).trans and_comm
    have all : ∀ E : Edges, Spec.EdgesIn x.features.rows E ↔
        ∀ e < E.length, (edge E e).1 < x.features.rows ∧ (edge E e).2 < x.features.rows := by
      intro E
      constructor
      · intro h e he; exact h _ (edge_mem he)
      · intro h e he
        obtain ⟨i, hi, rfl⟩ := List.mem_iff_getElem.mp he
        have := h i hi
        unfold edge at this
        rw [List.getD_eq_getElem _ _ hi] at this
        exact this
    rw [all, all, hl]
    constructor
    · intro h e he; exact (one e he).mp (h _ ((hρ e).mpr he))
    · intro h e he
      have h1 : ρ.symm e < x.edges.length := (hρ _).mp (by rw [ρ.apply_symm_apply]; exact he)
      have := (one _ h1).mpr (h _ h1)
      rw [ρ.apply_symm_apply] at this
      exact this
  rw [edge_feature_cases m hok, edge_feature_cases m hok, hr, hc, hs, hl, her, hec]
  by_cases h1 : x.features.cols ≠ m.nFeatures
  · rw [if_pos h1, if_pos h1]; rfl
  by_cases h2 : x.edges.length ≠ x.edgeFeatures.rows
  · rw [if_neg h1, if_neg h1, if_pos h2, if_pos h2]; rfl
  by_cases h3 : x.edgeFeatures.cols ≠ m.nEdgeFeatures
  · rw [if_neg h1, if_neg h1, if_neg h2, if_neg h2, if_pos h3, if_pos h3]; rfl
  rw [if_neg h1, if_neg h1, if_neg h2, if_neg h2, if_neg h3, if_neg h3]
  by_cases h4 : y.size ≠ x.features.rows
  · rw [if_pos h4, if_pos h4]; rfl
  rw [if_neg h4, if_neg h4]
  by_cases h5 : ¬ Spec.Valid x.features.rows m.nStates y.get
  · rw [if_pos h5, if_pos (fun h => h5 ((moved_valid hσ hy).mp h))]; rfl
  have h5' := not_not.mp h5
  have h5'' := (moved_valid hσ hy).mpr h5'
  rw [if_neg h5, if_neg (not_not.mpr h5'')]
  by_cases h6 : ¬ Spec.EdgesIn x.features.rows x.edges
  · rw [if_pos h6, if_pos (fun h => h6 (hin.mp h))]; rfl
  have h6' := not_not.mp h6
  rw [if_neg h6, if_neg (not_not.mpr (hin.mpr h6'))]
  refine ⟨rfl, ?_⟩
  refine entries_of_dot ?_
  intro w
  rw [EdgeFeature.psi_size]
  rw [EdgeFeature.dot_psi_discrete m x w y.get hdis (not_not.mp h2).symm h5' h6',
    EdgeFeature.dot_psi_discrete m x' w y'.get hdis (by rw [her, hl]; exact (not_not.mp h2).symm)
      (by rw [hr]; exact h5'') (by rw [hr]; exact hin.mpr h6')]
  unfold Spec.score
  rw [hr, hl]
  congr 1
  · refine sum_moved hσ _ _ ?_
    intro i hi
    simp only [hy i hi, EdgeFeature.EU, hg i hi]
  · refine sum_moved hρ _ _ ?_
    intro e he
    have hm := h6' _ (edge_mem he)
    unfold edge at hm
    rcases hmov e he with ⟨h, hk⟩ | ⟨h, hk⟩
    · rw [h]
      simp only
      rw [hy _ hm.1, hy _ hm.2]
      refine sum_congr rfl fun k hk' => ?_
      rw [hk k (by rw [not_not.mp h3]; exact mem_range.mp hk')]
    · rw [h]
      simp only
      rw [hy _ hm.1, hy _ hm.2]
      refine sum_congr rfl fun k hk' => ?_
      exact proj_turned hdis k _ _ _ _ _ (hk k (by rw [not_not.mp h3]; exact mem_range.mp hk'))

/-! ### names of states -/

/-- weights of a `GraphCRF` for renamed states. -/
def renamedWeights (m : GraphCRF.Model) (τ : Equiv.Perm ℕ) (w : ℕ → ℚ) : ℕ → ℚ := fun k =>
  if k < m.nStates * m.nFeatures then w (τ.symm (k / m.nFeatures) * m.nFeatures + k % m.nFeatures)
  else if m.directed then
    GraphCRF.PW m w (τ.symm ((k - m.nStates * m.nFeatures) / m.nStates))
      (τ.symm ((k - m.nStates * m.nFeatures) % m.nStates))
  else GraphCRF.PW m w (τ.symm (triRow (k - m.nStates * m.nFeatures)))
      (τ.symm (triCol (k - m.nStates * m.nFeatures)))

theorem renamed_symm {S : ℕ} {τ : Equiv.Perm ℕ} (hτ : Spec.Renumbering S τ) : Spec.Renumbering S τ.symm :=
  fun i => by rw [← hτ (τ.symm i), τ.apply_symm_apply]

theorem renamed_unary (m : GraphCRF.Model) (τ : Equiv.Perm ℕ) (w : ℕ → ℚ) (s f : ℕ) (hs : s < m.nStates)
    (hf : f < m.nFeatures) :
    renamedWeights m τ w (s * m.nFeatures + f) = w (τ.symm s * m.nFeatures + f) := by
  unfold renamedWeights
  rw [if_pos (flat_lt hs hf), flat_div hf, flat_mod hf]

theorem PW_comm (m : GraphCRF.Model) (hd : m.directed = false) (w : ℕ → ℚ) (a b : ℕ) :
    GraphCRF.PW m w a b = GraphCRF.PW m w b a := by
  unfold GraphCRF.PW
  simp only [hd, Bool.false_eq_true, if_false]
  exact symEntry_comm _ _ _

theorem renamed_pairwise (m : GraphCRF.Model) (τ : Equiv.Perm ℕ) (w : ℕ → ℚ) (a b : ℕ) (hb : b < m.nStates) :
    GraphCRF.PW m (renamedWeights m τ w) a b = GraphCRF.PW m w (τ.symm a) (τ.symm b) := by
  by_cases hd : m.directed
  · conv_lhs => unfold GraphCRF.PW
    rw [if_pos hd]
    unfold renamedWeights
    rw [if_neg (by omega), if_pos hd, Nat.add_sub_cancel_left, flat_div hb, flat_mod hb]
  · have hd' : m.directed = false := by simpa using hd
    have low : ∀ a b, b ≤ a → GraphCRF.PW m (renamedWeights m τ w) a b =
        GraphCRF.PW m w (τ.symm a) (τ.symm b) := by
      intro a b hab
      conv_lhs => unfold GraphCRF.PW
      rw [if_neg hd, symEntry_lower _ hab]
      unfold renamedWeights
      rw [if_neg (by omega), if_neg hd, Nat.add_sub_cancel_left, triRow_eq hab, triCol_eq hab]
    rcases le_total b a with h | h
    · exact low a b h
    · rw [PW_comm m hd', low b a h, PW_comm m hd']

/-- squares of the entries of a packed symmetric matrix. -/
theorem sum_packed (n : ℕ) (v : ℕ → ℚ) :
    ∑ k ∈ range (tri n), v k * v k =
      (∑ a ∈ range n, ∑ b ∈ range n, symEntry v a b * symEntry v a b +
        ∑ a ∈ range n, symEntry v a a * symEntry v a a) / 2 := by
  have h := dot_compress n v fun a b => if a = b then symEntry v a b else symEntry v a b / 2
  have e1 : dot (tri n) v (fun k => mkSym (fun a b => if a = b then symEntry v a b else symEntry v a b / 2)
      (triRow k) (triCol k)) = ∑ k ∈ range (tri n), v k * v k := by
    unfold dot
    rw [sum_tri, sum_tri]
    refine sum_congr rfl fun i _ => sum_congr rfl fun j hj => ?_
    have hj' : j ≤ i := by have := mem_range.mp hj; omega
    simp only [triRow_eq hj', triCol_eq hj']
    congr 1
    unfold mkSym
    by_cases hij : i = j
    · subst hij
      simp only [if_true]
      rw [symEntry_lower v hj']
      ring
    · simp only [if_neg hij, if_neg (Ne.symm hij)]
      rw [symEntry_comm v j i, symEntry_lower v hj']
      ring
  rw [← e1, h]
  have e2 : ∀ a ∈ range n, ∑ b ∈ range n, symEntry v a b * (if a = b then symEntry v a b else symEntry v a b / 2) =
      (∑ b ∈ range n, symEntry v a b * symEntry v a b + symEntry v a a * symEntry v a a) / 2 := by
    intro a ha
    have : ∀ b ∈ range n, symEntry v a b * (if a = b then symEntry v a b else symEntry v a b / 2) =
        symEntry v a b * symEntry v a b / 2 + (if a = b then symEntry v a b * symEntry v a b / 2 else 0) := by
      intro b _
      by_cases hab : a = b
      · rw [if_pos hab, if_pos hab]; ring
      · rw [if_neg hab, if_neg hab]; ring
    rw [sum_congr rfl this, sum_add_distrib, sum_ite_eq, if_pos ha, ← Finset.sum_div]
    ring
  rw [sum_congr rfl e2, ← Finset.sum_div, sum_add_distrib]

theorem renamed_norm (m : GraphCRF.Model) (τ : Equiv.Perm ℕ) (hτ : Spec.Renumbering m.nStates τ) (w : ℕ → ℚ) :
    ∑ k ∈ range (GraphCRF.sizeJointFeature m), renamedWeights m τ w k * renamedWeights m τ w k =
      ∑ k ∈ range (GraphCRF.sizeJointFeature m), w k * w k := by
  have hτ' := renamed_symm hτ
  obtain ⟨r, hr⟩ : ∃ r, GraphCRF.sizeJointFeature m = m.nStates * m.nFeatures + r :=
    ⟨_, (Nat.add_sub_cancel' (GraphCRF.size_ge m)).symm⟩
  rw [hr, sum_range_add, sum_range_add, sum_range_mul', sum_range_mul']
  congr 1
  · refine (sum_moved hτ' (fun s => ∑ f ∈ range m.nFeatures, renamedWeights m τ w (s * m.nFeatures + f) *
      renamedWeights m τ w (s * m.nFeatures + f)) _ ?_).symm
    intro s hs
    refine sum_congr rfl fun f hf => ?_
    rw [renamed_unary m τ w s f hs (mem_range.mp hf)]
  · have pairs : ∑ a ∈ range m.nStates, ∑ b ∈ range m.nStates,
        GraphCRF.PW m (renamedWeights m τ w) a b * GraphCRF.PW m (renamedWeights m τ w) a b =
        ∑ a ∈ range m.nStates, ∑ b ∈ range m.nStates, GraphCRF.PW m w a b * GraphCRF.PW m w a b := by
      refine (sum_moved hτ' _ _ ?_).symm
      intro a _
      refine (sum_moved hτ' _ _ ?_)
      intro b hb
      rw [renamed_pairwise m τ w a b hb]
    by_cases hd : m.directed
    · have hr' : r = m.nStates * m.nStates := by
        unfold GraphCRF.sizeJointFeature at hr
        rw [if_pos hd, pow_two] at hr
        omega
      rw [hr', sum_range_mul', sum_range_mul']
      unfold GraphCRF.PW at pairs
      simp only [if_pos hd] at pairs
      exact pairs
    · have hr' : r = tri m.nStates := by
        unfold GraphCRF.sizeJointFeature at hr
        rw [if_neg hd] at hr
        unfold tri
        omega
      have diag : ∑ a ∈ range m.nStates,
          GraphCRF.PW m (renamedWeights m τ w) a a * GraphCRF.PW m (renamedWeights m τ w) a a =
          ∑ a ∈ range m.nStates, GraphCRF.PW m w a a * GraphCRF.PW m w a a := by
        refine (sum_moved hτ' _ _ ?_).symm
        intro a ha
        rw [renamed_pairwise m τ w a a ha]
      rw [hr', sum_packed, sum_packed]
      unfold GraphCRF.PW at pairs diag
      simp only [if_neg hd] at pairs diag
      rw [pairs, diag]

/-- **C148**, names of states: for every weight vector there is one of the same norm that gives, on every instance,
a labelling with renamed states the score that the original one gives to the original labelling. -/
theorem C148_states (m : GraphCRF.Model) (τ : Equiv.Perm ℕ) (hτ : Spec.Renumbering m.nStates τ) (w : ℕ → ℚ) :
    ∃ w' : ℕ → ℚ,
      ∑ k ∈ range (GraphCRF.sizeJointFeature m), w' k * w' k =
        ∑ k ∈ range (GraphCRF.sizeJointFeature m), w k * w k ∧
      ∀ (x : GraphCRF.X) (y y' : Labels), y'.size = y.size → (∀ i < y.size, y'.get i = τ (y.get i)) →
        ∀ v, GraphCRF.jointFeature m x (.discrete y) = .ok v →
        ∃ v', GraphCRF.jointFeature m x (.discrete y') = .ok v' ∧
          dot (GraphCRF.sizeJointFeature m) w' v'.get = dot (GraphCRF.sizeJointFeature m) w v.get := by
  classical
  refine ⟨renamedWeights m τ w, renamed_norm m τ hτ w, ?_⟩
  intro x y y' hs hy v hv
  rw [graph_feature_cases] at hv
  by_cases h1 : x.features.cols ≠ m.nFeatures
  · rw [if_pos h1] at hv; cases hv
  by_cases h2 : y.size ≠ x.features.rows
  · rw [if_neg h1, if_pos h2] at hv; cases hv
  by_cases h3 : ¬ Spec.Valid x.features.rows m.nStates y.get
  · rw [if_neg h1, if_neg h2, if_pos h3] at hv; cases hv
  by_cases h4 : ¬ Spec.EdgesIn x.features.rows x.edges
  · rw [if_neg h1, if_neg h2, if_neg h3, if_pos h4] at hv; cases hv
  rw [if_neg h1, if_neg h2, if_neg h3, if_neg h4] at hv
  obtain rfl := Except.ok.inj hv
  have h2' := not_not.mp h2
  have h3' := not_not.mp h3
  have h4' := not_not.mp h4
  rw [h2'] at hy
  have hv' : Spec.Valid x.features.rows m.nStates y'.get := by
    intro i hi
    rw [hy i hi]
    exact (hτ _).mpr (h3' i hi)
  rw [graph_feature_cases, hs, if_neg h1, if_neg h2, if_neg (not_not.mpr hv'), if_neg h4]
  refine ⟨_, rfl, ?_⟩
  rw [GraphCRF.dot_psi_discrete m x.features x.edges y'.get _ hv' h4',
    GraphCRF.dot_psi_discrete m x.features x.edges y.get _ h3' h4']
  unfold Spec.score
  congr 1
  · refine sum_congr rfl fun i hi => ?_
    have hi' := mem_range.mp hi
    unfold GraphCRF.UN
    refine sum_congr rfl fun f hf => ?_
    rw [hy i hi', renamed_unary m τ w _ f ((hτ _).mpr (h3' i hi')) (mem_range.mp hf), τ.symm_apply_apply]
  · refine sum_congr rfl fun e he => ?_
    have hm := h4' _ (edge_mem (mem_range.mp he))
    unfold edge at hm
    simp only
    rw [renamed_pairwise m τ w _ _ (hv' _ hm.2), hy _ hm.1, hy _ hm.2, τ.symm_apply_apply, τ.symm_apply_apply]

/-- **C148**, names of states in the loss: renaming states and class weights leaves the loss as it is. -/
theorem C148_states_loss (τ : Equiv.Perm ℕ) (c c' : Vec) (hτ : Spec.Renumbering c.size τ) (hc : c'.size = c.size)
    (hcw : ∀ s < c.size, c'.get (τ s) = c.get s) (y y' z z' : Labels) (hs : y'.size = y.size)
    (hz : z'.size = z.size) (hy : ∀ i < y.size, y'.get i = τ (y.get i)) (hyz : ∀ i < z.size, z'.get i = τ (z.get i)) :
    Loss.loss (some c') y' z' = Loss.loss (some c) y z ∧ Loss.loss none y' z' = Loss.loss none y z := by
  unfold Loss.loss
  rw [hs, hz]
  by_cases h1 : y.size ≠ z.size
  · rw [if_pos h1, if_pos h1, if_pos h1, if_pos h1]; exact ⟨rfl, rfl⟩
  rw [if_neg h1, if_neg h1, if_neg h1, if_neg h1]
  have h1' := not_not.mp h1
  rw [← h1'] at hyz
  have hne : ∀ i < y.size, (y'.get i ≠ z'.get i ↔ y.get i ≠ z.get i) := by
    intro i hi
    rw [hy i hi, hyz i hi]
    exact not_congr τ.injective.eq_iff
  constructor
  · simp only [hc]
    have hv : (∀ i < y.size, y'.get i < c.size) ↔ ∀ i < y.size, y.get i < c.size := by
      refine forall_congr' fun i => forall_congr' fun hi => ?_
      rw [hy i hi]
      exact hτ _
    by_cases h2 : ∀ i < y.size, y.get i < c.size
    · rw [if_pos h2, if_pos (hv.mpr h2)]
      congr 1
      refine sum_congr rfl fun i hi => ?_
      have hi' := mem_range.mp hi
      simp only [hne i hi']
      rw [hy i hi', hcw _ (h2 i hi')]
    · rw [if_neg h2, if_neg fun h => h2 (hv.mp h)]
  · simp only
    congr 1
    refine sum_congr rfl fun i hi => ?_
    simp only [hne i (mem_range.mp hi)]

/-- weights of an `EdgeFeatureGraphCRF` for renamed states. -/
def renamedEdgeWeights (m : EdgeFeature.Model) (τ : Equiv.Perm ℕ) (w : ℕ → ℚ) : ℕ → ℚ := fun k =>
  if k < m.nStates * m.nFeatures then w (τ.symm (k / m.nFeatures) * m.nFeatures + k % m.nFeatures)
  else EdgeFeature.EW m w ((k - m.nStates * m.nFeatures) / m.nStates ^ 2)
      (τ.symm ((k - m.nStates * m.nFeatures) % m.nStates ^ 2 / m.nStates))
      (τ.symm ((k - m.nStates * m.nFeatures) % m.nStates ^ 2 % m.nStates))

theorem renamedEdge_unary (m : EdgeFeature.Model) (τ : Equiv.Perm ℕ) (w : ℕ → ℚ) (s f : ℕ) (hs : s < m.nStates)
    (hf : f < m.nFeatures) :
    renamedEdgeWeights m τ w (s * m.nFeatures + f) = w (τ.symm s * m.nFeatures + f) := by
  unfold renamedEdgeWeights
  rw [if_pos (flat_lt hs hf), flat_div hf, flat_mod hf]

theorem renamedEdge_pairwise (m : EdgeFeature.Model) (τ : Equiv.Perm ℕ) (w : ℕ → ℚ) (k a b : ℕ) (ha : a < m.nStates)
    (hb : b < m.nStates) :
    EdgeFeature.EW m (renamedEdgeWeights m τ w) k a b = EdgeFeature.EW m w k (τ.symm a) (τ.symm b) := by
  conv_lhs => unfold EdgeFeature.EW
  have h2 : a * m.nStates + b < m.nStates ^ 2 := by rw [pow_two]; exact flat_lt ha hb
  unfold renamedEdgeWeights
  rw [if_neg (by omega), Nat.add_sub_cancel_left, flat_div h2, flat_mod h2, flat_div hb, flat_mod hb]

theorem renamedEdge_norm (m : EdgeFeature.Model) (τ : Equiv.Perm ℕ) (hτ : Spec.Renumbering m.nStates τ) (w : ℕ → ℚ) :
    ∑ k ∈ range (EdgeFeature.sizeJointFeature m), renamedEdgeWeights m τ w k * renamedEdgeWeights m τ w k =
      ∑ k ∈ range (EdgeFeature.sizeJointFeature m), w k * w k := by
  have hτ' := renamed_symm hτ
  unfold EdgeFeature.sizeJointFeature
  rw [sum_range_add, sum_range_add, sum_range_mul', sum_range_mul', sum_range_mul', sum_range_mul']
  congr 1
  · refine (sum_moved hτ' (fun s => ∑ f ∈ range m.nFeatures, renamedEdgeWeights m τ w (s * m.nFeatures + f) *
      renamedEdgeWeights m τ w (s * m.nFeatures + f)) _ ?_).symm
    intro s hs
    refine sum_congr rfl fun f hf => ?_
    rw [renamedEdge_unary m τ w s f hs (mem_range.mp hf)]
  · refine sum_congr rfl fun k _ => ?_
    have e : ∀ v : ℕ → ℚ, ∑ j ∈ range (m.nStates ^ 2),
        v (m.nStates * m.nFeatures + (k * m.nStates ^ 2 + j)) * v (m.nStates * m.nFeatures + (k * m.nStates ^ 2 + j)) =
        ∑ a ∈ range m.nStates, ∑ b ∈ range m.nStates, EdgeFeature.EW m v k a b * EdgeFeature.EW m v k a b := by
      intro v
      have h := sum_range_mul' m.nStates m.nStates fun j => v (m.nStates * m.nFeatures + (k * m.nStates ^ 2 + j)) *
        v (m.nStates * m.nFeatures + (k * m.nStates ^ 2 + j))
      rw [← pow_two] at h
      exact h
    rw [e, e]
    refine (sum_moved hτ' _ _ ?_).symm
    intro a ha
    refine (sum_moved hτ' _ _ ?_)
    intro b hb
    rw [renamedEdge_pairwise m τ w k a b ha hb]

/-- **C148**, names of states, `EdgeFeatureGraphCRF`. -/
theorem C148_states_edge_features (m : EdgeFeature.Model) (hok : EdgeFeature.checkModel m = .ok ())
    (τ : Equiv.Perm ℕ) (hτ : Spec.Renumbering m.nStates τ) (w : ℕ → ℚ) :
    ∃ w' : ℕ → ℚ,
      ∑ k ∈ range (EdgeFeature.sizeJointFeature m), w' k * w' k =
        ∑ k ∈ range (EdgeFeature.sizeJointFeature m), w k * w k ∧
      ∀ (x : EdgeFeature.X) (y y' : Labels), y'.size = y.size → (∀ i < y.size, y'.get i = τ (y.get i)) →
        ∀ v, EdgeFeature.jointFeature EdgeFeature.checkSizeX m x (.discrete y) = .ok v →
        ∃ v', EdgeFeature.jointFeature EdgeFeature.checkSizeX m x (.discrete y') = .ok v' ∧
          dot (EdgeFeature.sizeJointFeature m) w' v'.get = dot (EdgeFeature.sizeJointFeature m) w v.get := by
  classical
  have hdis : ∀ i ∈ m.sym, i ∉ m.anti := by
    by_contra hn
    unfold EdgeFeature.checkModel at hok
    by_cases h1 : ¬ ∀ i ∈ m.sym ++ m.anti, i < m.nEdgeFeatures
    · rw [if_pos h1] at hok; cases hok
    · rw [if_neg h1, if_pos hn] at hok; cases hok
  refine ⟨renamedEdgeWeights m τ w, renamedEdge_norm m τ hτ w, ?_⟩
  intro x y y' hs hy v hv
  rw [edge_feature_cases m hok] at hv
  by_cases h1 : x.features.cols ≠ m.nFeatures
  · rw [if_pos h1] at hv; cases hv
  by_cases h2 : x.edges.length ≠ x.edgeFeatures.rows
  · rw [if_neg h1, if_pos h2] at hv; cases hv
  by_cases h3 : x.edgeFeatures.cols ≠ m.nEdgeFeatures
  · rw [if_neg h1, if_neg h2, if_pos h3] at hv; cases hv
  rw [if_neg h1, if_neg h2, if_neg h3] at hv
  by_cases h4 : y.size ≠ x.features.rows
  · rw [if_pos h4] at hv; cases hv
  by_cases h5 : ¬ Spec.Valid x.features.rows m.nStates y.get
  · rw [if_neg h4, if_pos h5] at hv; cases hv
  by_cases h6 : ¬ Spec.EdgesIn x.features.rows x.edges
  · rw [if_neg h4, if_neg h5, if_pos h6] at hv; cases hv
  rw [if_neg h4, if_neg h5, if_neg h6] at hv
  obtain rfl := Except.ok.inj hv
  have h2' := (not_not.mp h2).symm
  have h4' := not_not.mp h4
  have h5' := not_not.mp h5
  have h6' := not_not.mp h6
  rw [h4'] at hy
  have hv' : Spec.Valid x.features.rows m.nStates y'.get := by
    intro i hi
    rw [hy i hi]
    exact (hτ _).mpr (h5' i hi)
  rw [edge_feature_cases m hok, hs, if_neg h1, if_neg h2, if_neg h3, if_neg h4, if_neg (not_not.mpr hv'), if_neg h6]
  refine ⟨_, rfl, ?_⟩
  rw [EdgeFeature.dot_psi_discrete m x _ y'.get hdis h2' hv' h6',
    EdgeFeature.dot_psi_discrete m x _ y.get hdis h2' h5' h6']
  unfold Spec.score
  congr 1
  · refine sum_congr rfl fun i hi => ?_
    have hi' := mem_range.mp hi
    unfold EdgeFeature.EU
    refine sum_congr rfl fun f hf => ?_
    rw [hy i hi', renamedEdge_unary m τ w _ f ((hτ _).mpr (h5' i hi')) (mem_range.mp hf), τ.symm_apply_apply]
  · refine sum_congr rfl fun e he => ?_
    have hm := h6' _ (edge_mem (mem_range.mp he))
    unfold edge at hm
    simp only
    refine sum_congr rfl fun k _ => ?_
    unfold EdgeFeature.proj
    rw [renamedEdge_pairwise m τ w k _ _ (hv' _ hm.1) (hv' _ hm.2),
      renamedEdge_pairwise m τ w k _ _ (hv' _ hm.2) (hv' _ hm.1), hy _ hm.1, hy _ hm.2, τ.symm_apply_apply,
      τ.symm_apply_apply]

/-! ### non-vacuity -/

/-- A path of three nodes, its edges, and the same path numbered backwards with one edge turned round. -/
def pathX : GraphCRF.X := ⟨⟨3, 2, fun i f => i + 2 * f⟩, [(0, 1), (1, 2)]⟩

/-- See `pathX`: nodes 0 and 2 have changed places. -/
def pathX' : GraphCRF.X :=
  ⟨⟨3, 2, fun i f => ((Equiv.swap 0 2 i : ℕ) : ℚ) + 2 * f⟩, [(1, 0), (1, 2)]⟩

theorem swap02 : Spec.Renumbering 3 (Equiv.swap 0 2) := by
  intro i
  by_cases h0 : i = 0
  · subst h0; rw [Equiv.swap_apply_left]; omega
  by_cases h2 : i = 2
  · subst h2; rw [Equiv.swap_apply_right]; omega
  rw [Equiv.swap_apply_of_ne_of_ne h0 h2]

example : GraphCRF.jointFeature ⟨2, 2, false⟩ pathX' (.discrete ⟨3, fun i => if i = 2 then 0 else 1⟩) =
    GraphCRF.jointFeature ⟨2, 2, false⟩ pathX (.discrete ⟨3, fun i => if i = 0 then 0 else 1⟩) :=
  C148_graph ⟨2, 2, false⟩ pathX pathX' _ _ (Equiv.swap 0 2) swap02
    ⟨rfl, rfl, fun i _ f => by
      show ((Equiv.swap 0 2 (Equiv.swap 0 2 i) : ℕ) : ℚ) + 2 * f = (i : ℚ) + 2 * f
      rw [Equiv.swap_apply_self]⟩
    ⟨[(1, 2), (1, 0)], .cons (.inr ⟨rfl, by decide⟩) (.cons (.inl (by decide)) .nil), List.Perm.swap _ _ _⟩ rfl
    (fun i hi => by
      show (if Equiv.swap 0 2 i = 2 then 0 else 1) = if i = 0 then 0 else 1
      have : i < 3 := hi
      interval_cases i <;> decide)

/-- the common value of the example is not trivial. -/
example : ((GraphCRF.jointFeature ⟨2, 2, false⟩ pathX (.discrete ⟨3, fun i => if i = 0 then 0 else 1⟩)).toOption.map
    fun v => (List.range v.size).map v.get) = some [0, 2, 3, 7, 0, 1, 1] := by decide +kernel

/-- In a directed model turning an edge round does change the joint feature, so the restriction to undirected
models in `C148_graph` is needed. -/
theorem C148_directed_flip :
    ((GraphCRF.jointFeature ⟨2, 1, true⟩ ⟨⟨2, 1, fun _ _ => 1⟩, [(0, 1)]⟩ (.discrete ⟨2, fun i => i⟩)).toOption.map
      fun v => (List.range v.size).map v.get) = some [1, 1, 0, 1, 0, 0] ∧
    ((GraphCRF.jointFeature ⟨2, 1, true⟩ ⟨⟨2, 1, fun _ _ => 1⟩, [(1, 0)]⟩ (.discrete ⟨2, fun i => i⟩)).toOption.map
      fun v => (List.range v.size).map v.get) = some [1, 1, 0, 0, 1, 0] := by
  constructor <;> decide +kernel

/-- one edge with a symmetric and an antisymmetric feature, turned round. -/
example : Spec.EdgesWithFeaturesMoved (Equiv.refl ℕ) (Equiv.refl ℕ) [0] [1] [(0, 1)] [(1, 0)]
    ⟨1, 2, fun _ k => k + 1⟩ ⟨1, 2, fun _ k => if k = 0 then 1 else -2⟩ := by
  refine ⟨rfl, rfl, rfl, ?_⟩
  intro e he
  obtain rfl : e = 0 := by
    have : e < 1 := he
    omega
  right
  refine ⟨rfl, ?_⟩
  intro k hk
  have : k < 2 := hk
  interval_cases k
  · left; exact ⟨by decide, by norm_num⟩
  · right; exact ⟨by decide, by norm_num⟩

example : EdgeFeature.checkModel ⟨2, 1, 2, [0], [1]⟩ = .ok () := by decide

end Verif.Props
