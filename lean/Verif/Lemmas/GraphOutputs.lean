import Verif.Spec.GraphOutputs
import Verif.Spec.FrankWolfe
import Verif.Props.C29
import Verif.Props.C07
import Verif.Props.C14
import Verif.Props.C23
import Verif.Props.C27

/-!
# Graph CRFs behind the learner interface
-/

namespace Verif.Props

open Finset Verif.Common Verif.GraphCRF Verif.Spec Verif.Learner

theorem isRelaxed_polytope {n S : ℕ} {edges : Edges} (hE : EdgesIn n edges) {v : YVal}
    (h : IsRelaxed n S edges v) : LocalPolytope n S edges (nodeMarg S v) (edgeMarg S edges v) := by
  rcases h with ⟨y, rfl, -, hv⟩ | ⟨u, p, -, -, -, h⟩
  · have := encode_polytope hE hv
    refine ⟨?_, ?_, ?_, ?_, ?_⟩
    · intro i _ s _
      unfold nodeMarg
      simp only
      split <;> norm_num
    · intro e _ s _ t _
      unfold edgeMarg
      simp only
      split <;> norm_num
    · intro i hi
      rw [← this.normalised i hi]
      exact sum_congr rfl fun s hs => (nodeVars_encode hi (mem_range.mp hs)).symm
    · intro e he s hs
      have hr := hE _ (getD_mem he)
      have h1 := this.first e he s hs
      rw [nodeVars_encode hr.1 hs] at h1
      change _ = if s = y.get _ then (1 : ℚ) else 0
      rw [← h1]
      exact sum_congr rfl fun t ht => (edgeVars_encode hs (mem_range.mp ht)).symm
    · intro e he t ht
      have hr := hE _ (getD_mem he)
      have h1 := this.second e he t ht
      rw [nodeVars_encode hr.2 ht] at h1
      change _ = if t = y.get _ then (1 : ℚ) else 0
      rw [← h1]
      exact sum_congr rfl fun s hs => (edgeVars_encode (mem_range.mp hs) ht).symm
  · exact h

/-- the score of a labelling is its energy. -/
theorem outputScore_labelling {n S : ℕ} {edges : Edges} (hE : EdgesIn n edges) {y : Labels}
    (hv : Valid n S y.get) (U P : ℕ → ℕ → ℚ) :
    outputScore n S edges U P (.discrete y) = score n edges U (fun _ => P) y.get := by
  rw [← encode_score hE hv]
  unfold outputScore marginalScore
  congr 1
  · refine sum_congr rfl fun i hi => sum_congr rfl fun s hs => ?_
    rw [nodeVars_encode (mem_range.mp hi) (mem_range.mp hs)]
    rfl
  · refine sum_congr rfl fun e _ => sum_congr rfl fun s hs => sum_congr rfl fun t ht => ?_
    rw [edgeVars_encode (mem_range.mp hs) (mem_range.mp ht)]
    rfl

/-- joint feature of an output in terms of its marginals. -/
theorem jointFeature_output {m : Model} {x : X} (hF : x.features.cols = m.nFeatures)
    (hE : EdgesIn x.features.rows x.edges) (hS : 1 ≤ m.nStates) {v : YVal}
    (h : IsRelaxed x.features.rows m.nStates x.edges v) :
    jointFeature m x v = .ok (psi m x.features (nodeMarg m.nStates v)
      (fun a b => ∑ e ∈ range x.edges.length, edgeMarg m.nStates x.edges v e a b)) := by
  rcases h with ⟨y, rfl, hs, hv⟩ | ⟨u, p, rfl, hu, hp, -⟩
  · rw [jointFeature_of_marginals hF (marginals_discrete hs hv hE)]
    have : hotPair x.edges y.get = fun a b =>
        ∑ e ∈ range x.edges.length, edgeMarg m.nStates x.edges (.discrete y) e a b := by
      funext a b
      unfold hotPair
      refine sum_congr rfl fun e _ => ?_
      unfold edgeMarg edge
      generalize x.edges.getD e (0, 0) = q
      simp only
      by_cases h1 : a = y.get q.1 <;> by_cases h2 : b = y.get q.2 <;> simp [h1, h2]
    rw [this]
    rfl
  · rw [jointFeature_of_marginals hF (marginals_relaxed hS hu hp)]
    rfl

theorem graphFeature_output {m : Model} {x : X} (hF : x.features.cols = m.nFeatures)
    (hE : EdgesIn x.features.rows x.edges) (hS : 1 ≤ m.nStates) {v : YVal}
    (h : IsRelaxed x.features.rows m.nStates x.edges v) :
    graphFeature m x v = (psi m x.features (nodeMarg m.nStates v)
      (fun a b => ∑ e ∈ range x.edges.length, edgeMarg m.nStates x.edges v e a b)).get := by
  unfold graphFeature
  rw [jointFeature_output hF hE hS h]
  rfl

/-- weights times joint feature is the score of the output under the potentials. -/
theorem value_output {m : Model} {x : X} (hF : x.features.cols = m.nFeatures)
    (hE : EdgesIn x.features.rows x.edges) (hS : 1 ≤ m.nStates) {v : YVal}
    (h : IsRelaxed x.features.rows m.nStates x.edges v) (w : ℕ → ℚ) :
    dot (sizeJointFeature m) w (graphFeature m x v) =
      outputScore x.features.rows m.nStates x.edges (UN m x.features w) (PW m w) v := by
  rw [graphFeature_output hF hE hS h, dot_psi]
  unfold outputScore marginalScore
  congr 1
  · exact sum_congr rfl fun i _ => sum_congr rfl fun s _ => mul_comm _ _
  · simp only [mul_sum]
    rw [sum_congr rfl fun a _ => sum_comm, sum_comm]

/-- Loss of an output against a true labelling: linear in the marginals. -/
def marginalLoss (n : ℕ) (c : ℕ → ℚ) (S : ℕ) (t : ℕ → ℕ) (v : YVal) : ℚ :=
  ∑ i ∈ range n, c (t i) * (1 - nodeMarg S v i (t i))

theorem lossOf_output {backend : Bool → Infer} {cw : Vec} {m : Model} {n : ℕ} {edges : Edges} (hS : 1 ≤ m.nStates)
    (hc : cw.size = m.nStates) {t : Labels} (ht : t.size = n) (htv : Valid n m.nStates t.get) {v : YVal}
    (h : IsRelaxed n m.nStates edges v) :
    (graphModel backend cw m).lossOf (.discrete t) v = marginalLoss n cw.get m.nStates t.get v := by
  have hcw : ∀ i < n, t.get i < cw.size := by rw [hc]; exact htv
  rcases h with ⟨y, rfl, hs, hv⟩ | ⟨u, p, rfl, hu, hp, -⟩
  · change okD 0 (Loss.loss (some cw) t y) = _
    rw [loss_some_ok ht hs hcw]
    change weightedHamming n cw.get t.get y.get = _
    unfold weightedHamming marginalLoss nodeMarg
    refine sum_congr rfl fun i _ => ?_
    by_cases h : t.get i = y.get i <;> simp [h]
  · change okD 0 (Loss.continuousLoss (some cw) t _) = _
    subst ht
    have hdiv : u.size / m.nStates = t.size := by rw [hu, Nat.mul_div_cancel _ hS]
    rw [hdiv, continuousLoss_some_ok (m := ⟨t.size, m.nStates, fun i s => u.get (i * m.nStates + s)⟩) le_rfl htv hcw]
    rfl

/-- loss augmentation adds the loss. -/
theorem outputScore_augment {n S : ℕ} {edges : Edges} (U P : ℕ → ℕ → ℚ) (c : ℕ → ℚ) (t : ℕ → ℕ)
    (ht : Valid n S t) {v : YVal} (hp : LocalPolytope n S edges (nodeMarg S v) (edgeMarg S edges v)) :
    outputScore n S edges (fun i s => if s = t i then U i s else U i s + c (t i)) P v =
      outputScore n S edges U P v + marginalLoss n c S t v := by
  unfold outputScore marginalScore marginalLoss
  rw [add_right_comm, ← sum_add_distrib]
  congr 1
  refine sum_congr rfl fun i hi => ?_
  have h1 := hp.normalised i (mem_range.mp hi)
  have h2 : ∀ s, (if s = t i then U i s else U i s + c (t i)) * nodeMarg S v i s =
      U i s * nodeMarg S v i s + c (t i) * nodeMarg S v i s -
        c (t i) * (nodeMarg S v i s * if s = t i then 1 else 0) := by
    intro s
    by_cases h : s = t i <;> simp [h]
    ring
  simp only [h2]
  rw [sum_sub_distrib, sum_add_distrib, ← mul_sum, ← mul_sum, h1]
  have h3 : ∑ s ∈ range S, nodeMarg S v i s * (if s = t i then (1 : ℚ) else 0) = nodeMarg S v i (t i) := by
    simp [mem_range.mpr (ht i (mem_range.mp hi))]
  rw [h3]
  ring

/-- with an inference method that finds the best output, inference and loss-augmented inference are exact. -/
theorem graph_exact {backend : Bool → Infer} {cw : Vec} {m : Model} (hS : 1 ≤ m.nStates)
    (hc : cw.size = m.nStates) {O : ℕ → Edges → Set YVal}
    (hO : ∀ n edges, ∀ v ∈ O n edges, IsRelaxed n m.nStates edges v) (relaxed : Bool)
    (hsolve : SolvesOver m.nStates O (backend relaxed)) :
    (problemOf (graphModel backend cw m) (outputsOver m O)).ExactLossAug
      (fun x y w => (graphModel backend cw m).lossAug x y w relaxed) := by
  intro x y w hy h0
  obtain ⟨⟨hn, hF, hE⟩, hyO⟩ := hy
  have hval : ∀ v ∈ O x.features.rows x.edges, (problemOf (graphModel backend cw m) (outputsOver m O)).value w x y v =
      outputScore x.features.rows m.nStates x.edges (UN m x.features w) (PW m w) v :=
    fun v hv => value_output hF hE hS (hO _ _ v hv) w
  cases y with
  | relaxed u p =>
    exfalso
    change (1 : ℚ) = 0 at h0
    norm_num at h0
  | discrete t =>
    obtain ⟨ht, htv⟩ : t.size = x.features.rows ∧ Valid x.features.rows m.nStates t.get := by
      rcases hO _ _ _ hyO with ⟨t', h1, h2, h3⟩ | ⟨u, p, h1, -⟩
      · cases h1; exact ⟨h2, h3⟩
      · cases h1
    have hcw : ∀ i < x.features.rows, t.get i < cw.size := by rw [hc]; exact htv
    obtain ⟨v, hv, hinf, hmax⟩ := hsolve x.features.rows x.edges hn hE ⟨_, hyO⟩
      (fun i s => if s = t.get i then UN m x.features w i s else UN m x.features w i s + cw.get (t.get i)) (PW m w)
    have hla : (graphModel backend cw m).lossAug x (.discrete t) w relaxed = v := by
      change okD _ (lossAugmentedInference (backend relaxed) cw m x t ⟨sizeJointFeature m, w⟩) = v
      unfold lossAugmentedInference
      rw [checkSizeW_ok (w := ⟨sizeJointFeature m, w⟩) rfl, unary_ok (w := ⟨sizeJointFeature m, w⟩) hF rfl,
        pairwise_ok (w := ⟨sizeJointFeature m, w⟩) hF rfl]
      simp only [bind, Except.bind]
      rw [augment_ok (U := ⟨x.features.rows, m.nStates, UN m x.features w⟩) ht hcw]
      simp only
      rw [hinf]
      rfl
    simp only [hla]
    refine ⟨⟨⟨hn, hF, hE⟩, hv⟩, fun z hz => ?_⟩
    have hzO := hz.2
    have h1 := hmax z hzO
    have hzr := hO _ _ z hzO
    have hvr := hO _ _ v hv
    rw [outputScore_augment _ _ _ _ htv (isRelaxed_polytope hE hzr),
      outputScore_augment _ _ _ _ htv (isRelaxed_polytope hE hvr)] at h1
    have l1 : (problemOf (graphModel backend cw m) (outputsOver m O)).loss (.discrete t) z = _ :=
      lossOf_output hS hc ht htv hzr
    have l2 : (problemOf (graphModel backend cw m) (outputsOver m O)).loss (.discrete t) v = _ :=
      lossOf_output hS hc ht htv hvr
    unfold Problem.violation
    rw [l1, l2, hval z hzO, hval v hv]
    linarith

theorem graph_exact_inference {backend : Bool → Infer} {cw : Vec} {m : Model} (hS : 1 ≤ m.nStates)
    {O : ℕ → Edges → Set YVal}
    (hO : ∀ n edges, ∀ v ∈ O n edges, IsRelaxed n m.nStates edges v)
    (hsolve : SolvesOver m.nStates O (backend false)) :
    (problemOf (graphModel backend cw m) (outputsOver m O)).ExactInference (graphModel backend cw m).inference := by
  intro x y w hy
  obtain ⟨⟨hn, hF, hE⟩, hyO⟩ := hy
  have hval : ∀ v ∈ O x.features.rows x.edges, (problemOf (graphModel backend cw m) (outputsOver m O)).value w x y v =
      outputScore x.features.rows m.nStates x.edges (UN m x.features w) (PW m w) v :=
    fun v hv => value_output hF hE hS (hO _ _ v hv) w
  obtain ⟨v, hv, hinf, hmax⟩ := hsolve x.features.rows x.edges hn hE ⟨_, hyO⟩ (UN m x.features w) (PW m w)
  have hla : (graphModel backend cw m).inference x w = v := by
    change okD _ (inference (backend false) m x ⟨sizeJointFeature m, w⟩) = v
    unfold inference
    rw [checkSizeW_ok (w := ⟨sizeJointFeature m, w⟩) rfl, unary_ok (w := ⟨sizeJointFeature m, w⟩) hF rfl,
        pairwise_ok (w := ⟨sizeJointFeature m, w⟩) hF rfl]
    simp only [bind, Except.bind]
    rw [hinf]
    rfl
  rw [hla]
  refine ⟨⟨⟨hn, hF, hE⟩, hv⟩, fun z hz => ?_⟩
  rw [hval z hz.2, hval v hv]
  exact hmax z hz.2

/-- samples labelled with label arrays are properly labelled. -/
theorem graph_labelled {backend : Bool → Infer} {cw : Vec} {m : Model} (hS : 1 ≤ m.nStates)
    (hc : cw.size = m.nStates) {O : ℕ → Edges → Set YVal} {samples : List (X × YVal)}
    (h : ∀ s ∈ samples, IsLabelling s.1.features.rows m.nStates s.2 ∧ s.2 ∈ outputsOver m O s.1) :
    (problemOf (graphModel backend cw m) (outputsOver m O)).Labelled samples := by
  intro s hs
  obtain ⟨⟨y, hy, h1, h2⟩, h3⟩ := h s hs
  refine ⟨h3, ?_⟩
  have := lossOf_output (backend := backend) (edges := []) hS hc h1 h2 (.inl ⟨y, rfl, h1, h2⟩)
  change (graphModel backend cw m).lossOf s.2 s.2 = 0
  rw [hy, this]
  unfold marginalLoss nodeMarg
  simp

/-! ### ranges -/

theorem marg_range {n S : ℕ} {edges : Edges} (hE : EdgesIn n edges) {μ : ℕ → ℕ → ℚ} {ν : ℕ → ℕ → ℕ → ℚ}
    (h : LocalPolytope n S edges μ ν) :
    (∀ i < n, ∀ s < S, 0 ≤ μ i s ∧ μ i s ≤ 1) ∧
    ∀ a < S, ∀ b < S, 0 ≤ ∑ e ∈ range edges.length, ν e a b ∧ ∑ e ∈ range edges.length, ν e a b ≤ edges.length := by
  have hμ : ∀ i < n, ∀ s < S, 0 ≤ μ i s ∧ μ i s ≤ 1 := by
    intro i hi s hs
    refine ⟨h.nonneg i hi s hs, ?_⟩
    rw [← h.normalised i hi]
    exact single_le_sum (f := fun s => μ i s) (fun s hs => h.nonneg i hi s (mem_range.mp hs)) (mem_range.mpr hs)
  refine ⟨hμ, fun a ha b hb => ⟨sum_nonneg fun e he => h.nonneg_edge e (mem_range.mp he) a ha b hb, ?_⟩⟩
  have : ∀ e ∈ range edges.length, ν e a b ≤ 1 := by
    intro e he
    have he := mem_range.mp he
    have h1 := h.first e he a ha
    have h2 := (hμ _ (hE _ (getD_mem he)).1 a ha).2
    rw [← h1] at h2
    exact (single_le_sum (f := fun t => ν e a t) (fun t ht => h.nonneg_edge e he a ha t (mem_range.mp ht))
      (mem_range.mpr hb)).trans h2
  refine (sum_le_sum this).trans ?_
  simp

/-- Bound on the squared distance between joint features of two outputs of an instance: the squared sums of the
absolute values of the features, once per state, and four times the squared number of edges per interaction
parameter. -/
def featureBound (m : Model) (x : X) : ℚ :=
  ∑ k ∈ range (sizeJointFeature m),
    (if k < m.nStates * m.nFeatures then ∑ i ∈ range x.features.rows, |x.features.get i (k % m.nFeatures)|
      else 2 * x.edges.length) ^ 2

theorem psi_dist {m : Model} {x : X} {U U' P P' : ℕ → ℕ → ℚ}
    (hU : ∀ i < x.features.rows, ∀ s < m.nStates, 0 ≤ U i s ∧ U i s ≤ 1)
    (hU' : ∀ i < x.features.rows, ∀ s < m.nStates, 0 ≤ U' i s ∧ U' i s ≤ 1)
    (hP : ∀ a < m.nStates, ∀ b < m.nStates, 0 ≤ P a b ∧ P a b ≤ x.edges.length)
    (hP' : ∀ a < m.nStates, ∀ b < m.nStates, 0 ≤ P' a b ∧ P' a b ≤ x.edges.length) :
    ∑ k ∈ range (sizeJointFeature m),
      ((psi m x.features U P).get k - (psi m x.features U' P').get k) ^ 2 ≤ featureBound m x := by
  unfold featureBound
  refine sum_le_sum fun k hk => ?_
  have hk := mem_range.mp hk
  rw [← sq_abs]
  have hle : |(psi m x.features U P).get k - (psi m x.features U' P').get k| ≤
      if k < m.nStates * m.nFeatures then ∑ i ∈ range x.features.rows, |x.features.get i (k % m.nFeatures)|
      else 2 * x.edges.length := by
    by_cases hlt : k < m.nStates * m.nFeatures
    · rw [if_pos hlt]
      have hs : k / m.nFeatures < m.nStates := Nat.div_lt_of_lt_mul (by rw [mul_comm]; exact hlt)
      have e : ∀ V Q, (psi m x.features V Q).get k =
          ∑ i ∈ range x.features.rows, V i (k / m.nFeatures) * x.features.get i (k % m.nFeatures) := by
        intro V Q
        unfold psi Vec.append Mat.ravel
        simp only
        rw [if_pos hlt]
      rw [e, e, ← sum_sub_distrib]
      refine (abs_sum_le_sum_abs _ _).trans (sum_le_sum fun i hi => ?_)
      rw [← sub_mul, abs_mul]
      have h1 := hU i (mem_range.mp hi) _ hs
      have h2 := hU' i (mem_range.mp hi) _ hs
      have : |U i (k / m.nFeatures) - U' i (k / m.nFeatures)| ≤ 1 := by
        rw [abs_le]; constructor <;> linarith
      exact mul_le_of_le_one_left (abs_nonneg _) this
    · rw [if_neg hlt]
      by_cases hd : m.directed
      · have hk2 : k - m.nStates * m.nFeatures < m.nStates * m.nStates := by
          unfold sizeJointFeature at hk
          rw [if_pos hd, pow_two] at hk
          omega
        have hpos : 0 < m.nStates := by
          rcases Nat.eq_zero_or_pos m.nStates with h | h
          · rw [h] at hk2; omega
          · exact h
        have h1 := hP _ (Nat.div_lt_of_lt_mul hk2) _ (Nat.mod_lt (k - m.nStates * m.nFeatures) hpos)
        have h2 := hP' _ (Nat.div_lt_of_lt_mul hk2) _ (Nat.mod_lt (k - m.nStates * m.nFeatures) hpos)
        have e : ∀ V Q, (psi m x.features V Q).get k =
            Q ((k - m.nStates * m.nFeatures) / m.nStates) ((k - m.nStates * m.nFeatures) % m.nStates) := by
          intro V Q
          unfold psi Vec.append Mat.ravel
          simp only [hd, if_true]
          rw [if_neg hlt]
        rw [e, e, abs_le]
        constructor <;> linarith
      · have hd' : m.directed = false := by simpa using hd
        have hk2 : k - m.nStates * m.nFeatures < Sym.tri m.nStates := by
          unfold sizeJointFeature at hk
          rw [if_neg hd] at hk
          unfold Sym.tri
          omega
        obtain ⟨hcr, hr, -⟩ := Sym.tri_decomp hk2
        have hc := lt_of_le_of_lt hcr hr
        have e : ∀ V Q, (psi m x.features V Q).get k =
            Sym.mkSym Q (Sym.triRow (k - m.nStates * m.nFeatures)) (Sym.triCol (k - m.nStates * m.nFeatures)) := by
          intro V Q
          unfold psi Vec.append Mat.ravel
          simp only [hd', Bool.false_eq_true, if_false]
          rw [if_neg hlt]
        rw [e, e]
        unfold Sym.mkSym
        have h1 := hP _ hr _ hc
        have h2 := hP' _ hr _ hc
        have h3 := hP _ hc _ hr
        have h4 := hP' _ hc _ hr
        split
        · rename_i heq
          rw [heq] at h1 h2 ⊢
          rw [abs_le]
          constructor <;> linarith
        · rw [abs_le]
          constructor <;> linarith
  exact pow_le_pow_left₀ (abs_nonneg _) hle 2

theorem graph_range {backend : Bool → Infer} {cw : Vec} {m : Model} (hS : 1 ≤ m.nStates)
    {O : ℕ → Edges → Set YVal} (hO : ∀ n edges, ∀ v ∈ O n edges, IsRelaxed n m.nStates edges v)
    (samples : List (X × YVal)) (R : ℚ) (hR : ∀ s ∈ samples, featureBound m s.1 ≤ R) :
    (problemOf (graphModel backend cw m) (outputsOver m O)).FeatureRange samples R := by
  rintro s hs y ⟨⟨hn, hF, hE⟩, hy⟩ z ⟨-, hz⟩
  refine le_trans ?_ (hR s hs)
  have e : ∀ v ∈ O s.1.features.rows s.1.edges, ∀ k,
      (problemOf (graphModel backend cw m) (outputsOver m O)).feat s.1 v s.2 k = _ := fun v hv k =>
    congrFun (graphFeature_output hF hE hS (hO _ _ v hv)) k
  have e' : ∀ k, (problemOf (graphModel backend cw m) (outputsOver m O)).feat s.1 y s.2 k -
      (problemOf (graphModel backend cw m) (outputsOver m O)).feat s.1 z s.2 k = _ := fun k =>
    congrArg₂ (· - ·) (e y hy k) (e z hz k)
  simp only [e']
  have hp := marg_range hE (isRelaxed_polytope hE (hO _ _ y hy))
  have hp' := marg_range hE (isRelaxed_polytope hE (hO _ _ z hz))
  exact psi_dist hp.1 hp'.1 hp.2 hp'.2

end Verif.Props
