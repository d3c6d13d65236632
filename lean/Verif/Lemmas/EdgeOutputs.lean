import Verif.Model.EdgeInstance
import Verif.Spec.EdgeOutputs
import Verif.Lemmas.GraphOutputs
import Verif.Props.C22

/-!
# Models with edge features behind the learner interface
-/

namespace Verif.Props

open Finset Verif.Common Verif.Spec Verif.Learner Verif.EdgeFeature
open Verif.GraphCRF (Infer checkSizeW_ok)

theorem edgeScore_labelling {n S : ℕ} {edges : Edges} (hE : EdgesIn n edges) {y : Labels}
    (hv : Valid n S y.get) (U : ℕ → ℕ → ℚ) (P : ℕ → ℕ → ℕ → ℚ) :
    edgeScore n S edges U P (.discrete y) = score n edges U P y.get := by
  rw [← encode_score hE hv]
  unfold edgeScore marginalScore
  congr 1
  · refine sum_congr rfl fun i hi => sum_congr rfl fun s hs => ?_
    rw [nodeVars_encode (mem_range.mp hi) (mem_range.mp hs)]
    rfl
  · refine sum_congr rfl fun e _ => sum_congr rfl fun s hs => sum_congr rfl fun t ht => ?_
    rw [edgeVars_encode (mem_range.mp hs) (mem_range.mp ht)]
    rfl

/-- scores depend on the potentials of states only. -/
theorem edgeScore_congr {n S : ℕ} {edges : Edges} {U U' : ℕ → ℕ → ℚ} {P P' : ℕ → ℕ → ℕ → ℚ}
    (hU : ∀ i < n, ∀ s < S, U i s = U' i s) (hP : ∀ e < edges.length, ∀ a < S, ∀ b < S, P e a b = P' e a b) (v : YVal) :
    edgeScore n S edges U P v = edgeScore n S edges U' P' v := by
  unfold edgeScore marginalScore
  congr 1
  · exact sum_congr rfl fun i hi => sum_congr rfl fun s hs => by rw [hU i (mem_range.mp hi) s (mem_range.mp hs)]
  · exact sum_congr rfl fun e he => sum_congr rfl fun a ha => sum_congr rfl fun b hb => by
      rw [hP e (mem_range.mp he) a (mem_range.mp ha) b (mem_range.mp hb)]

theorem edgeScore_augment {n S : ℕ} {edges : Edges} (U : ℕ → ℕ → ℚ) (P : ℕ → ℕ → ℕ → ℚ) (c : ℕ → ℚ) (t : ℕ → ℕ)
    (ht : Valid n S t) {v : YVal} (hp : LocalPolytope n S edges (nodeMarg S v) (edgeMarg S edges v)) :
    edgeScore n S edges (fun i s => if s = t i then U i s else U i s + c (t i)) P v =
      edgeScore n S edges U P v + marginalLoss n c S t v := by
  have h := outputScore_augment U (fun _ _ => 0) c t ht hp
  unfold outputScore marginalScore at h
  unfold edgeScore marginalScore
  linarith

/-- The pairwise potentials as computed. -/
theorem pairwise_some {m : EdgeFeature.Model} {x : EdgeFeature.X} (h : EdgeFits m x) (hpos : 0 < m.nEdgeFeatures) (w : ℕ → ℚ) :
    ∃ P : ℕ → ℕ → ℕ → ℚ, pairwisePotentials checkSizeX m x ⟨EdgeFeature.sizeJointFeature m, w⟩ =
        .ok ⟨x.edges.length, m.nStates, m.nStates, P⟩ ∧
      ∀ e < x.edges.length, ∀ a < m.nStates, ∀ b < m.nStates, P e a b = EP m x.edgeFeatures w e a b := by
  obtain ⟨-, hF, hE, hr, hk⟩ := h
  obtain ⟨t, h1, h2, h3, h4, h5⟩ := EdgeFeature.pairwise_ok (w := ⟨EdgeFeature.sizeJointFeature m, w⟩)
    (EdgeFeature.checkSizeX_ok hF hr hk) hk hpos rfl
  obtain ⟨d0, d1, d2, g⟩ := t
  simp only at h2 h3 h4 h5
  subst h2 h3 h4
  rw [hr] at h1 h5
  exact ⟨g, h1, h5⟩

/-- marginals of an edge as a row of the array of pairwise marginals. -/
def edgeRow (S : ℕ) (edges : Edges) (v : YVal) (e k : ℕ) : ℚ := edgeMarg S edges v e (k / S) (k % S)

theorem psi_congr_ef (m : EdgeFeature.Model) (x : EdgeFeature.X) (U : ℕ → ℕ → ℚ) {P P' : ℕ → ℕ → ℚ}
    (hdis : ∀ i ∈ m.sym, i ∉ m.anti)
    (h : ∀ e < x.edgeFeatures.rows, ∀ a < m.nStates, ∀ b < m.nStates, P e (a * m.nStates + b) = P' e (a * m.nStates + b))
    (k : ℕ) (hk : k < EdgeFeature.sizeJointFeature m) :
    (EdgeFeature.psi m x U P).get k = (EdgeFeature.psi m x U P').get k := by
  rw [psi_get_ef m x U P hdis k hk, psi_get_ef m x U P' hdis k hk]
  split
  · rfl
  · rename_i hge
    unfold EdgeFeature.sizeJointFeature at hk
    have hS : 0 < m.nStates := by
      rcases Nat.eq_zero_or_pos m.nStates with h | h
      · simp [h] at hk
      · exact h
    set j := k - m.nStates * m.nFeatures
    have hlt : j % m.nStates ^ 2 < m.nStates * m.nStates := by
      rw [← pow_two]; exact Nat.mod_lt _ (Nat.pow_pos hS)
    have ha := Nat.div_lt_of_lt_mul hlt
    have hb := Nat.mod_lt (j % m.nStates ^ 2) hS
    have key : ∀ a < m.nStates, ∀ b < m.nStates, ∀ r, ∑ e ∈ range x.edgeFeatures.rows, x.edgeFeatures.get e r *
        P e (a * m.nStates + b) = ∑ e ∈ range x.edgeFeatures.rows, x.edgeFeatures.get e r * P' e (a * m.nStates + b) :=
      fun a ha b hb r => sum_congr rfl fun e he => by rw [h e (mem_range.mp he) a ha b hb]
    unfold proj
    simp only
    rw [key _ ha _ hb, key _ hb _ ha]

/-- joint feature of an output in terms of its marginals. -/
theorem edgeFeature_output {m : EdgeFeature.Model} (hmod : checkModel m = .ok ()) {x : EdgeFeature.X} (h : EdgeFits m x) {v : YVal}
    (hv : IsRelaxed x.features.rows m.nStates x.edges v) (k : ℕ) (hk : k < EdgeFeature.sizeJointFeature m) :
    edgeFeature m x v k = (EdgeFeature.psi m x (nodeMarg m.nStates v) (edgeRow m.nStates x.edges v)).get k := by
  obtain ⟨-, hF, hE, hr, hcol⟩ := h
  obtain ⟨hsa, hdis⟩ := checkModel_ok hmod
  have hc := EdgeFeature.checkSizeX_ok hF hr hcol
  unfold edgeFeature
  rcases hv with ⟨y, rfl, hs, hv⟩ | ⟨u, p, rfl, hu, hp, -⟩
  · rw [EdgeFeature.jointFeature_of_marginals hc hF hcol hsa (EdgeFeature.marginals_discrete hs hr hv hE)]
    refine psi_congr_ef m x _ hdis (fun e he a ha b hb => ?_) k hk
    rw [hr] at he
    have hm := hE _ (getD_mem he)
    have h2 := hv _ hm.2
    unfold edgeRow edgeMarg
    simp only
    rw [flat_div hb, flat_mod hb, add_comm (y.get _) (m.nStates * _), mul_comm m.nStates (y.get _)]
    congr 1
    simp only [eq_iff_iff]
    constructor
    · intro heq
      have d1 := flat_div (i := a) hb
      have d3 := flat_mod (i := a) hb
      rw [heq] at d1 d3
      exact ⟨d1.symm.trans (flat_div h2), d3.symm.trans (flat_mod h2)⟩
    · rintro ⟨e1, e2⟩
      rw [e1, e2]
      rfl
  · rw [EdgeFeature.jointFeature_of_marginals hc hF hcol hsa (marginals_relaxed_ef hu (by rw [hr]; exact hp))]
    refine psi_congr_ef m x _ hdis (fun e he a ha b hb => ?_) k hk
    unfold edgeRow edgeMarg
    simp only
    rw [flat_div hb, flat_mod hb]
    congr 1
    ring

/-- Potentials of edges with symmetrised weights. -/
def symEP (m : EdgeFeature.Model) (ef : Mat) (w : ℕ → ℚ) (e a b : ℕ) : ℚ :=
  ∑ k ∈ range m.nEdgeFeatures, ef.get e k * proj m.sym m.anti k (EW m w k) a b

/-- weights times joint feature is the score of the output under symmetrised potentials. -/
theorem edge_value {m : EdgeFeature.Model} (hmod : checkModel m = .ok ()) {x : EdgeFeature.X} (h : EdgeFits m x) {v : YVal}
    (hv : IsRelaxed x.features.rows m.nStates x.edges v) (w : ℕ → ℚ) :
    dot (EdgeFeature.sizeJointFeature m) w (edgeFeature m x v) =
      edgeScore x.features.rows m.nStates x.edges (EU m x.features w) (symEP m x.edgeFeatures w) v := by
  have h1 : dot (EdgeFeature.sizeJointFeature m) w (edgeFeature m x v) =
      dot (EdgeFeature.sizeJointFeature m) w
        (EdgeFeature.psi m x (nodeMarg m.nStates v) (edgeRow m.nStates x.edges v)).get := by
    unfold dot
    exact sum_congr rfl fun k hk => by rw [edgeFeature_output hmod h hv k (mem_range.mp hk)]
  rw [h1, EdgeFeature.dot_psi m x _ _ w (checkModel_ok hmod).2]
  unfold edgeScore marginalScore symEP
  congr 1
  · exact sum_congr rfl fun i _ => sum_congr rfl fun s _ => mul_comm _ _
  · rw [h.2.2.2.1]
    refine sum_congr rfl fun e _ => sum_congr rfl fun a _ => sum_congr rfl fun b hb => ?_
    unfold edgeRow
    rw [flat_div (mem_range.mp hb), flat_mod (mem_range.mp hb)]

/-- For weights that respect the declared symmetries, symmetrised potentials are the potentials. -/
theorem symEP_eq {m : EdgeFeature.Model} {w : ℕ → ℚ} (hsym : RespectsSymmetry m.nStates m.nFeatures m.sym m.anti w) (ef : Mat)
    (e a b : ℕ) (ha : a < m.nStates) (hb : b < m.nStates) : symEP m ef w e a b = EP m ef w e a b := by
  unfold symEP EP
  refine sum_congr rfl fun k _ => ?_
  congr 1
  unfold proj
  split
  · rename_i hk
    have := hsym.2 k hk _ ha _ hb
    rw [← EW_flat m w k, ← EW_flat m w k] at this
    rw [this]; ring
  · split
    · rename_i hk
      have := hsym.1 k hk _ ha _ hb
      rw [← EW_flat m w k, ← EW_flat m w k] at this
      rw [this]; ring
    · rfl

theorem edge_lossOf {backend : Bool → Infer} {cw : Vec} {m : EdgeFeature.Model} {n : ℕ} {edges : Edges} (hS : 1 ≤ m.nStates)
    (hc : cw.size = m.nStates) {t : Labels} (ht : t.size = n) (htv : Valid n m.nStates t.get) {v : YVal}
    (h : IsRelaxed n m.nStates edges v) :
    (edgeModel backend cw m).lossOf (.discrete t) v = marginalLoss n cw.get m.nStates t.get v :=
  lossOf_output (backend := backend) (m := ⟨m.nStates, m.nFeatures, false⟩) hS hc ht htv h

/-- with an inference method that finds the best output, loss-augmented inference with weights that respect the symmetries is
exact. -/
theorem edge_exact_at {backend : Bool → Infer} {cw : Vec} {m : EdgeFeature.Model} (hmod : checkModel m = .ok ())
    (hpos : 0 < m.nEdgeFeatures) (hS : 1 ≤ m.nStates)
    (hc : cw.size = m.nStates) {O : ℕ → Edges → Set YVal}
    (hO : ∀ n edges, ∀ v ∈ O n edges, IsRelaxed n m.nStates edges v) (relaxed : Bool)
    (hsolve : SolvesEdges m.nStates O (backend relaxed)) (x : EdgeFeature.X) (y : YVal) (w : ℕ → ℚ)
    (hw : RespectsSymmetry m.nStates m.nFeatures m.sym m.anti w)
    (hy : y ∈ edgeOutputs m O x) (h0 : (edgeModel backend cw m).lossOf y y = 0) :
    (edgeModel backend cw m).lossAug x y w relaxed ∈ edgeOutputs m O x ∧
      ∀ ŷ ∈ edgeOutputs m O x, (problemOf (edgeModel backend cw m) (edgeOutputs m O)).violation w x y ŷ ≤
        (problemOf (edgeModel backend cw m) (edgeOutputs m O)).violation w x y ((edgeModel backend cw m).lossAug x y w relaxed) := by
  obtain ⟨hfit, hyO⟩ := hy
  obtain ⟨hn, hF, hE, hr, hk⟩ := id hfit
  have hval : ∀ v ∈ O x.features.rows x.edges, (problemOf (edgeModel backend cw m) (edgeOutputs m O)).value w x y v =
      edgeScore x.features.rows m.nStates x.edges (EU m x.features w) (EP m x.edgeFeatures w) v :=
    fun v hv => (edge_value hmod hfit (hO _ _ v hv) w).trans (edgeScore_congr (fun _ _ _ _ => rfl)
      (fun e _ a ha b hb => symEP_eq hw _ e a b ha hb) v)
  cases y with
  | relaxed u p =>
    exfalso
    change (1 : ℚ) = 0 at h0
    norm_num at h0
  | discrete t =>
    obtain ⟨ht, htv⟩ : t.size = x.features.rows ∧ Valid x.features.rows m.nStates t.get := by
      rcases hO _ _ _ hyO with ⟨t', h1, h2, h3⟩ | ⟨u, p, h1, -⟩
      · cases h1; exact ⟨h2, h3⟩
      · cases h1
    have hcw : ∀ i < x.features.rows, t.get i < cw.size := by rw [hc]; exact htv
    obtain ⟨P, hP, hPe⟩ := pairwise_some hfit hpos w
    obtain ⟨v, hv, hinf, hmax⟩ := hsolve x.features.rows x.edges hn hE ⟨_, hyO⟩
      (fun i s => if s = t.get i then EU m x.features w i s else EU m x.features w i s + cw.get (t.get i)) P
    have hla : (edgeModel backend cw m).lossAug x (.discrete t) w relaxed = v := by
      change okD _ (EdgeFeature.lossAugmentedInference checkSizeX (backend relaxed) cw m x t
        ⟨EdgeFeature.sizeJointFeature m, w⟩) = v
      unfold EdgeFeature.lossAugmentedInference
      rw [checkSizeW_ok (w := ⟨EdgeFeature.sizeJointFeature m, w⟩) rfl,
        EdgeFeature.unary_ok (w := ⟨EdgeFeature.sizeJointFeature m, w⟩) (EdgeFeature.checkSizeX_ok hF hr hk) hF rfl, hP]
      simp only [bind, Except.bind]
      rw [augment_ok (U := ⟨x.features.rows, m.nStates, EU m x.features w⟩) ht hcw]
      simp only
      rw [hinf]
      rfl
    simp only [hla]
    refine ⟨⟨hfit, hv⟩, fun z hz => ?_⟩
    have hzO := hz.2
    have h1 := hmax z hzO
    have hzr := hO _ _ z hzO
    have hvr := hO _ _ v hv
    rw [edgeScore_augment _ _ _ _ htv (isRelaxed_polytope hE hzr),
      edgeScore_augment _ _ _ _ htv (isRelaxed_polytope hE hvr),
      edgeScore_congr (U' := EU m x.features w) (fun _ _ _ _ => rfl) hPe z,
      edgeScore_congr (U' := EU m x.features w) (fun _ _ _ _ => rfl) hPe v] at h1
    have l1 : (problemOf (edgeModel backend cw m) (edgeOutputs m O)).loss (.discrete t) z = _ :=
      edge_lossOf hS hc ht htv hzr
    have l2 : (problemOf (edgeModel backend cw m) (edgeOutputs m O)).loss (.discrete t) v = _ :=
      edge_lossOf hS hc ht htv hvr
    unfold Problem.violation
    rw [l1, l2, hval z hzO, hval v hv]
    linarith

/-! ### ranges -/

theorem edge_marg_range {n S : ℕ} {edges : Edges} (hE : EdgesIn n edges) {μ : ℕ → ℕ → ℚ} {ν : ℕ → ℕ → ℕ → ℚ}
    (h : LocalPolytope n S edges μ ν) {e a b : ℕ} (he : e < edges.length) (ha : a < S) (hb : b < S) :
    0 ≤ ν e a b ∧ ν e a b ≤ 1 := by
  refine ⟨h.nonneg_edge e he a ha b hb, ?_⟩
  have h1 := h.first e he a ha
  have h2 := ((marg_range hE h).1 _ (hE _ (getD_mem he)).1 a ha).2
  rw [← h1] at h2
  exact (single_le_sum (f := fun t => ν e a t) (fun t ht => h.nonneg_edge e he a ha t (mem_range.mp ht))
    (mem_range.mpr hb)).trans h2

/-- Bound on the squared distance between joint features of two outputs of an instance: squared sums of absolute values of the
features, once per state, and of the edge features, once per pair of states. -/
def edgeBound (m : EdgeFeature.Model) (x : EdgeFeature.X) : ℚ :=
  ∑ k ∈ range (EdgeFeature.sizeJointFeature m),
    (if k < m.nStates * m.nFeatures then ∑ i ∈ range x.features.rows, |x.features.get i (k % m.nFeatures)|
      else ∑ e ∈ range x.edges.length, |x.edgeFeatures.get e ((k - m.nStates * m.nFeatures) / m.nStates ^ 2)|) ^ 2

theorem edgeBound_nonneg (m : EdgeFeature.Model) (x : EdgeFeature.X) : 0 ≤ edgeBound m x :=
  sum_nonneg fun _ _ => sq_nonneg _

theorem proj_abs_le (sym anti : List ℕ) (r : ℕ) (M N : ℕ → ℕ → ℚ) (a b : ℕ) (B : ℚ) (h1 : |M a b - N a b| ≤ B)
    (h2 : |M b a - N b a| ≤ B) : |proj sym anti r M a b - proj sym anti r N a b| ≤ B := by
  rw [abs_le] at h1 h2
  unfold proj
  split_ifs <;> rw [abs_le] <;> constructor <;> linarith [h1.1, h1.2, h2.1, h2.2]

theorem edge_range {backend : Bool → Infer} {cw : Vec} {m : EdgeFeature.Model} (hmod : checkModel m = .ok ())
    {O : ℕ → Edges → Set YVal} (hO : ∀ n edges, ∀ v ∈ O n edges, IsRelaxed n m.nStates edges v)
    (samples : List (EdgeFeature.X × YVal)) (R : ℚ) (hR : ∀ s ∈ samples, edgeBound m s.1 ≤ R) :
    (problemOf (edgeModel backend cw m) (edgeOutputs m O)).FeatureRange samples R := by
  rintro s hs y ⟨hfit, hy⟩ z ⟨-, hz⟩
  refine le_trans ?_ (hR s hs)
  obtain ⟨hn, hF, hE, hr, hcol⟩ := id hfit
  obtain ⟨hsa, hdis⟩ := checkModel_ok hmod
  have py := isRelaxed_polytope hE (hO _ _ y hy)
  have pz := isRelaxed_polytope hE (hO _ _ z hz)
  unfold edgeBound
  refine sum_le_sum fun k hk => ?_
  have hk : k < EdgeFeature.sizeJointFeature m := mem_range.mp hk
  have e : ∀ v ∈ O s.1.features.rows s.1.edges, (problemOf (edgeModel backend cw m) (edgeOutputs m O)).feat s.1 v s.2 k = _ :=
    fun v hv => edgeFeature_output hmod hfit (hO _ _ v hv) k hk
  rw [e y hy, e z hz, ← sq_abs]
  refine pow_le_pow_left₀ (abs_nonneg _) ?_ 2
  rw [psi_get_ef m _ _ _ hdis k hk, psi_get_ef m _ _ _ hdis k hk]
  by_cases hlt : k < m.nStates * m.nFeatures
  · simp only [if_pos hlt]
    have hs : k / m.nFeatures < m.nStates := Nat.div_lt_of_lt_mul (by rw [mul_comm]; exact hlt)
    rw [← sum_sub_distrib]
    refine (abs_sum_le_sum_abs _ _).trans (sum_le_sum fun i hi => ?_)
    rw [← sub_mul, abs_mul]
    have h1 := (marg_range hE py).1 i (mem_range.mp hi) _ hs
    have h2 := (marg_range hE pz).1 i (mem_range.mp hi) _ hs
    refine mul_le_of_le_one_left (abs_nonneg _) ?_
    rw [abs_le]
    constructor <;> linarith [h1.1, h1.2, h2.1, h2.2]
  · simp only [if_neg hlt]
    unfold EdgeFeature.sizeJointFeature at hk
    have hS : 0 < m.nStates := by
      rcases Nat.eq_zero_or_pos m.nStates with h | h
      · simp [h] at hk
      · exact h
    set j := k - m.nStates * m.nFeatures
    have hj : j % m.nStates ^ 2 < m.nStates * m.nStates := by
      rw [← pow_two]; exact Nat.mod_lt _ (Nat.pow_pos hS)
    have ha := Nat.div_lt_of_lt_mul hj
    have hb := Nat.mod_lt (j % m.nStates ^ 2) hS
    have key : ∀ a < m.nStates, ∀ b < m.nStates, ∀ r,
        |∑ e ∈ range s.1.edgeFeatures.rows, s.1.edgeFeatures.get e r * edgeRow m.nStates s.1.edges y e (a * m.nStates + b) -
          ∑ e ∈ range s.1.edgeFeatures.rows, s.1.edgeFeatures.get e r * edgeRow m.nStates s.1.edges z e (a * m.nStates + b)| ≤
        ∑ e ∈ range s.1.edges.length, |s.1.edgeFeatures.get e r| := by
      intro a ha b hb r
      rw [hr, ← sum_sub_distrib]
      refine (abs_sum_le_sum_abs _ _).trans (sum_le_sum fun i hi => ?_)
      rw [← mul_sub, abs_mul]
      unfold edgeRow
      rw [flat_div hb, flat_mod hb]
      have h1 := edge_marg_range hE py (mem_range.mp hi) ha hb
      have h2 := edge_marg_range hE pz (mem_range.mp hi) ha hb
      refine mul_le_of_le_one_right (abs_nonneg _) ?_
      rw [abs_le]
      constructor <;> linarith [h1.1, h1.2, h2.1, h2.2]
    exact proj_abs_le _ _ _ _ _ _ _ _ (key _ ha _ hb _) (key _ hb _ ha _)

end Verif.Props
