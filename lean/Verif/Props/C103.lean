import Verif.Lemmas.Monge
import Verif.Props.C91
import Verif.Props.C99

/-!
# C103: inference by linear programming with attractive potentials; C104: persistency

C103: if the pairwise potentials reward agreement (in the order of the states), the linear program of `inference_lp` has
the value of the best labelling on every graph, and with two states the rounded solution is a best labelling.
C104: with two states and arbitrary potentials, the vertices with integral marginals have the right state.
-/

namespace Verif.Props

open Finset Verif.Common Verif.LP Verif.Spec Verif.GraphCRF Verif.Dispatch Verif.Learner

/-- **C103a.** With attractive potentials, no point of the local polytope scores more than the best labelling, on any graph
and for any number of states. -/
theorem C103_polytope_tight (n S : ℕ) (hS : 1 ≤ S) (edges : Edges) (hE : EdgesIn n edges) (U : ℕ → ℕ → ℚ)
    (P : ℕ → ℕ → ℕ → ℚ) (hP : Attractive S edges P) :
    ∃ y, IsMAP n S edges U P y ∧ ∀ μ ν, LocalPolytope n S edges μ ν →
      marginalScore n S edges U P μ ν ≤ Spec.score n edges U P y := by
  obtain ⟨y, hy⟩ := isMAP_exists n S hS edges hE U P
  refine ⟨y, hy, fun μ ν hμ => ?_⟩
  obtain ⟨M, z, hM, hz, hsum, -⟩ := Monge.rounding hS hE U P hP hμ
  have h1 : ∑ t ∈ range (2 * M), Spec.score n edges U P (z t) ≤ (2 * M : ℕ) * Spec.score n edges U P y := by
    refine (sum_le_sum fun t _ => hy.2 _ (hz t)).trans (le_of_eq ?_)
    rw [sum_const, card_range, nsmul_eq_mul]
  have h2 : (0 : ℚ) < (2 * M : ℕ) := by
    rw [Nat.cast_pos]
    omega
  exact le_of_mul_le_mul_left (hsum.trans h1) h2

/-- two states: the first maximum is state 0 exactly if it has at least half of the mass. -/
theorem argmax_half {μ : ℕ → ℚ} (h : μ 0 + μ 1 = 1) : argmaxN μ 2 = if 1 / 2 ≤ μ 0 then 0 else 1 := by
  have h2 : argmaxN μ 2 = if μ 0 < μ 1 then 1 else 0 := by simp [argmaxN]
  rw [h2]
  by_cases h' : μ 0 < μ 1
  · rw [if_pos h', if_neg (by linarith)]
  · rw [if_neg h', if_pos (by linarith)]

/-- **C103b.** With two states and attractive potentials, rounding an optimal point of the local polytope vertex by vertex
gives a best labelling, also if there are several. -/
theorem C103_rounding_exact (n : ℕ) (edges : Edges) (hE : EdgesIn n edges) (U : ℕ → ℕ → ℚ)
    (P : ℕ → ℕ → ℕ → ℚ) (hP : Attractive 2 edges P) (μ : ℕ → ℕ → ℚ) (ν : ℕ → ℕ → ℕ → ℚ) (hμ : LocalPolytope n 2 edges μ ν)
    (hopt : ∀ y, Valid n 2 y → Spec.score n edges U P y ≤ marginalScore n 2 edges U P μ ν) :
    IsMAP n 2 edges U P (fun i => argmaxN (μ i) 2) ∧
      Spec.score n edges U P (fun i => argmaxN (μ i) 2) = marginalScore n 2 edges U P μ ν := by
  obtain ⟨M, z, hM, hz, hsum, hlev⟩ := Monge.rounding (by decide : 1 ≤ 2) hE U P hP hμ
  have hall : ∀ t ∈ range (2 * M), Spec.score n edges U P (z t) = marginalScore n 2 edges U P μ ν := by
    have hle : ∀ t ∈ range (2 * M), Spec.score n edges U P (z t) ≤ marginalScore n 2 edges U P μ ν :=
      fun t _ => hopt _ (hz t)
    have hs : ∑ t ∈ range (2 * M), Spec.score n edges U P (z t) =
        ∑ t ∈ range (2 * M), marginalScore n 2 edges U P μ ν := by
      refine le_antisymm (sum_le_sum hle) ?_
      rwa [sum_const, card_range, nsmul_eq_mul]
    exact (sum_eq_sum_iff_of_le hle).mp hs
  have hag : ∀ i < n, argmaxN (μ i) 2 = z (M - 1) i := by
    intro i hi
    have hnorm := hμ.normalised i hi
    rw [sum_range_succ, sum_range_succ, range_zero, sum_empty, zero_add] at hnorm
    rw [argmax_half hnorm]
    obtain ⟨k, hk, hlt⟩ := hlev i hi 0 (by decide)
    have h2 : Monge.cum (μ i) 0 = μ i 0 := by simp [Monge.cum]
    rw [h2] at hk
    push_cast at hk
    have hMq : (0 : ℚ) < M := Nat.cast_pos.mpr hM
    have h3 : 1 / 2 ≤ μ i 0 ↔ M - 1 < k := by
      have h4 : 1 / 2 ≤ μ i 0 ↔ (M : ℚ) ≤ k := by
        rw [hk]
        constructor
        · intro h; nlinarith
        · intro h; by_contra hc; push Not at hc; nlinarith
      rw [h4, Nat.cast_le]
      omega
    have h5 := hz (M - 1) i hi
    by_cases h : 1 / 2 ≤ μ i 0
    · rw [if_pos h]
      have := (hlt (M - 1)).mpr (h3.mp h)
      omega
    · rw [if_neg h]
      have : ¬ z (M - 1) i ≤ 0 := fun h' => h (h3.mpr ((hlt (M - 1)).mp h'))
      omega
  have hsc : Spec.score n edges U P (fun i => argmaxN (μ i) 2) = marginalScore n 2 edges U P μ ν := by
    rw [← hall (M - 1) (mem_range.mpr (by omega))]
    unfold Spec.score
    simp only
    congr 1
    · exact sum_congr rfl fun i hi => by rw [hag i (mem_range.mp hi)]
    · refine sum_congr rfl fun e he => ?_
      have := hE _ (getD_mem (mem_range.mp he))
      rw [hag _ this.1, hag _ this.2]
  refine ⟨⟨fun i _ => argmaxN_lt _ (by decide), fun y hy => ?_⟩, hsc⟩
  rw [hsc]
  exact hopt y hy

/-- **C103c.** `inference_lp` with attractive potentials and a solver that finds an optimum: minus the reported energy is
the score of a best labelling. -/
theorem C103_lp_value (solver : Solver) (U : Mat) (pw : Pairwise) (edges : Edges)
    (P : ℕ → ℕ → ℕ → ℚ) (hP : Denotes U.cols edges.length pw P) (hn : 1 ≤ U.rows)
    (hS : 1 ≤ U.cols) (hE : EdgesIn U.rows edges) (hA : Attractive U.cols edges P)
    (hopt : SolvesExactly solver U edges P) (relaxed : Bool) :
    ∃ (y : YVal) (energy : ℚ), inferenceLP solver U pw edges relaxed = .ok (y, energy) ∧
      ∃ z, IsMAP U.rows U.cols edges U.get P z ∧ Spec.score U.rows edges U.get P z = - energy := by
  obtain ⟨x, energy, hpoly, hen, hb, h1, h2⟩ := inferenceLP_ok hP hn hS hE hopt
  obtain ⟨z, hz, hmax⟩ := C103_polytope_tight U.rows U.cols hS edges hE U.get P hA
  have hv : Spec.score U.rows edges U.get P z = - energy := by
    refine le_antisymm (hb z hz.1) ?_
    rw [hen, neg_neg]
    exact hmax _ _ hpoly
  cases relaxed
  · exact ⟨_, energy, h2, z, hz, hv⟩
  · exact ⟨_, energy, h1, z, hz, hv⟩

/-- **C103d.** `inference_lp` with two states and attractive potentials returns a best labelling and minus its score, on
every graph and also if there are several best labellings. -/
theorem C103_lp_binary (solver : Solver) (U : Mat) (pw : Pairwise) (edges : Edges)
    (P : ℕ → ℕ → ℕ → ℚ) (hP : Denotes U.cols edges.length pw P) (hn : 1 ≤ U.rows)
    (hS : U.cols = 2) (hE : EdgesIn U.rows edges) (hA : Attractive U.cols edges P)
    (hopt : SolvesExactly solver U edges P) :
    ∃ (y : Labels) (energy : ℚ), inferenceLP solver U pw edges false = .ok (.discrete y, energy) ∧
      y.size = U.rows ∧ IsMAP U.rows U.cols edges U.get P y.get ∧
      Spec.score U.rows edges U.get P y.get = - energy := by
  obtain ⟨x, energy, hpoly, hen, hb, -, h2⟩ := inferenceLP_ok hP hn (by omega) hE hopt
  refine ⟨_, energy, h2, rfl, ?_⟩
  rw [hen, neg_neg] at hb
  rw [hen, neg_neg]
  simp only [hS] at hpoly hb hA ⊢
  exact C103_rounding_exact U.rows edges hE U.get P hA _ _ hpoly hb

/-! ### through the dispatcher -/

/-- rounding of the result of AD3. -/
theorem ad3_rounds (P : Packages) {S : ℕ} (hS : 1 ≤ S) {solve solve'} (hP : P.ad3 = some (solve, solve'))
    (hex : Ad3Relaxes S solve) (n : ℕ) (edges : Edges) (hn : 1 ≤ n) (hE : EdgesIn n edges) (U Q : ℕ → ℕ → ℚ) :
    ∃ μ ν, LocalPolytope n S edges μ ν ∧ (∀ μ' ν', LocalPolytope n S edges μ' ν' →
        marginalScore n S edges U (fun _ => Q) μ' ν' ≤ marginalScore n S edges U (fun _ => Q) μ ν) ∧
      backend P (.name "ad3") false ⟨n, S, U⟩ (.mat ⟨S, S, Q⟩) edges = .ok (.discrete ⟨n, fun i => argmaxN (μ i) S⟩) := by
  obtain ⟨hr, hc, h⟩ := hex n edges hn hE U (fun _ => Q)
  have hinf : inferenceAd3 P ⟨n, S, U⟩ (.mat ⟨S, S, Q⟩) edges
      [("return_energy", .bool false), ("relaxed", .bool false)] =
      (let r := solve ⟨n, S, U⟩ edges ⟨edges.length, S, S, fun _ => Q⟩ false
      if r.unsolved && false then
        match r.unary.ravel.reshape2 n S with
        | .error err => .error err
        | .ok u => .ok (Res.mk false (.relaxed u.ravel r.pairwise.ravel) (-r.energy))
      else
        match decodeRows r.unary with
        | .error err => .error err
        | .ok y => .ok (Res.mk false y (-r.energy))) := by
    unfold inferenceAd3
    rw [hP]
    simp only
    have := validateParams_denotes (unary := ⟨n, S, U⟩) (denotes_mat S edges.length Q)
    rw [this]
    rfl
  generalize solve ⟨n, S, U⟩ edges ⟨edges.length, S, S, fun _ => Q⟩ false = r at hr hc h hinf
  have hback : backend P (.name "ad3") false ⟨n, S, U⟩ (.mat ⟨S, S, Q⟩) edges =
      .ok (.discrete ⟨n, fun i => argmaxN (r.unary.get i) S⟩) := by
    unfold backend
    rw [dispatch_ad3_relaxed, hinf]
    simp only [Bool.and_false, Bool.false_eq_true, if_false]
    unfold decodeRows
    rw [if_neg (by omega), hr, hc]
    rfl
  rcases h with ⟨hu, y, hyv, hone, hmax⟩ | ⟨hu, hp1, hp2, hpoly, hmax⟩
  · have e1 : ∀ i < n, ∀ s < S, nodeVars S (encode n S edges y) i s = r.unary.get i s := by
      intro i hi s hs
      rw [nodeVars_encode hi hs, hone i hi s hs]
    refine ⟨_, _, LP.polytope_congr hE e1 (fun e he s hs t ht => rfl) (encode_polytope hE hyv), fun μ' ν' h' => ?_, hback⟩
    refine (hmax μ' ν' h').trans (le_of_eq ?_)
    rw [← encode_score hE hyv]
    exact marginalScore_congr e1 (fun e he s hs t ht => rfl)
  · exact ⟨_, _, hpoly, hmax, hback⟩

/-- A method that solves relaxations, called without `relaxed`: it rounds an optimal point of the local polytope. -/
theorem relaxes_rounds {P : Packages} {S : ℕ} (hS : 1 ≤ S) {method : Method} (h : Relaxes S P method)
    (n : ℕ) (edges : Edges) (hn : 1 ≤ n) (hE : EdgesIn n edges) (U Q : ℕ → ℕ → ℚ) :
    ∃ μ ν, LocalPolytope n S edges μ ν ∧ (∀ μ' ν', LocalPolytope n S edges μ' ν' →
        marginalScore n S edges U (fun _ => Q) μ' ν' ≤ marginalScore n S edges U (fun _ => Q) μ ν) ∧
      backend P method false ⟨n, S, U⟩ (.mat ⟨S, S, Q⟩) edges = .ok (.discrete ⟨n, fun i => argmaxN (μ i) S⟩) := by
  rcases h with ⟨rfl, hex⟩ | ⟨rfl, solve, solve', h1, h2⟩
  · obtain ⟨x, energy, hpoly, hen, -, -, h2⟩ := inferenceLP_ok (U := ⟨n, S, U⟩) (denotes_mat S edges.length Q) hn hS hE
      (hex n edges hn hE U _)
    simp only at hpoly hen h2
    refine ⟨_, _, hpoly, fun μ' ν' h' => ?_, ?_⟩
    · have := inferenceLP_bound (U := ⟨n, S, U⟩) (denotes_mat S edges.length Q) hn hS hE (hex n edges hn hE U _) h2 h'
      rw [hen, neg_neg] at this
      exact this
    · unfold backend
      rw [dispatch_lp, h2]
      rfl
  · exact ad3_rounds P hS h1 h2 n edges hn hE U Q

/-- the score of a labelling is at most that of an optimal point of the local polytope. -/
theorem polytope_bounds {n S : ℕ} {edges : Edges} (hE : EdgesIn n edges) {U : ℕ → ℕ → ℚ} {P : ℕ → ℕ → ℕ → ℚ}
    {μ : ℕ → ℕ → ℚ} {ν : ℕ → ℕ → ℕ → ℚ}
    (hmax : ∀ μ' ν', LocalPolytope n S edges μ' ν' → marginalScore n S edges U P μ' ν' ≤ marginalScore n S edges U P μ ν)
    (y : ℕ → ℕ) (hy : Valid n S y) : Spec.score n edges U P y ≤ marginalScore n S edges U P μ ν := by
  have := hmax _ _ (encode_polytope hE hy)
  rwa [encode_score hE hy] at this

/-- The pairwise weights of a `GraphCRF` with two states reward agreement: `w_00 + w_11 ≥ w_01 + w_10`, where for undirected
models the weights stored are `w_00`, `w_01 = w_10` and `w_11`. -/
def AttractiveWeights (m : Model) (w : ℕ → ℚ) : Prop :=
  if m.directed then w (2 * m.nFeatures + 1) + w (2 * m.nFeatures + 2) ≤ w (2 * m.nFeatures) + w (2 * m.nFeatures + 3)
  else 2 * w (2 * m.nFeatures + 1) ≤ w (2 * m.nFeatures) + w (2 * m.nFeatures + 2)

theorem attractive_PW {m : Model} (hS : m.nStates = 2) {w : ℕ → ℚ} (h : AttractiveWeights m w) (edges : Edges) :
    Attractive 2 edges (fun _ => PW m w) := by
  intro e _ a b ha hb
  obtain rfl : a = 0 := by omega
  obtain rfl : b = 0 := by omega
  unfold AttractiveWeights at h
  unfold PW
  rw [hS]
  by_cases hd : m.directed
  · simp only [hd, if_true] at h ⊢
    simpa using h
  · simp only [hd] at h ⊢
    simp [Sym.symEntry, Sym.tri] at h ⊢
    linarith

/-- **C103e.** Inference of a `GraphCRF` with two states through the dispatcher, with `lp` or `ad3`, where the solver finds an
optimum of the relaxation only: if the pairwise weights reward agreement, the labelling returned has the largest product of
weights and joint features among all labellings, on every graph. -/
theorem C103_graphcrf (P : Packages) (method : Method) (hrel : Relaxes 2 P method) (m : Model) (hS : m.nStates = 2)
    (x : X) (hx : Fits m x) (w : ℕ → ℚ) (hw : AttractiveWeights m w) :
    ∃ y : Labels, inference (backend P method false) m x ⟨sizeJointFeature m, w⟩ = .ok (.discrete y) ∧
      IsLabelling x.features.rows 2 (.discrete y) ∧ ∀ y' : Labels, IsLabelling x.features.rows 2 (.discrete y') →
        ∑ k ∈ range (sizeJointFeature m), w k * graphFeature m x (.discrete y') k ≤
          ∑ k ∈ range (sizeJointFeature m), w k * graphFeature m x (.discrete y) k := by
  obtain ⟨hn, hF, hE⟩ := hx
  obtain ⟨μ, ν, hpoly, hmax, hback⟩ := relaxes_rounds (by decide : 1 ≤ 2) hrel x.features.rows x.edges hn hE
    (UN m x.features w) (PW m w)
  obtain ⟨hM, -⟩ := C103_rounding_exact x.features.rows x.edges hE (UN m x.features w) _ (attractive_PW hS hw x.edges) μ ν
    hpoly (polytope_bounds hE hmax)
  have hval : ∀ y : Labels, IsLabelling x.features.rows 2 (.discrete y) →
      ∑ k ∈ range (sizeJointFeature m), w k * graphFeature m x (.discrete y) k =
        Spec.score x.features.rows x.edges (UN m x.features w) (fun _ => PW m w) y.get := by
    intro y hy
    obtain ⟨y', h1, -, h2⟩ := id hy
    cases h1
    rw [← hS] at hy h2
    rw [← outputScore_labelling hE h2]
    exact value_output hF hE (by omega) (.inl hy) w
  have hy : IsLabelling x.features.rows 2 (.discrete ⟨x.features.rows, fun i => argmaxN (μ i) 2⟩) := ⟨_, rfl, rfl, hM.1⟩
  refine ⟨_, ?_, hy, fun y' hy' => ?_⟩
  · unfold inference
    rw [checkSizeW_ok (w := ⟨sizeJointFeature m, w⟩) rfl, unary_ok (w := ⟨sizeJointFeature m, w⟩) hF rfl,
        pairwise_ok (w := ⟨sizeJointFeature m, w⟩) hF rfl]
    simp only [bind, Except.bind]
    rw [hS]
    exact hback
  · rw [hval _ hy, hval y' hy']
    obtain ⟨y'', h1, -, h2⟩ := hy'
    cases h1
    exact hM.2 _ h2

/-! ### sharpness -/

/-- two vertices with three states: 4/10 of the labelling `(0, 0)`, 3/10 of `(1, 1)` and 3/10 of `(2, 1)`. -/
def threeStates : ℕ → ℚ := fun k =>
  if k = 0 then 4 / 10 else if k = 1 then 3 / 10 else if k = 2 then 3 / 10
  else if k = 3 then 4 / 10 else if k = 4 then 6 / 10 else if k = 5 then 0
  else if k = 6 then 4 / 10 else if k = 10 then 3 / 10 else if k = 13 then 3 / 10 else 0

/-- unary potentials: state 2 is rewarded at vertex 0 and punished at vertex 1. -/
def threeUnary : Mat := ⟨2, 3, fun i s => if s = 2 then (if i = 0 then 1 else -1) else 0⟩

/-- minus the distance of the states. -/
def distancePW : Ten := ⟨1, 3, 3, fun _ a b => if a ≤ b then -((b - a : ℕ) : ℚ) else -((a - b : ℕ) : ℚ)⟩

/-- **Two states are needed.** With three states and attractive potentials, rounding an optimal solution can give a
labelling that is not a best one. -/
theorem C103_violated_three_states :
    ∃ (solver : Solver) (U : Mat) (t : Ten) (y : Labels) (en : ℚ), Attractive U.cols [(0, 1)] t.get ∧
      SolvesExactly solver U [(0, 1)] t.get ∧
      inferenceLP solver U (.ten t) [(0, 1)] false = .ok (.discrete y, en) ∧
      ¬ IsMAP U.rows U.cols [(0, 1)] U.get t.get y.get := by
  have hE : EdgesIn 2 [(0, 1)] := by intro e he; simp at he; subst he; exact ⟨by norm_num, by norm_num⟩
  have hA : Attractive 3 [(0, 1)] distancePW.get := by
    intro e _ a b ha hb
    have h1 : a = 0 ∨ a = 1 := by omega
    have h2 : b = 0 ∨ b = 1 := by omega
    rcases h1 with rfl | rfl <;> rcases h2 with rfl | rfl <;> (simp only [distancePW]; norm_num)
  have hsol : SolvesExactly (fun _ => threeStates) threeUnary [(0, 1)] distancePW.get := by
    apply solvesExactly_of_polytope _ _ _ (by decide) (by decide) hE threeStates (fun _ => rfl)
    · refine ⟨?_, ?_, ?_, ?_, ?_⟩ <;> decide +kernel
    · intro μ ν hμ
      obtain ⟨y, hy, hmax⟩ := C103_polytope_tight 2 3 (by decide) [(0, 1)] hE threeUnary.get distancePW.get hA
      refine (hmax μ ν hμ).trans ?_
      have h1 : marginalScore 2 3 [(0, 1)] threeUnary.get distancePW.get
          (nodeVars 3 threeStates) (edgeVars 2 3 threeStates) = 0 := by decide +kernel
      refine le_trans ?_ (le_of_eq h1.symm)
      have h2 := hy.1 0 (by decide)
      have h3 := hy.1 1 (by decide)
      have key : ∀ a < 3, ∀ b < 3, threeUnary.get 0 a + threeUnary.get 1 b + distancePW.get 0 a b ≤ 0 := by decide +kernel
      have := key _ h2 _ h3
      unfold Spec.score
      simpa [sum_range_succ] using this
  obtain ⟨y, _, _, en, _, h2, _⟩ := C08_integral_is_MAP (fun _ => threeStates) threeUnary (.ten distancePW) [(0, 1)]
    distancePW.get ⟨rfl, rfl, rfl, fun _ _ _ => rfl⟩ (by decide) (by decide) hE hsol
  refine ⟨fun _ => threeStates, threeUnary, distancePW, y, en, hA, hsol, h2, ?_⟩
  have hk : (inferenceLP (fun _ => threeStates) threeUnary (.ten distancePW) [(0, 1)] false).map (fun r => match r with
        | (.discrete y, _) => (y.get 0, y.get 1)
        | _ => (5, 5)) = .ok (0, 1) := by decide +kernel
  rw [h2] at hk
  simp only [Except.map, Except.ok.injEq, Prod.mk.injEq] at hk
  rintro ⟨_, h⟩
  have := h (fun _ => 0) (by intro i hi; exact (by decide : 0 < 3))
  unfold Spec.score at this
  simp only [show threeUnary.rows = 2 from rfl, List.length_cons, List.length_nil, sum_range_succ, range_zero, sum_empty,
    List.getD_cons_zero, hk.1, hk.2] at this
  revert this
  decide +kernel

/-- The hypotheses of C103d and C103e are met: a triangle, weights that reward agreement, ideal solver. -/
example : Relaxes 2 idealPackages (.name "lp") ∧ Fits triangleModel triangleX ∧
    AttractiveWeights triangleModel (fun k => if k = 2 ∨ k = 4 then 1 else 0) ∧
    ∃ U : Mat, U.cols = 2 ∧ EdgesIn U.rows triangleX.edges ∧ Attractive 2 triangleX.edges (fun _ a b => if a = b then 1 else 0) ∧
      SolvesExactly LP.ideal U triangleX.edges (fun _ a b => if a = b then 1 else 0) := by
  have hfit : Fits triangleModel triangleX := (triangle_data _ (List.mem_singleton_self _)).1
  refine ⟨idealPackages_relaxes 2 (by decide), hfit, ?_, ⟨3, 2, fun i s => i * s⟩, rfl, hfit.2.2, ?_,
    LP.ideal_solves _ _ _ (by decide) (by decide) hfit.2.2⟩
  · unfold AttractiveWeights triangleModel
    decide +kernel
  · intro e _ a b ha hb
    obtain rfl : a = 0 := by omega
    obtain rfl : b = 0 := by omega
    norm_num

/-! ### C104: persistency -/

/-- `y` with the states of all integral vertices replaced by those of the marginals. -/
def override (S : ℕ) (μ : ℕ → ℕ → ℚ) (y : ℕ → ℕ) (i : ℕ) : ℕ :=
  if μ i (argmaxN (μ i) S) = 1 then argmaxN (μ i) S else y i

/-- indicator sums over pairs. -/
theorem sum_pair_diff {S : ℕ} {a b : ℕ} (ha : a < S) (hb : b < S) (f : ℕ → ℕ → ℚ) :
    ∑ s ∈ range S, ∑ t ∈ range S, f s t * (if s = a ∧ t = b then 1 else 0) = f a b := by
  rw [sum_eq_single_of_mem a (mem_range.mpr ha), sum_eq_single_of_mem b (mem_range.mpr hb)]
  · simp
  · intro t _ ht; simp [ht]
  · intro s _ hs; exact sum_eq_zero fun t _ => by simp [hs]

/-- **C104a.** Take an optimal point of the local polytope and any labelling whose states have positive probability at all
vertices where the point is not integral. Giving the integral vertices their state does not lower the score. -/
theorem C104_autarky (n S : ℕ) (edges : Edges) (hE : EdgesIn n edges) (U : ℕ → ℕ → ℚ)
    (P : ℕ → ℕ → ℕ → ℚ) (μ : ℕ → ℕ → ℚ) (ν : ℕ → ℕ → ℕ → ℚ) (hμ : LocalPolytope n S edges μ ν)
    (hmax : ∀ μ' ν', LocalPolytope n S edges μ' ν' → marginalScore n S edges U P μ' ν' ≤ marginalScore n S edges U P μ ν)
    (y : ℕ → ℕ) (hy : Valid n S y) (hsupp : ∀ i < n, μ i (argmaxN (μ i) S) = 1 ∨ 0 < μ i (y i)) :
    Spec.score n edges U P y ≤ Spec.score n edges U P (override S μ y) := by
  set z := override S μ y with hz
  have hzv : Valid n S z := by
    intro i hi
    rw [hz]
    unfold override
    split_ifs
    · exact argmaxN_lt _ (Nat.lt_of_le_of_lt (Nat.zero_le _) (hy i hi))
    · exact hy i hi
  have hzpos : ∀ i < n, 0 < μ i (z i) := by
    intro i hi
    rw [hz]
    unfold override
    split_ifs with h
    · rw [h]; norm_num
    · exact (hsupp i hi).resolve_left h
  obtain ⟨ε, hε, hle⟩ : ∃ ε : ℚ, 0 < ε ∧ ∀ i < n, ε ≤ μ i (z i) := by
    clear_value z
    clear hz hzv hsupp hy hmax hμ hE
    induction n with
    | zero => exact ⟨1, one_pos, fun i hi => absurd hi (Nat.not_lt_zero i)⟩
    | succ n ih =>
      obtain ⟨ε, h1, h2⟩ := ih fun i hi => hzpos i (by omega)
      refine ⟨min ε (μ n (z n)), lt_min h1 (hzpos n (by omega)), fun i hi => ?_⟩
      rcases Nat.lt_succ_iff_lt_or_eq.mp hi with h | rfl
      · exact (min_le_left _ _).trans (h2 i h)
      · exact min_le_right _ _
  -- at an integral vertex the other states have no mass
  have hzero : ∀ i < n, z i ≠ y i → μ i (z i) = 1 ∧ ∀ s < S, s ≠ z i → μ i s = 0 := by
    intro i hi hne
    have h1 : μ i (z i) = 1 := by
      rw [hz] at hne ⊢
      unfold override at hne ⊢
      split_ifs at hne ⊢ with h
      · exact h
      · exact absurd rfl hne
    refine ⟨h1, fun s hs hsz => ?_⟩
    have h2 := hμ.normalised i hi
    rw [← add_sum_erase _ _ (mem_range.mpr (hzv i hi)), h1] at h2
    have h3 : ∑ s ∈ (range S).erase (z i), μ i s = 0 := by linarith
    exact (sum_eq_zero_iff_of_nonneg fun s hs => hμ.nonneg i hi s (mem_range.mp (mem_of_mem_erase hs))).mp h3 s
      (mem_erase.mpr ⟨hsz, mem_range.mpr hs⟩)
  have hedge : ∀ e < edges.length, (z (edges.getD e (0, 0)).1 ≠ y (edges.getD e (0, 0)).1 ∨
      z (edges.getD e (0, 0)).2 ≠ y (edges.getD e (0, 0)).2) →
      ε ≤ ν e (z (edges.getD e (0, 0)).1) (z (edges.getD e (0, 0)).2) := by
    intro e he hne
    obtain ⟨a1, a2⟩ := hE _ (getD_mem he)
    rcases hne with hne | hne
    · obtain ⟨-, h0⟩ := hzero _ a1 hne
      have h1 : ∀ s < S, s ≠ z (edges.getD e (0, 0)).1 → ν e s (z (edges.getD e (0, 0)).2) = 0 := by
        intro s hs hsz
        have h2 := hμ.first e he s hs
        rw [h0 s hs hsz] at h2
        exact (sum_eq_zero_iff_of_nonneg fun t ht => hμ.nonneg_edge e he s hs t (mem_range.mp ht)).mp h2 _
          (mem_range.mpr (hzv _ a2))
      have h2 := hμ.second e he _ (hzv _ a2)
      rw [sum_eq_single_of_mem _ (mem_range.mpr (hzv _ a1)) fun s hs hsz => h1 s (mem_range.mp hs) hsz] at h2
      rw [h2]
      exact hle _ a2
    · obtain ⟨-, h0⟩ := hzero _ a2 hne
      have h1 : ∀ t < S, t ≠ z (edges.getD e (0, 0)).2 → ν e (z (edges.getD e (0, 0)).1) t = 0 := by
        intro t ht htz
        have h2 := hμ.second e he t ht
        rw [h0 t ht htz] at h2
        exact (sum_eq_zero_iff_of_nonneg fun s hs => hμ.nonneg_edge e he s (mem_range.mp hs) t ht).mp h2 _
          (mem_range.mpr (hzv _ a1))
      have h2 := hμ.first e he _ (hzv _ a1)
      rw [sum_eq_single_of_mem _ (mem_range.mpr (hzv _ a2)) fun s hs hsz => h1 s (mem_range.mp hs) hsz] at h2
      rw [h2]
      exact hle _ a1
  -- move a little mass from the new labelling to the old one
  set μ' : ℕ → ℕ → ℚ := fun i s => μ i s + ε * ((if s = y i then 1 else 0) - if s = z i then 1 else 0) with hμ'
  set ν' : ℕ → ℕ → ℕ → ℚ := fun e s t => ν e s t +
    ε * ((if s = y (edges.getD e (0, 0)).1 ∧ t = y (edges.getD e (0, 0)).2 then 1 else 0) -
      if s = z (edges.getD e (0, 0)).1 ∧ t = z (edges.getD e (0, 0)).2 then 1 else 0) with hν'
  have hone : ∀ {a : ℕ}, a < S → ∑ s ∈ range S, (if s = a then (1 : ℚ) else 0) = 1 := by
    intro a ha
    rw [sum_ite_eq', if_pos (mem_range.mpr ha)]
  have hpoly : LocalPolytope n S edges μ' ν' := by
    refine ⟨?_, ?_, ?_, ?_, ?_⟩
    · intro i hi s hs
      simp only [hμ']
      have h1 := hμ.nonneg i hi s hs
      by_cases h : s = z i
      · subst h
        have := hle i hi
        rw [if_pos rfl]
        split_ifs <;> linarith
      · rw [if_neg h]
        split_ifs <;> linarith
    · intro e he s hs t ht
      simp only [hν']
      have h1 := hμ.nonneg_edge e he s hs t ht
      by_cases h : s = z (edges.getD e (0, 0)).1 ∧ t = z (edges.getD e (0, 0)).2
      · rw [if_pos h]
        by_cases h' : s = y (edges.getD e (0, 0)).1 ∧ t = y (edges.getD e (0, 0)).2
        · rw [if_pos h']; linarith
        · rw [if_neg h']
          have := hedge e he (by
            by_contra hc
            push Not at hc
            exact h' ⟨h.1.trans hc.1, h.2.trans hc.2⟩)
          rw [← h.1, ← h.2] at this
          linarith
      · rw [if_neg h]
        split_ifs <;> linarith
    · intro i hi
      simp only [hμ']
      rw [sum_add_distrib, ← mul_sum, sum_sub_distrib, hone (hy i hi), hone (hzv i hi), hμ.normalised i hi]
      ring
    · intro e he s hs
      obtain ⟨a1, a2⟩ := hE _ (getD_mem he)
      simp only [hμ', hν']
      rw [sum_add_distrib, ← mul_sum, sum_sub_distrib, hμ.first e he s hs]
      congr 2
      congr 1
      · by_cases h : s = y (edges.getD e (0, 0)).1
        · simp only [h, true_and, if_true]; exact hone (hy _ a2)
        · simp only [h, false_and, if_false, sum_const_zero]
      · by_cases h : s = z (edges.getD e (0, 0)).1
        · simp only [h, true_and, if_true]; exact hone (hzv _ a2)
        · simp only [h, false_and, if_false, sum_const_zero]
    · intro e he t ht
      obtain ⟨a1, a2⟩ := hE _ (getD_mem he)
      simp only [hμ', hν']
      rw [sum_add_distrib, ← mul_sum, sum_sub_distrib, hμ.second e he t ht]
      congr 2
      congr 1
      · by_cases h : t = y (edges.getD e (0, 0)).2
        · simp only [h, and_true, if_true]; exact hone (hy _ a1)
        · simp only [h, and_false, if_false, sum_const_zero]
      · by_cases h : t = z (edges.getD e (0, 0)).2
        · simp only [h, and_true, if_true]; exact hone (hzv _ a1)
        · simp only [h, and_false, if_false, sum_const_zero]
  have hval : marginalScore n S edges U P μ' ν' = marginalScore n S edges U P μ ν +
      ε * (Spec.score n edges U P y - Spec.score n edges U P z) := by
    have hsum1 : ∀ (v : ℕ → ℕ), Valid n S v → ∀ i ∈ range n,
        ∑ s ∈ range S, U i s * (if s = v i then 1 else 0) = U i (v i) := by
      intro v hv i hi
      rw [sum_eq_single_of_mem _ (mem_range.mpr (hv i (mem_range.mp hi)))]
      · simp
      · intro s _ hs; simp [hs]
    have hsum2 : ∀ (v : ℕ → ℕ), Valid n S v → ∀ e ∈ range edges.length,
        ∑ s ∈ range S, ∑ t ∈ range S, P e s t *
          (if s = v (edges.getD e (0, 0)).1 ∧ t = v (edges.getD e (0, 0)).2 then 1 else 0) =
          P e (v (edges.getD e (0, 0)).1) (v (edges.getD e (0, 0)).2) := by
      intro v hv e he
      obtain ⟨a1, a2⟩ := hE _ (getD_mem (mem_range.mp he))
      exact sum_pair_diff (hv _ a1) (hv _ a2) _
    unfold marginalScore Spec.score
    rw [← sum_congr rfl (hsum1 y hy), ← sum_congr rfl (hsum1 z hzv), ← sum_congr rfl (hsum2 y hy),
      ← sum_congr rfl (hsum2 z hzv)]
    have e1 : ∑ i ∈ range n, ∑ s ∈ range S, U i s * μ' i s = ∑ i ∈ range n, ∑ s ∈ range S, U i s * μ i s +
        ε * (∑ i ∈ range n, ∑ s ∈ range S, U i s * (if s = y i then 1 else 0) -
          ∑ i ∈ range n, ∑ s ∈ range S, U i s * (if s = z i then 1 else 0)) := by
      rw [← sum_sub_distrib, mul_sum, ← sum_add_distrib]
      refine sum_congr rfl fun i _ => ?_
      rw [← sum_sub_distrib, mul_sum, ← sum_add_distrib]
      exact sum_congr rfl fun s _ => by simp only [hμ']; ring
    have e2 : ∑ e ∈ range edges.length, ∑ s ∈ range S, ∑ t ∈ range S, P e s t * ν' e s t =
        ∑ e ∈ range edges.length, ∑ s ∈ range S, ∑ t ∈ range S, P e s t * ν e s t +
        ε * (∑ e ∈ range edges.length, ∑ s ∈ range S, ∑ t ∈ range S, P e s t *
            (if s = y (edges.getD e (0, 0)).1 ∧ t = y (edges.getD e (0, 0)).2 then 1 else 0) -
          ∑ e ∈ range edges.length, ∑ s ∈ range S, ∑ t ∈ range S, P e s t *
            (if s = z (edges.getD e (0, 0)).1 ∧ t = z (edges.getD e (0, 0)).2 then 1 else 0)) := by
      rw [← sum_sub_distrib, mul_sum, ← sum_add_distrib]
      refine sum_congr rfl fun e _ => ?_
      rw [← sum_sub_distrib, mul_sum, ← sum_add_distrib]
      refine sum_congr rfl fun s _ => ?_
      rw [← sum_sub_distrib, mul_sum, ← sum_add_distrib]
      exact sum_congr rfl fun t _ => by simp only [hν']; ring
    rw [e1, e2]
    ring
  have := hmax _ _ hpoly
  rw [hval] at this
  by_contra hc
  push Not at hc
  have := mul_pos hε (sub_pos.mpr hc)
  linarith

/-- **C104b.** Two states: some best labelling agrees with an optimal point of the local polytope at all integral
vertices. -/
theorem C104_persistency (n : ℕ) (edges : Edges) (hE : EdgesIn n edges) (U : ℕ → ℕ → ℚ)
    (P : ℕ → ℕ → ℕ → ℚ) (μ : ℕ → ℕ → ℚ) (ν : ℕ → ℕ → ℕ → ℚ) (hμ : LocalPolytope n 2 edges μ ν)
    (hmax : ∀ μ' ν', LocalPolytope n 2 edges μ' ν' → marginalScore n 2 edges U P μ' ν' ≤ marginalScore n 2 edges U P μ ν) :
    ∃ z, IsMAP n 2 edges U P z ∧ ∀ i < n, ∀ s < 2, μ i s = 1 → z i = s := by
  obtain ⟨y, hy⟩ := isMAP_exists n 2 (by decide) edges hE U P
  have htwo : ∀ i < n, μ i 0 + μ i 1 = 1 := by
    intro i hi
    have := hμ.normalised i hi
    rwa [sum_range_succ, sum_range_succ, range_zero, sum_empty, zero_add] at this
  have hstate : ∀ i < n, ∀ s < 2, μ i s = 1 → argmaxN (μ i) 2 = s := by
    intro i hi s hs h
    have h1 := htwo i hi
    rw [argmax_half h1]
    have : s = 0 ∨ s = 1 := by omega
    rcases this with rfl | rfl
    · rw [if_pos (by rw [h]; norm_num)]
    · rw [if_neg (by rw [h] at h1; intro hc; linarith)]
  have hsc := C104_autarky n 2 edges hE U P μ ν hμ hmax y hy.1 (by
    intro i hi
    by_contra hc
    push Not at hc
    have h1 := htwo i hi
    have h2 := hy.1 i hi
    have h3 := hμ.nonneg i hi
    have : y i = 0 ∨ y i = 1 := by omega
    rcases this with h | h
    · rw [h] at hc
      have h4 : μ i 1 = 1 := by have := h3 0 (by decide); linarith [hc.2]
      exact hc.1 (by rw [hstate i hi 1 (by decide) h4]; exact h4)
    · rw [h] at hc
      have h4 : μ i 0 = 1 := by have := h3 1 (by decide); linarith [hc.2]
      exact hc.1 (by rw [hstate i hi 0 (by decide) h4]; exact h4))
  refine ⟨override 2 μ y, ⟨?_, fun y' hy' => (hy.2 y' hy').trans hsc⟩, ?_⟩
  · intro i hi
    unfold override
    split_ifs
    · exact argmaxN_lt _ (by decide)
    · exact hy.1 i hi
  · intro i hi s hs h
    unfold override
    rw [hstate i hi s hs h, if_pos h]

/-- **C104c.** `inference_lp` with two states, `relaxed=True` and a solver that finds an optimum, for arbitrary potentials
and graphs: some best labelling has, at every vertex whose returned marginals are integral, the state with marginal 1. -/
theorem C104_lp (solver : Solver) (U : Mat) (pw : Pairwise) (edges : Edges)
    (P : ℕ → ℕ → ℕ → ℚ) (hP : Denotes U.cols edges.length pw P) (hn : 1 ≤ U.rows)
    (hS : U.cols = 2) (hE : EdgesIn U.rows edges) (hopt : SolvesExactly solver U edges P) :
    ∃ (u q : Vec) (energy : ℚ), inferenceLP solver U pw edges true = .ok (.relaxed u q, energy) ∧
      u.size = U.rows * 2 ∧
      ∃ z, IsMAP U.rows U.cols edges U.get P z ∧ ∀ i < U.rows, ∀ s < 2, u.get (i * 2 + s) = 1 → z i = s := by
  obtain ⟨x, energy, hpoly, hen, -, h1, -⟩ := inferenceLP_ok hP hn (by omega) hE hopt
  have hb := fun μ ν hμ => inferenceLP_bound (μ := μ) (ν := ν) hP hn (by omega) hE hopt h1 hμ
  rw [hen] at hb
  simp only [neg_neg] at hb
  refine ⟨_, _, energy, h1, by rw [hS], ?_⟩
  simp only [hS] at hpoly hb ⊢
  obtain ⟨z, hz, hag⟩ := C104_persistency U.rows edges hE U.get P _ _ hpoly hb
  refine ⟨z, hz, fun i hi s hs h => hag i hi s hs ?_⟩
  rwa [flat_div hs, flat_mod hs] at h

/-- marginals as an output. -/
theorem output_of_marginals {n S : ℕ} {edges : Edges} (hE : EdgesIn n edges) {μ : ℕ → ℕ → ℚ} {ν : ℕ → ℕ → ℕ → ℚ}
    (hμ : LocalPolytope n S edges μ ν) (U Q : ℕ → ℕ → ℚ) :
    ∃ v ∈ relaxedOutputs S n edges, outputScore n S edges U Q v = marginalScore n S edges U (fun _ => Q) μ ν := by
  set v : YVal := .relaxed ⟨n * S, fun k => μ (k / S) (k % S)⟩
    ⟨edges.length * S ^ 2, fun k => ν (k / S ^ 2) (k % S ^ 2 / S) (k % S ^ 2 % S)⟩ with hv
  have e1 : ∀ i < n, ∀ s < S, μ i s = nodeMarg S v i s := by
    intro i hi s hs
    rw [hv]
    unfold nodeMarg
    simp only
    rw [flat_div hs, flat_mod hs]
  have e2 : ∀ e < edges.length, ∀ s < S, ∀ t < S, ν e s t = edgeMarg S edges v e s t := by
    intro e he s hs t ht
    have h3 : s * S + t < S ^ 2 := by rw [pow_two]; exact flat_lt hs ht
    rw [hv]
    unfold edgeMarg
    simp only
    rw [show (e * S + s) * S + t = e * S ^ 2 + (s * S + t) by ring, flat_div h3, flat_mod h3, flat_div ht, flat_mod ht]
  exact ⟨v, .inr ⟨_, _, rfl, rfl, rfl, LP.polytope_congr hE e1 e2 hμ⟩, (marginalScore_congr e1 e2).symm⟩

/-- **C104d.** Relaxed inference of a `GraphCRF` with two states through the dispatcher, with `lp` or `ad3`, for arbitrary
weights: some labelling with the largest product of weights and joint features has, at every vertex with integral
marginals, the state with marginal 1. -/
theorem C104_graphcrf (P : Packages) (method : Method) (hrel : Relaxes 2 P method) (m : Model) (hS : m.nStates = 2)
    (x : X) (hx : Fits m x) (w : ℕ → ℚ) :
    ∃ v, inference (backend P method true) m x ⟨sizeJointFeature m, w⟩ = .ok v ∧ IsRelaxed x.features.rows 2 x.edges v ∧
      ∃ y : Labels, IsLabelling x.features.rows 2 (.discrete y) ∧
        (∀ y' : Labels, IsLabelling x.features.rows 2 (.discrete y') →
          ∑ k ∈ range (sizeJointFeature m), w k * graphFeature m x (.discrete y') k ≤
            ∑ k ∈ range (sizeJointFeature m), w k * graphFeature m x (.discrete y) k) ∧
        ∀ i < x.features.rows, ∀ s < 2, nodeMarg 2 v i s = 1 → y.get i = s := by
  obtain ⟨hn, hF, hE⟩ := hx
  obtain ⟨v, hv, hback, hmax⟩ := relaxes_solves (by decide : 1 ≤ 2) hrel x.features.rows x.edges hn hE
    ⟨.discrete ⟨x.features.rows, fun _ => 0⟩, .inl ⟨_, rfl, rfl, fun _ _ => (by decide : 0 < 2)⟩⟩
    (UN m x.features w) (PW m w)
  obtain ⟨z, hz, hag⟩ := C104_persistency x.features.rows x.edges hE (UN m x.features w) (fun _ => PW m w) _ _
    (isRelaxed_polytope hE hv) (by
      intro μ' ν' h'
      obtain ⟨v', hv', he⟩ := output_of_marginals hE h' (UN m x.features w) (PW m w)
      rw [← he]
      exact hmax v' hv')
  have hval : ∀ y : Labels, IsLabelling x.features.rows 2 (.discrete y) →
      ∑ k ∈ range (sizeJointFeature m), w k * graphFeature m x (.discrete y) k =
        Spec.score x.features.rows x.edges (UN m x.features w) (fun _ => PW m w) y.get := by
    intro y hy
    obtain ⟨y', h1, -, h2⟩ := id hy
    cases h1
    rw [← hS] at hy h2
    rw [← outputScore_labelling hE h2]
    exact value_output hF hE (by omega) (.inl hy) w
  have hy : IsLabelling x.features.rows 2 (.discrete ⟨x.features.rows, z⟩) := ⟨_, rfl, rfl, hz.1⟩
  refine ⟨v, ?_, hv, ⟨x.features.rows, z⟩, hy, fun y' hy' => ?_, hag⟩
  · unfold inference
    rw [checkSizeW_ok (w := ⟨sizeJointFeature m, w⟩) rfl, unary_ok (w := ⟨sizeJointFeature m, w⟩) hF rfl,
        pairwise_ok (w := ⟨sizeJointFeature m, w⟩) hF rfl]
    simp only [bind, Except.bind]
    rw [hS]
    exact hback
  · rw [hval _ hy, hval y' hy']
    obtain ⟨y'', h1, -, h2⟩ := hy'
    cases h1
    exact hz.2 _ h2

/-- Persistency says something: a frustrated triangle with a fourth, attached vertex that prefers state 1. The optimal
solution leaves the triangle undecided and decides the fourth vertex. -/
def frustratedFour : ℕ → ℚ := fun k =>
  if k < 6 then 1 / 2 else if k = 6 then 0 else if k = 7 then 1
  else if k < 20 then (if k % 4 = 1 ∨ k % 4 = 2 then 1 / 2 else 0) else if k % 2 = 1 then 1 / 2 else 0

/-- The hypotheses of C104b hold for it. -/
example : LocalPolytope 4 2 [(0, 1), (1, 2), (2, 0), (0, 3)] (nodeVars 2 frustratedFour) (edgeVars 4 2 frustratedFour) ∧
    (∀ μ ν, LocalPolytope 4 2 [(0, 1), (1, 2), (2, 0), (0, 3)] μ ν →
      marginalScore 4 2 [(0, 1), (1, 2), (2, 0), (0, 3)] (fun i s => if i = 3 ∧ s = 1 then 5 else 0)
          (fun e a b => if a = b ∨ e = 3 then 0 else 1) μ ν ≤
        marginalScore 4 2 [(0, 1), (1, 2), (2, 0), (0, 3)] (fun i s => if i = 3 ∧ s = 1 then 5 else 0)
          (fun e a b => if a = b ∨ e = 3 then 0 else 1) (nodeVars 2 frustratedFour) (edgeVars 4 2 frustratedFour)) ∧
    nodeVars 2 frustratedFour 3 1 = 1 ∧ nodeVars 2 frustratedFour 0 1 = 1 / 2 := by
  have hE : EdgesIn 4 [(0, 1), (1, 2), (2, 0), (0, 3)] := by
    intro e he; simp at he; rcases he with rfl | rfl | rfl | rfl <;> exact ⟨by norm_num, by norm_num⟩
  refine ⟨⟨?_, ?_, ?_, ?_, ?_⟩, ?_, by decide +kernel, by decide +kernel⟩
  · decide +kernel
  · decide +kernel
  · decide +kernel
  · decide +kernel
  · decide +kernel
  · intro μ ν hμ
    have h1 : marginalScore 4 2 [(0, 1), (1, 2), (2, 0), (0, 3)] (fun i s => if i = 3 ∧ s = 1 then 5 else 0)
          (fun e a b => if a = b ∨ e = 3 then 0 else 1) (nodeVars 2 frustratedFour) (edgeVars 4 2 frustratedFour) = 8 := by
      decide +kernel
    refine le_trans ?_ (le_of_eq h1.symm)
    have hone : ∀ e < 4, ν e 0 1 + ν e 1 0 ≤ 1 := by
      intro e he
      have ha := hμ.first e he 0 (by decide)
      have hb := hμ.first e he 1 (by decide)
      have hr := hE _ (getD_mem (edges := [(0, 1), (1, 2), (2, 0), (0, 3)]) he)
      have hs := hμ.normalised _ hr.1
      have p0 := hμ.nonneg_edge e he 0 (by decide) 0 (by decide)
      have p1 := hμ.nonneg_edge e he 1 (by decide) 1 (by decide)
      simp only [sum_range_succ, range_zero, sum_empty, zero_add] at ha hb hs
      linarith
    have e0 := hone 0 (by decide)
    have e1 := hone 1 (by decide)
    have e2 := hone 2 (by decide)
    have hs := hμ.normalised 3 (by decide)
    have hp := hμ.nonneg 3 (by decide) 0 (by decide)
    simp only [sum_range_succ, range_zero, sum_empty, zero_add] at hs
    unfold marginalScore
    simp [sum_range_succ]
    linarith

end Verif.Props
