import Verif.Lemmas.GraphTraining
import Verif.Lemmas.LPExists
import Verif.Props.C60CRF

/-!
# C91: training a GraphCRF on arbitrary graphs
-/

namespace Verif.Props

open Finset Verif.Common Verif.GraphCRF Verif.Spec Verif.Learner Verif.Dispatch

/-! ### relaxed inference -/

/-- The LP solver finds optimal solutions of all programs that inference with `S` states poses. -/
def LPExact (S : ℕ) (solver : LP.Solver) : Prop :=
  ∀ n edges, 1 ≤ n → EdgesIn n edges → ∀ (U : ℕ → ℕ → ℚ) (P : ℕ → ℕ → ℕ → ℚ), SolvesExactly solver ⟨n, S, U⟩ edges P

/-- AD3 solves the relaxation of all problems with `S` states: the result is marked as solved and consists of the
indicators of a labelling whose score no point of the local polytope exceeds; or it is marked as fractional and
consists of the marginals of an optimal point of the local polytope. -/
def Ad3Relaxes (S : ℕ) (solve : Mat → Edges → Ten → Bool → AD3Result) : Prop :=
  ∀ n edges, 1 ≤ n → EdgesIn n edges → ∀ (U : ℕ → ℕ → ℚ) (P : ℕ → ℕ → ℕ → ℚ),
    let r := solve ⟨n, S, U⟩ edges ⟨edges.length, S, S, P⟩ false
    r.unary.rows = n ∧ r.unary.cols = S ∧
    (r.unsolved = false ∧ (∃ y, Valid n S y ∧ (∀ i < n, ∀ s < S, r.unary.get i s = if s = y i then 1 else 0) ∧
        ∀ μ ν, LocalPolytope n S edges μ ν → marginalScore n S edges U P μ ν ≤ Spec.score n edges U P y) ∨
      r.unsolved = true ∧ r.pairwise.rows = edges.length ∧ r.pairwise.cols = S ^ 2 ∧
        LocalPolytope n S edges r.unary.get (fun e a b => r.pairwise.get e (a * S + b)) ∧
        ∀ μ ν, LocalPolytope n S edges μ ν → marginalScore n S edges U P μ ν ≤
          marginalScore n S edges U P r.unary.get (fun e a b => r.pairwise.get e (a * S + b)))

/-- The method solves relaxations exactly: `lp` with an exact LP solver, or `ad3`. -/
def Relaxes (S : ℕ) (P : Packages) (method : Method) : Prop :=
  method = .name "lp" ∧ LPExact S P.lp ∨
    method = .name "ad3" ∧ ∃ solve solve', P.ad3 = some (solve, solve') ∧ Ad3Relaxes S solve

theorem marginalScore_congr {n S : ℕ} {edges : Edges} {U : ℕ → ℕ → ℚ} {P : ℕ → ℕ → ℕ → ℚ} {μ μ' : ℕ → ℕ → ℚ}
    {ν ν' : ℕ → ℕ → ℕ → ℚ} (h1 : ∀ i < n, ∀ s < S, μ i s = μ' i s)
    (h2 : ∀ e < edges.length, ∀ s < S, ∀ t < S, ν e s t = ν' e s t) :
    marginalScore n S edges U P μ ν = marginalScore n S edges U P μ' ν' := by
  unfold marginalScore
  congr 1
  · refine sum_congr rfl fun i hi => sum_congr rfl fun s hs => ?_
    rw [h1 i (mem_range.mp hi) s (mem_range.mp hs)]
  · refine sum_congr rfl fun e he => sum_congr rfl fun s hs => sum_congr rfl fun t ht => ?_
    rw [h2 e (mem_range.mp he) s (mem_range.mp hs) t (mem_range.mp ht)]

/-- LP variables for given marginals. -/
def packVars (n S : ℕ) (μ : ℕ → ℕ → ℚ) (ν : ℕ → ℕ → ℕ → ℚ) (k : ℕ) : ℚ :=
  if k < n * S then μ (k / S) (k % S)
  else ν ((k - n * S) / S ^ 2) ((k - n * S) % S ^ 2 / S) ((k - n * S) % S ^ 2 % S)

theorem nodeVars_pack {n S : ℕ} (μ : ℕ → ℕ → ℚ) (ν : ℕ → ℕ → ℕ → ℚ) {i s : ℕ} (hi : i < n) (hs : s < S) :
    nodeVars S (packVars n S μ ν) i s = μ i s := by
  unfold nodeVars packVars
  rw [if_pos (flat_lt hi hs), flat_div hs, flat_mod hs]

theorem edgeVars_pack {n S : ℕ} (μ : ℕ → ℕ → ℚ) (ν : ℕ → ℕ → ℕ → ℚ) {e s t : ℕ} (hs : s < S) (ht : t < S) :
    edgeVars n S (packVars n S μ ν) e s t = ν e s t := by
  have h3 : s * S + t < S ^ 2 := by rw [pow_two]; exact flat_lt hs ht
  unfold edgeVars packVars
  rw [if_neg (by omega), show n * S + e * S ^ 2 + s * S + t - n * S = e * S ^ 2 + (s * S + t) by omega, flat_div h3,
    flat_mod h3, flat_div ht, flat_mod ht]

theorem inferenceLP_energy {solver : LP.Solver} {U : Mat} {pw : Pairwise} {edges : Edges} {P : ℕ → ℕ → ℕ → ℚ}
    (hP : Denotes U.cols edges.length pw P) {relaxed : Bool} {v : YVal} {energy : ℚ}
    (h : LP.inferenceLP solver U pw edges relaxed = .ok (v, energy)) :
    ∃ p, LP.build ⟨U.rows, U.cols, fun i s => - U.get i s⟩ edges
      ⟨edges.length, U.cols, U.cols, fun e a b => - P e a b⟩ = .ok p ∧ energy = dot p.nVars p.c.get (solver p) := by
  unfold LP.inferenceLP at h
  rw [validateParams_denotes hP] at h
  simp only at h
  unfold LP.lpGeneralGraph at h
  cases hb : LP.build ⟨U.rows, U.cols, fun i s => - U.get i s⟩ edges
      ⟨edges.length, U.cols, U.cols, fun e a b => - P e a b⟩ with
  | error err => rw [hb] at h; cases h
  | ok p =>
    rw [hb] at h
    refine ⟨p, rfl, ?_⟩
    simp only at h
    split_ifs at h <;> simp only [Except.ok.injEq, Prod.mk.injEq] at h <;> exact h.2.symm

/-- no point of the local polytope has a larger score than minus the energy. -/
theorem inferenceLP_bound {solver : LP.Solver} {U : Mat} {pw : Pairwise} {edges : Edges} {P : ℕ → ℕ → ℕ → ℚ}
    (hP : Denotes U.cols edges.length pw P) (hn : 1 ≤ U.rows) (hS : 1 ≤ U.cols) (hE : EdgesIn U.rows edges)
    (hopt : SolvesExactly solver U edges P) {relaxed : Bool} {v : YVal} {energy : ℚ}
    (h : LP.inferenceLP solver U pw edges relaxed = .ok (v, energy)) {μ : ℕ → ℕ → ℚ} {ν : ℕ → ℕ → ℕ → ℚ}
    (hμ : LocalPolytope U.rows U.cols edges μ ν) : marginalScore U.rows U.cols edges U.get P μ ν ≤ - energy := by
  obtain ⟨p, hp, he⟩ := inferenceLP_energy hP h
  obtain ⟨p', hp', hfeas⟩ := C09_local_polytope ⟨U.rows, U.cols, fun i s => - U.get i s⟩ edges
    ⟨edges.length, U.cols, U.cols, fun e a b => - P e a b⟩ hn hS rfl rfl rfl hE
  rw [hp] at hp'
  injection hp' with hp'
  subst hp'
  have hx : LocalPolytope U.rows U.cols edges (nodeVars U.cols (packVars U.rows U.cols μ ν))
      (edgeVars U.rows U.cols (packVars U.rows U.cols μ ν)) :=
    LP.polytope_congr hE (fun i hi s hs => (nodeVars_pack μ ν hi hs).symm)
      (fun e _ s hs t ht => (edgeVars_pack μ ν hs ht).symm) hμ
  have h1 := (hopt p hp).2 _ ((hfeas _).mpr hx)
  rw [← he] at h1
  have h2 := objective_eq ⟨U.rows, U.cols, fun i s => - U.get i s⟩ edges
    ⟨edges.length, U.cols, U.cols, fun e a b => - P e a b⟩ rfl rfl rfl (packVars U.rows U.cols μ ν)
  have hp2 := hp
  rw [build_ok (unaries := ⟨U.rows, U.cols, fun i s => - U.get i s⟩) hn hS rfl rfl rfl] at hp2
  injection hp2 with hp2
  rw [← hp2] at h1
  simp only at h1 h2
  rw [h2, marginalScore_neg] at h1
  have h3 : marginalScore U.rows U.cols edges U.get P (nodeVars U.cols (packVars U.rows U.cols μ ν))
      (edgeVars U.rows U.cols (packVars U.rows U.cols μ ν)) = marginalScore U.rows U.cols edges U.get P μ ν :=
    marginalScore_congr (fun i hi s hs => nodeVars_pack μ ν hi hs) (fun e _ s hs t ht => edgeVars_pack μ ν hs ht)
  rw [h3] at h1
  linarith

/-- LP inference with `relaxed=True` finds the best relaxed labelling. -/
theorem lp_solves (P : Packages) {S : ℕ} (hS : 1 ≤ S) (hex : LPExact S P.lp) :
    SolvesOver S (relaxedOutputs S) (backend P (.name "lp") true) := by
  intro n edges hn hE _ U Q
  obtain ⟨x, energy, hpoly, hen, -, h1, -⟩ := inferenceLP_ok (U := ⟨n, S, U⟩) (denotes_mat S edges.length Q) hn hS hE
    (hex n edges hn hE U _)
  simp only at hpoly hen h1
  have hbound := fun μ ν hμ => inferenceLP_bound (U := ⟨n, S, U⟩) (μ := μ) (ν := ν) (denotes_mat S edges.length Q) hn hS hE
    (hex n edges hn hE U _) h1 hμ
  set v : YVal := .relaxed ⟨n * S, fun k => nodeVars S x (k / S) (k % S)⟩
    ⟨edges.length * S ^ 2, fun k => edgeVars n S x (k / S ^ 2) (k % S ^ 2 / S) (k % S ^ 2 % S)⟩ with hv
  have e1 : ∀ i < n, ∀ s < S, nodeVars S x i s = nodeMarg S v i s := by
    intro i hi s hs
    rw [hv]
    unfold nodeMarg
    simp only
    rw [flat_div hs, flat_mod hs]
  have e2 : ∀ e < edges.length, ∀ s < S, ∀ t < S, edgeVars n S x e s t = edgeMarg S edges v e s t := by
    intro e he s hs t ht
    have h3 : s * S + t < S ^ 2 := by rw [pow_two]; exact flat_lt hs ht
    rw [hv]
    unfold edgeMarg
    simp only
    rw [show (e * S + s) * S + t = e * S ^ 2 + (s * S + t) by ring, flat_div h3, flat_mod h3, flat_div ht, flat_mod ht]
  refine ⟨v, .inr ⟨_, _, rfl, rfl, rfl, LP.polytope_congr hE e1 e2 hpoly⟩, ?_, ?_⟩
  · unfold backend
    rw [dispatch_lp, h1]
    rfl
  · intro v' hv'
    have h3 := hbound _ _ (isRelaxed_polytope hE hv')
    rw [hen, neg_neg, marginalScore_congr e1 e2] at h3
    exact h3

theorem dispatch_ad3_relaxed (P : Packages) (U : Mat) (pw : Pairwise) (edges : Edges) (relaxed : Bool) :
    dispatch P U pw edges (.name "ad3") false [("relaxed", .bool relaxed)] =
      inferenceAd3 P U pw edges [("return_energy", .bool false), ("relaxed", .bool relaxed)] := by
  rfl

/-- AD3 with `relaxed=True` finds the best relaxed labelling. -/
theorem ad3_solves (P : Packages) {S : ℕ} (hS : 1 ≤ S) {solve solve'} (hP : P.ad3 = some (solve, solve'))
    (hex : Ad3Relaxes S solve) : SolvesOver S (relaxedOutputs S) (backend P (.name "ad3") true) := by
  intro n edges hn hE _ U Q
  obtain ⟨hr, hc, h⟩ := hex n edges hn hE U (fun _ => Q)
  have hinf : inferenceAd3 P ⟨n, S, U⟩ (.mat ⟨S, S, Q⟩) edges
      [("return_energy", .bool false), ("relaxed", .bool true)] =
      (let r := solve ⟨n, S, U⟩ edges ⟨edges.length, S, S, fun _ => Q⟩ false
      if r.unsolved && true then
        match r.unary.ravel.reshape2 n S with
        | .error err => .error err
        | .ok u => .ok (Res.mk false (.relaxed u.ravel r.pairwise.ravel) (-r.energy))
      else
        match decodeRows r.unary with
        | .error err => .error err
        | .ok y => .ok (Res.mk false y (-r.energy))) := by
    unfold inferenceAd3
    rw [hP]
    simp only
    have := validateParams_denotes (unary := ⟨n, S, U⟩) (denotes_mat S edges.length Q)
    rw [this]
    rfl
  generalize solve ⟨n, S, U⟩ edges ⟨edges.length, S, S, fun _ => Q⟩ false = r at hr hc h hinf
  rcases h with ⟨hu, y, hyv, hone, hmax⟩ | ⟨hu, hp1, hp2, hpoly, hmax⟩
  · have hdec : ∀ i < n, argmaxN (r.unary.get i) S = y i := by
      intro i hi
      have hlt := argmaxN_lt (r.unary.get i) hS
      have hle := le_argmaxN (r.unary.get i) (hyv i hi)
      rw [hone i hi _ (hyv i hi), hone i hi _ hlt, if_pos rfl] at hle
      by_contra hne
      rw [if_neg hne] at hle
      norm_num at hle
    have hval : Valid n S (fun i => argmaxN (r.unary.get i) S) := fun i _ => argmaxN_lt _ hS
    refine ⟨.discrete ⟨n, fun i => argmaxN (r.unary.get i) S⟩, .inl ⟨_, rfl, rfl, hval⟩, ?_, ?_⟩
    · unfold backend
      rw [dispatch_ad3_relaxed, hinf]
      simp only [hu, Bool.false_and, Bool.false_eq_true, if_false]
      unfold decodeRows
      rw [if_neg (by omega), hr, hc]
      rfl
    · intro v' hv'
      refine (hmax _ _ (isRelaxed_polytope hE hv')).trans (le_of_eq ?_)
      rw [outputScore_labelling hE hval]
      unfold Spec.score
      congr 1
      · exact sum_congr rfl fun i hi => by simp only; rw [hdec i (mem_range.mp hi)]
      · refine sum_congr rfl fun e he => ?_
        have := hE _ (getD_mem (mem_range.mp he))
        simp only
        rw [hdec _ this.1, hdec _ this.2]
  · have hres : r.unary.ravel.reshape2 n S = .ok ⟨n, S, fun i s => r.unary.ravel.get (i * S + s)⟩ := by
      unfold Vec.reshape2
      rw [if_pos (by simp [Mat.ravel, hr, hc])]
    have e1 : ∀ i < n, ∀ s < S, r.unary.get i s = nodeMarg S (.relaxed
        (Mat.ravel ⟨n, S, fun i s => r.unary.ravel.get (i * S + s)⟩) r.pairwise.ravel) i s := by
      intro i hi s hs
      unfold nodeMarg Mat.ravel
      simp only
      rw [flat_div hs, flat_mod hs, hc, flat_div hs, flat_mod hs]
    have e2 : ∀ e < edges.length, ∀ s < S, ∀ t < S, r.pairwise.get e (s * S + t) = edgeMarg S edges (.relaxed
        (Mat.ravel ⟨n, S, fun i s => r.unary.ravel.get (i * S + s)⟩) r.pairwise.ravel) e s t := by
      intro e he s hs t ht
      have h3 : s * S + t < S ^ 2 := by rw [pow_two]; exact flat_lt hs ht
      unfold edgeMarg Mat.ravel
      simp only
      rw [hp2, show (e * S + s) * S + t = e * S ^ 2 + (s * S + t) by ring, flat_div h3, flat_mod h3]
    refine ⟨.relaxed (Mat.ravel ⟨n, S, fun i s => r.unary.ravel.get (i * S + s)⟩) r.pairwise.ravel,
      .inr ⟨_, _, rfl, rfl, by simp [Mat.ravel, hp1, hp2], LP.polytope_congr hE e1 e2 hpoly⟩, ?_, ?_⟩
    · unfold backend
      rw [dispatch_ad3_relaxed, hinf]
      simp only [hu, Bool.true_and, if_true]
      rw [hres]
      rfl
    · intro v' hv'
      have h3 := hmax _ _ (isRelaxed_polytope hE hv')
      rw [marginalScore_congr e1 e2] at h3
      exact h3

theorem relaxes_solves {P : Packages} {S : ℕ} (hS : 1 ≤ S) {method : Method} (h : Relaxes S P method) :
    SolvesOver S (relaxedOutputs S) (backend P method true) := by
  rcases h with ⟨rfl, h⟩ | ⟨rfl, solve, solve', h1, h2⟩
  · exact lp_solves P hS h
  · exact ad3_solves P hS h1 h2

/-! ### exact inference -/

/-- All labellings of a graph. -/
def labellings (S n : ℕ) (_ : Edges) : Set YVal := {v | IsLabelling n S v}

/-- An exact AD3 finds the best labelling, relaxed or not. -/
theorem ad3_exact_solves (P : Packages) {S : ℕ} (hS : 1 ≤ S) {solve solve'} (hP : P.ad3 = some (solve, solve'))
    (hex : Ad3AlwaysExact solve) (relaxed : Bool) : SolvesOver S (labellings S) (backend P (.name "ad3") relaxed) := by
  intro n edges hn hE _ U Q
  obtain ⟨y, h1, h2, h3⟩ := C60_routes_ad3 P ⟨n, S, U⟩ (.mat ⟨S, S, Q⟩) edges (fun _ => Q) solve solve' hP
    (denotes_mat S edges.length Q) hS hE (hex _ _ _ hS hE) [("relaxed", .bool relaxed)] (fun p hp => relaxed_only hp)
  rcases C60_energy_partial P ⟨n, S, U⟩ (.mat ⟨S, S, Q⟩) edges (.name "ad3") (by decide) [("relaxed", .bool relaxed)] with
    ⟨err, he⟩ | ⟨y', en, he1, he2⟩
  · rw [he] at h1; cases h1
  · rw [he1, Except.ok.injEq] at h1
    injection h1 with h1 h1'
    subst h1
    refine ⟨.discrete y, ⟨y, rfl, h2, h3.1⟩, ?_, ?_⟩
    · unfold backend
      rw [he2]
      rfl
    · rintro v' ⟨y', rfl, -, hv'⟩
      rw [outputScore_labelling hE hv', outputScore_labelling hE h3.1]
      exact h3.2 y'.get hv'

theorem labellings_relaxed {S : ℕ} (n : ℕ) (edges : Edges) : ∀ v ∈ labellings S n edges, IsRelaxed n S edges v :=
  fun _ h => .inl h

/-- The risk over labellings exists. -/
theorem labellings_objective (bk : Bool → Infer) (cw : Vec) (m : Model) (hS : 1 ≤ m.nStates) (hc : cw.size = m.nStates)
    (data : List (X × Labels)) (hd : GraphData m data) (C : ℚ) (w : W) :
    ∃ p, (problemOf (graphModel bk cw m) (outputsOver m (labellings m.nStates))).IsObjective C (graphSamples data) w p := by
  classical
  have hex : ∀ (U : Mat) (edges : Edges) (Q : ℕ → ℕ → ℚ), ∃ y : ℕ → ℕ, 1 ≤ U.cols → EdgesIn U.rows edges →
      IsMAP U.rows U.cols edges U.get (fun _ => Q) y := by
    intro U edges Q
    by_cases h : 1 ≤ U.cols ∧ EdgesIn U.rows edges
    · obtain ⟨y, hy⟩ := isMAP_exists U.rows U.cols h.1 edges h.2 U.get (fun _ => Q)
      exact ⟨y, fun _ _ => hy⟩
    · exact ⟨fun _ => 0, fun h1 h2 => absurd ⟨h1, h2⟩ h⟩
  choose f hf using hex
  let best : Bool → Infer := fun _ U pw edges => match pw with
    | .mat q => .ok (.discrete ⟨U.rows, f U edges q.get⟩)
    | _ => .error .valueError
  have hsolve : SolvesOver m.nStates (labellings m.nStates) (best true) := by
    intro n edges hn hE _ U Q
    have := hf ⟨n, m.nStates, U⟩ edges Q hS hE
    refine ⟨_, ⟨_, rfl, rfl, this.1⟩, rfl, ?_⟩
    rintro v' ⟨y', rfl, -, hv'⟩
    rw [outputScore_labelling hE hv', outputScore_labelling hE this.1]
    exact this.2 y'.get hv'
  have hlab := graphData_labelled hd (O := labellings m.nStates) fun _ _ _ h => h
  have hLA := graph_exact (backend := best) hS hc labellings_relaxed true hsolve
  have hl := graph_labelled (backend := best) hS hc hlab
  exact ⟨_, _, violations_hinge (graphModel best cw m) (outputsOver m (labellings m.nStates)) hLA (graphSamples data) hl w, rfl⟩

/-- Labellings compete among relaxed labellings. -/
theorem labellings_subset (m : Model) (x : X) :
    outputsOver m (labellings m.nStates) x ⊆ outputsOver m (relaxedOutputs m.nStates) x :=
  fun _ hv => ⟨hv.1, .inl hv.2⟩

/-! ### training -/

/-- The structured prediction problem posed by a `GraphCRF` with outputs `O`. -/
def graphProblem (P : Packages) (method : Method) (cw : Vec) (m : Model) (O : ℕ → Edges → Set YVal) : Problem X YVal :=
  problemOf (graphModel (backend P method) cw m) (outputsOver m O)

/-- **C91, relaxed one-slack training.** A fresh `OneSlackSSVM` with `inactive_window=0`, an exact QP solver and no
cache (or an output comparison that does not fail), trained on arbitrary labelled graphs with a `GraphCRF` with two or more
states and positive class weights that uses `lp` with an exact LP solver, or `ad3`. Let `R` bound `featureBound` over the
graphs, `L` be the sum of the class weights of all labels, `μ` such that `2 μ ≤ C n tol` and `2 R μ ≤ tol²`, and
`C L < (max_iter - 1) μ`. Then training returns. The risk of the learned weights over relaxed labellings is within
`C n tol` of that of any weights, and it is an upper bound on their risk over labellings. -/
theorem C91_relaxed_oneslack (P : Packages) (method : Method) (cw : Vec) (m : Model) (hS : 2 ≤ m.nStates)
    (hP : Relaxes m.nStates P method) (hc : cw.size = m.nStates)
    (hpos : ∀ c < m.nStates, 0 < cw.get c) (data : List (X × Labels)) (hne : data ≠ []) (hd : GraphData m data)
    (qp : QP.Solver) (hqp : QP.Exact qp) (hcomp : QP.Complete qp) (eq : YVal → YVal → Except PyErr Bool)
    (o : OneSlack.Obj YVal) (heq : o.cfg.inferenceCache = 0 ∨ ∀ a b, ∃ r, eq a b = .ok r) (hC : 0 < o.cfg.C)
    (htol : 0 < o.cfg.tol) (htol1 : o.cfg.tol ≤ 1) (hneg : o.cfg.negativity = none)
    (hthr : o.cfg.inactiveThreshold ≤ 1) (hbr : o.cfg.breakOnBad = false) (hwin : o.cfg.inactiveWindow = 0)
    (hmi : o.cfg.maxIter ≠ 0)
    (R : ℚ) (hR0 : 0 ≤ R) (hR : ∀ d ∈ data, featureBound m d.1 ≤ R)
    (μ : ℚ) (hμ0 : 0 ≤ μ) (hμ1 : 2 * μ ≤ o.cfg.C * data.length * o.cfg.tol) (hμ2 : 2 * R * μ ≤ o.cfg.tol ^ 2)
    (hmax : o.cfg.C * (data.map fun d => ∑ i ∈ range d.2.size, cw.get (d.2.get i)).sum <
      ((o.cfg.maxIter : ℚ) - 1) * μ) :
    ∃ o' a p q, OneSlack.fit (graphModel (backend P method) cw m) qp eq none (fun _ => none) o (graphSamples data) .no =
        .ok o' ∧ o'.attrs = some a ∧
      (graphProblem P method cw m (relaxedOutputs m.nStates)).IsObjective o.cfg.C (graphSamples data) a.w p ∧
      (graphProblem P method cw m (labellings m.nStates)).IsObjective o.cfg.C (graphSamples data) a.w q ∧ q ≤ p ∧
      ∀ w obj, (graphProblem P method cw m (relaxedOutputs m.nStates)).IsObjective o.cfg.C (graphSamples data) w obj →
        p ≤ obj + o.cfg.C * data.length * o.cfg.tol := by
  have hS1 : 1 ≤ m.nStates := by omega
  have hsolve := relaxes_solves hS1 hP
  have hO : ∀ n edges, ∀ v ∈ relaxedOutputs m.nStates n edges, IsRelaxed n m.nStates edges v := fun _ _ _ h => h
  have hA : AllLabellings m.nStates (relaxedOutputs m.nStates) data := fun _ _ _ h => .inl h
  obtain ⟨o', ho'⟩ := graph_oneslack_returns (backend P method) cw m hS hc hpos hO hsolve data hA hne hd qp hqp hcomp eq o heq
    hC.le hneg hthr hbr htol1 hmi
  obtain ⟨a, p, h1, h2, h3⟩ := graph_oneslack (backend P method) cw m hS1 hc (fun c h => (hpos c h).le) hO hsolve data hA hd qp
    hqp hcomp eq o o' hC htol hneg hwin R hR0 hR μ hμ0 hμ1 hμ2 hmax ho'
  obtain ⟨q, hq⟩ := labellings_objective (backend P method) cw m hS1 hc data hd o.cfg.C a.w
  exact ⟨o', a, p, q, ho', h1, h2, hq, objective_mono (labellings_subset m) hC.le hq h2, h3⟩

/-- **C91, relaxed Frank-Wolfe training.** The same for a fresh `FrankWolfeSSVM` in block-coordinate mode with line
search, without averaging, every pass visiting every graph once. Let `R` bound `featureBound` over the graphs, `L` be the
sum of the class weights of all labels, `H = C L` and `K = 4 n² (C² R + 1e-15 + H + n C² R)`. If
`max_iter tol² > check_dual_every K H`, training returns weights whose risk over relaxed labellings is less than `tol`
above that of any others, and bounds their risk over labellings. -/
theorem C91_relaxed_frankwolfe (P : Packages) (method : Method) (cw : Vec) (m : Model) (hS : 1 ≤ m.nStates)
    (hP : Relaxes m.nStates P method) (hc : cw.size = m.nStates)
    (hpos : ∀ c < m.nStates, 0 ≤ cw.get c) (data : List (X × Labels)) (hne : data ≠ []) (hd : GraphData m data)
    (order : ℕ → List ℕ) (ho : VisitsAll data.length order) (o : FrankWolfe.Obj) (hw : o.w = none) (hol : o.l = none)
    (hb : o.cfg.batchMode = false) (hls : o.cfg.lineSearch = true) (hav : o.cfg.averaging = false)
    (hC : 0 ≤ o.cfg.C) (htol : 0 < o.cfg.tol) (hck : o.cfg.checkDualEvery ≠ 0) (hm : o.cfg.maxIter ≠ 0)
    (R : ℚ) (hR0 : 0 ≤ R) (hR : ∀ d ∈ data, featureBound m d.1 ≤ R) :
    let n : ℚ := data.length
    let H : ℚ := o.cfg.C * (data.map fun d => ∑ i ∈ range d.2.size, cw.get (d.2.get i)).sum
    let K : ℚ := 4 * n ^ 2 * (o.cfg.C ^ 2 * R + 1 / 10 ^ 15 + H + n * o.cfg.C ^ 2 * R)
    o.cfg.checkDualEvery * (K * H) < o.cfg.maxIter * o.cfg.tol ^ 2 →
    ∃ o' w p q, FrankWolfe.fit (graphModel (backend P method) cw m) order o (graphSamples data) = .ok o' ∧ o'.w = some w ∧
      (graphProblem P method cw m (relaxedOutputs m.nStates)).IsObjective o.cfg.C (graphSamples data) w p ∧
      (graphProblem P method cw m (labellings m.nStates)).IsObjective o.cfg.C (graphSamples data) w q ∧ q ≤ p ∧
      ∀ v obj, (graphProblem P method cw m (relaxedOutputs m.nStates)).IsObjective o.cfg.C (graphSamples data) v obj →
        p < obj + o.cfg.tol := by
  intro n H K hmax
  have hO : ∀ n edges, ∀ v ∈ relaxedOutputs m.nStates n edges, IsRelaxed n m.nStates edges v := fun _ _ _ h => h
  have hA : AllLabellings m.nStates (relaxedOutputs m.nStates) data := fun _ _ _ h => .inl h
  obtain ⟨o', w, p, h0, h1, h2, h3⟩ := graph_frankwolfe (backend P method) cw m hS hc hpos hO (relaxes_solves hS hP) data hA
    hne hd order ho o hw hol hb hls hav hC htol hck hm R hR0 hR hmax
  obtain ⟨q, hq⟩ := labellings_objective (backend P method) cw m hS hc data hd o.cfg.C w
  exact ⟨o', w, p, q, h0, h1, h2, hq, objective_mono (labellings_subset m) hC hq h2, h3⟩

/-- **C91, exact training.** With an AD3 that finds the best labelling of every graph, one-slack training in the
situation of `C91_relaxed_oneslack` returns weights whose risk over all labellings is within `C n tol` of that of any
weights. -/
theorem C91_exact_oneslack (P : Packages) (solve solve') (hP : P.ad3 = some (solve, solve')) (hex : Ad3AlwaysExact solve)
    (cw : Vec) (m : Model) (hS : 2 ≤ m.nStates) (hc : cw.size = m.nStates)
    (hpos : ∀ c < m.nStates, 0 < cw.get c) (data : List (X × Labels)) (hne : data ≠ []) (hd : GraphData m data)
    (qp : QP.Solver) (hqp : QP.Exact qp) (hcomp : QP.Complete qp) (eq : YVal → YVal → Except PyErr Bool)
    (o : OneSlack.Obj YVal) (heq : o.cfg.inferenceCache = 0 ∨ ∀ a b, ∃ r, eq a b = .ok r) (hC : 0 < o.cfg.C)
    (htol : 0 < o.cfg.tol) (htol1 : o.cfg.tol ≤ 1) (hneg : o.cfg.negativity = none)
    (hthr : o.cfg.inactiveThreshold ≤ 1) (hbr : o.cfg.breakOnBad = false) (hwin : o.cfg.inactiveWindow = 0)
    (hmi : o.cfg.maxIter ≠ 0)
    (R : ℚ) (hR0 : 0 ≤ R) (hR : ∀ d ∈ data, featureBound m d.1 ≤ R)
    (μ : ℚ) (hμ0 : 0 ≤ μ) (hμ1 : 2 * μ ≤ o.cfg.C * data.length * o.cfg.tol) (hμ2 : 2 * R * μ ≤ o.cfg.tol ^ 2)
    (hmax : o.cfg.C * (data.map fun d => ∑ i ∈ range d.2.size, cw.get (d.2.get i)).sum <
      ((o.cfg.maxIter : ℚ) - 1) * μ) :
    ∃ o' a p, OneSlack.fit (graphModel (backend P (.name "ad3")) cw m) qp eq none (fun _ => none) o (graphSamples data) .no =
        .ok o' ∧ o'.attrs = some a ∧
      (graphProblem P (.name "ad3") cw m (labellings m.nStates)).IsObjective o.cfg.C (graphSamples data) a.w p ∧
      ∀ w obj, (graphProblem P (.name "ad3") cw m (labellings m.nStates)).IsObjective o.cfg.C (graphSamples data) w obj →
        p ≤ obj + o.cfg.C * data.length * o.cfg.tol := by
  have hS1 : 1 ≤ m.nStates := by omega
  have hsolve := ad3_exact_solves P hS1 hP hex true
  have hA : AllLabellings m.nStates (labellings m.nStates) data := fun _ _ _ h => h
  obtain ⟨o', ho'⟩ := graph_oneslack_returns (backend P (.name "ad3")) cw m hS hc hpos labellings_relaxed hsolve data hA hne hd
    qp hqp hcomp eq o heq hC.le hneg hthr hbr htol1 hmi
  obtain ⟨a, p, h1, h2, h3⟩ := graph_oneslack (backend P (.name "ad3")) cw m hS1 hc (fun c h => (hpos c h).le)
    labellings_relaxed hsolve data hA hd qp hqp hcomp eq o o' hC htol hneg hwin R hR0 hR μ hμ0 hμ1 hμ2 hmax ho'
  exact ⟨o', a, p, ho', h1, h2, h3⟩

/-! ### relaxed outputs and the cache -/

theorem constraintEqual_error {a b : OneSlack.Output} {err : PyErr} (h : OneSlack.constraintEqual a b = .error err) :
    err = .typeError := by
  unfold OneSlack.constraintEqual at h
  split at h
  · split_ifs at h
    injection h with h
    exact h.symm
  all_goals cases h

theorem alreadyThere_relaxed (u p p' : List ℚ) (cache : List (OneSlack.Cached OneSlack.Output))
    (h : ∃ c ∈ cache, c.2.2 = .relaxed u p') :
    OneSlack.alreadyThere OneSlack.constraintEqual (.relaxed u p) cache = .error .typeError := by
  induction cache with
  | nil => obtain ⟨c, hc, -⟩ := h; cases hc
  | cons c cs ih =>
    unfold OneSlack.alreadyThere
    cases hq : OneSlack.constraintEqual (.relaxed u p) c.2.2 with
    | error err => rw [constraintEqual_error hq]
    | ok b =>
      obtain ⟨d, hd, hdu⟩ := h
      rcases List.mem_cons.mp hd with rfl | hd
      · rw [hdu] at hq
        simp [OneSlack.constraintEqual] at hq
      · simp only
        rw [ih ⟨d, hd, hdu⟩]

theorem alreadyThere_error {y : OneSlack.Output} {cache : List (OneSlack.Cached OneSlack.Output)} {err : PyErr}
    (h : OneSlack.alreadyThere OneSlack.constraintEqual y cache = .error err) : err = .typeError := by
  induction cache with
  | nil => cases h
  | cons c cs ih =>
    unfold OneSlack.alreadyThere at h
    cases hq : OneSlack.constraintEqual y c.2.2 with
    | error e => rw [hq] at h; injection h with h; rw [← h]; exact constraintEqual_error hq
    | ok b =>
      rw [hq] at h
      simp only at h
      cases ha : OneSlack.alreadyThere OneSlack.constraintEqual y cs with
      | error e => rw [ha] at h; injection h with h; exact ih (by rw [ha, h])
      | ok b' => rw [ha] at h; cases h

theorem cacheSamples_relaxed {α : Type} (m : SModel α OneSlack.Output) (size : ℕ) (u p p' : List ℚ) :
    ∀ (cache : List (List (OneSlack.Cached OneSlack.Output))) (samples : List (α × OneSlack.Output))
      (yhat : List OneSlack.Output) (i : ℕ), i < samples.length → yhat[i]? = some (.relaxed u p) →
      (∃ cs, cache[i]? = some cs ∧ ∃ c ∈ cs, c.2.2 = .relaxed u p') →
      OneSlack.cacheSamples m OneSlack.constraintEqual size cache samples yhat = .error .typeError := by
  intro cache
  induction cache with
  | nil => rintro _ _ i _ _ ⟨cs, h, -⟩; simp at h
  | cons c cache ih =>
    intro samples yhat i hi hy hc
    cases samples with
    | nil => simp at hi
    | cons s samples =>
      cases yhat with
      | nil => simp at hy
      | cons yh yhat =>
        unfold OneSlack.cacheSamples
        cases hq : OneSlack.cacheSample m OneSlack.constraintEqual size c s.1 s.2 yh with
        | error err =>
          unfold OneSlack.cacheSample at hq
          cases ha : OneSlack.alreadyThere OneSlack.constraintEqual yh c with
          | error e =>
            rw [ha] at hq
            injection hq with hq
            subst hq
            simp only
            rw [alreadyThere_error ha]
          | ok b => rw [ha] at hq; cases b <;> cases hq
        | ok c' =>
          simp only
          cases i with
          | zero =>
            exfalso
            obtain ⟨cs, h1, h2⟩ := hc
            simp only [List.getElem?_cons_zero, Option.some.injEq] at h1 hy
            subst h1 hy
            unfold OneSlack.cacheSample at hq
            rw [alreadyThere_relaxed u p p' _ h2] at hq
            cases hq
          | succ i =>
            rw [List.getElem?_cons_succ] at hy hc
            rw [ih samples yhat i (by simpa using hi) hy hc]

/-- **Caching and relaxed outputs do not go together.** With a cache, if a new constraint contains a fractional
labelling with the same unary marginals as one already cached for that sample, the iteration raises `TypeError`. -/
theorem C92_violated_cached_relaxed {α : Type} (qp : QP.Solver) (alt) (cfg : OneSlack.Config) (hcache : cfg.inferenceCache ≠ 0)
    (samples : List (α × OneSlack.Output)) (gt : W) (it : ℕ) (intr : Option OneSlack.Phase) (hintr : intr ≠ some .search)
    (st : OneSlack.St α OneSlack.Output) (hfrom : OneSlack.fromCache cfg st gt samples.length = .ok none) (f)
    (hfind : OneSlack.findNew cfg st gt samples = .ok (some f))
    (i : ℕ) (hi : i < samples.length) (u p p' : List ℚ) (hy : f.yhat[i]? = some (.relaxed u p))
    (cache) (hst : st.cache = some cache) (hc : ∃ cs, cache[i]? = some cs ∧ ∃ c ∈ cs, c.2.2 = .relaxed u p') :
    OneSlack.iteration qp OneSlack.constraintEqual alt cfg samples gt it intr st = .error .typeError := by
  unfold OneSlack.iteration
  rw [if_neg hintr, hfrom]
  simp only
  rw [hfind]
  simp only
  unfold OneSlack.updateCache
  rw [if_neg hcache, hst, Option.getD_some, cacheSamples_relaxed st.model _ u p p' cache samples f.yhat i hi hy hc]

/-- Two inputs. The first has, besides the true output, one fractional output of loss 1 and the same features; the second
one discrete output with loss 1 and feature difference 2. -/
def halfModel : SModel ℕ OneSlack.Output where
  dim := 1
  jointFeature := fun x y k => if x = 1 ∧ y = .discrete [1] then -vec2 2 0 k else 0
  rescaleC := false
  jointFeatureR := fun _ _ _ _ => 0
  lossAug := fun x _ w _ => if x = 0 then .relaxed [1 / 2, 1 / 2] [] else if 1 - 2 * w 0 > 0 then .discrete [1] else .discrete [0]
  inference := fun _ _ => .discrete [0]
  isTuple := fun y => match y with
    | .relaxed _ _ => true
    | _ => false
  loss := fun y y' => if y = y' then 0 else 1
  continuousLoss := fun _ _ => 1
  maxLoss := fun _ => 1

/-- The exception raised. -/
def raised {α : Type} : Except PyErr α → Option PyErr
  | .error e => some e
  | .ok _ => none

/-- Training with a cache ends in a `TypeError` in the second iteration though the QP solver and inference are exact
and the learner without cache gets past that point. -/
theorem C92_violated_cached_relaxed_fit :
    let qp := tableSolver 1 2 [([(vec2 0 0, 0), (vec2 1 0, 1)], [1, 1], 0),
      ([(vec2 0 0, 0), (vec2 1 0, 1), (vec2 0 0, 1 / 2)], [0, 1 / 2, 3 / 2], 1 / 2)]
    QP.Exact qp ∧
    raised (OneSlack.fit halfModel qp OneSlack.constraintEqual none (fun _ => none)
      ⟨⟨10, 1, false, none, false, 0, 1 / 1000, 5, 1 / 10 ^ 5, 0, .auto⟩, none, []⟩
      [(0, .discrete [0]), (1, .discrete [0])] .no) = some .typeError ∧
    (OneSlack.fit halfModel qp OneSlack.constraintEqual none (fun _ => none)
      ⟨⟨10, 1, false, none, false, 0, 1 / 1000, 0, 1 / 10 ^ 5, 0, .auto⟩, none, []⟩
      [(0, .discrete [0]), (1, .discrete [0])] .no).toOption.isSome := by
  intro qp
  exact ⟨tableSolver_exact _ _ _ (by decide +kernel), by decide +kernel, by decide +kernel⟩

/-! ### examples -/

/-- a triangle with one feature per vertex. -/
def triangleX : X := ⟨⟨3, 1, fun i _ => i⟩, [(0, 1), (1, 2), (0, 2)]⟩

/-- two states. -/
def triangleModel : Model := ⟨2, 1, false⟩

/-- its labels. -/
def triangleData : List (X × Labels) := [(triangleX, ⟨3, fun i => if i = 2 then 1 else 0⟩)]

theorem triangle_data : GraphData triangleModel triangleData := by
  intro d hd
  rw [triangleData, List.mem_singleton] at hd
  subst hd
  refine ⟨⟨by decide, rfl, ?_⟩, rfl, ?_⟩
  · unfold EdgesIn; decide
  · unfold Valid; decide

theorem triangle_bound : ∀ d ∈ triangleData, featureBound triangleModel d.1 ≤ 126 := by
  intro d hd
  rw [triangleData, List.mem_singleton] at hd
  subst hd
  decide +kernel

/-- packages with an ideal LP solver only. -/
noncomputable def idealPackages : Packages := ⟨none, LP.ideal, none, none⟩

theorem idealPackages_relaxes (S : ℕ) (hS : 1 ≤ S) : Relaxes S idealPackages (.name "lp") :=
  .inl ⟨rfl, fun _ _ hn hE _ _ => LP.ideal_solves _ _ _ hn hS hE⟩

/-- All hypotheses of `C91_relaxed_oneslack` can be met. -/
example : ∃ o' a, OneSlack.fit (graphModel (backend idealPackages (.name "lp")) ⟨2, fun _ => 1⟩ triangleModel) QP.ideal
    (fun _ _ => .error .typeError) none (fun _ => none)
    ⟨⟨4000, 1, false, none, false, 0, 1 / 2, 0, 1 / 10 ^ 5, 0, .auto⟩, none, []⟩ (graphSamples triangleData) .no = .ok o' ∧
    o'.attrs = some a := by
  obtain ⟨o', a, p, q, h1, h2, -⟩ := C91_relaxed_oneslack idealPackages (.name "lp") ⟨2, fun _ => 1⟩ triangleModel (by decide)
    (idealPackages_relaxes _ (by decide)) rfl (by decide +kernel) triangleData (by decide) triangle_data QP.ideal
    QP.ideal_exact.1 QP.ideal_exact.2 (fun _ _ => .error .typeError)
    ⟨⟨4000, 1, false, none, false, 0, 1 / 2, 0, 1 / 10 ^ 5, 0, .auto⟩, none, []⟩ (.inl rfl) (by norm_num) (by norm_num)
    (by norm_num) rfl (by norm_num) rfl rfl (by norm_num) 126 (by norm_num) triangle_bound (1 / 1008) (by norm_num)
    (by decide +kernel) (by decide +kernel) (by decide +kernel)
  exact ⟨o', a, h1, h2⟩

/-- `Ad3Relaxes` can be met. -/
theorem relaxing_ad3_exists (S : ℕ) (hS : 1 ≤ S) : ∃ solve, Ad3Relaxes S solve := by
  classical
  have h : ∀ (U : Mat) (edges : Edges) (t : Ten), ∃ μ : (ℕ → ℕ → ℚ) × (ℕ → ℕ → ℕ → ℚ), 1 ≤ U.rows → U.cols = S →
      EdgesIn U.rows edges → LocalPolytope U.rows S edges μ.1 μ.2 ∧ ∀ μ' ν', LocalPolytope U.rows S edges μ' ν' →
        marginalScore U.rows S edges U.get t.get μ' ν' ≤ marginalScore U.rows S edges U.get t.get μ.1 μ.2 := by
    intro U edges t
    by_cases hc : 1 ≤ U.rows ∧ U.cols = S ∧ EdgesIn U.rows edges
    · obtain ⟨h1, h2, h3⟩ := hc
      have hex := LP.ideal_solves ⟨U.rows, S, U.get⟩ edges t.get h1 hS h3
      obtain ⟨x, energy, hpoly, hen, -, hok, -⟩ := inferenceLP_ok (U := ⟨U.rows, S, U.get⟩)
        (pw := .ten ⟨edges.length, S, S, t.get⟩) (P := t.get) (edges := edges) ⟨rfl, rfl, rfl, fun _ _ _ => rfl⟩ h1 hS h3 hex
      refine ⟨⟨nodeVars S x, edgeVars U.rows S x⟩, fun _ _ _ => ⟨hpoly, fun μ' ν' hμ => ?_⟩⟩
      have := inferenceLP_bound (U := ⟨U.rows, S, U.get⟩)
        (pw := .ten ⟨edges.length, S, S, t.get⟩) (P := t.get) ⟨rfl, rfl, rfl, fun _ _ _ => rfl⟩ h1 hS h3 hex hok hμ
      rw [hen, neg_neg] at this
      exact this
    · exact ⟨⟨fun _ _ => 0, fun _ _ _ => 0⟩, fun h1 h2 h3 => absurd ⟨h1, h2, h3⟩ hc⟩
  choose f hf using h
  refine ⟨fun U edges t _ => ⟨⟨U.rows, U.cols, (f U edges t).1⟩, ⟨edges.length, S ^ 2, fun e k => (f U edges t).2 e (k / S) (k % S)⟩,
    0, true⟩, fun n edges hn hE U P => ⟨rfl, rfl, .inr ⟨rfl, rfl, rfl, ?_⟩⟩⟩
  obtain ⟨h1, h2⟩ := hf ⟨n, S, U⟩ edges ⟨edges.length, S, S, P⟩ hn rfl hE
  have e : ∀ e < edges.length, ∀ s < S, ∀ t < S, (f ⟨n, S, U⟩ edges ⟨edges.length, S, S, P⟩).2 e s t =
      (fun e a b => (f ⟨n, S, U⟩ edges ⟨edges.length, S, S, P⟩).2 e ((a * S + b) / S) ((a * S + b) % S)) e s t := by
    intro e he s hs t ht
    simp only
    rw [flat_div ht, flat_mod ht]
  refine ⟨LP.polytope_congr hE (fun _ _ _ _ => rfl) e h1, fun μ ν hμ => ?_⟩
  refine (h2 μ ν hμ).trans (le_of_eq ?_)
  exact marginalScore_congr (fun _ _ _ _ => rfl) e

/-- All hypotheses of `C91_exact_oneslack` can be met. -/
example : ∃ P : Packages, ∃ o' a, OneSlack.fit (graphModel (backend P (.name "ad3")) ⟨2, fun _ => 1⟩ triangleModel) QP.ideal
    (fun _ _ => .ok true) none (fun _ => none)
    ⟨⟨4000, 1, false, none, false, 0, 1 / 2, 5, 1 / 10 ^ 5, 0, .auto⟩, none, []⟩ (graphSamples triangleData) .no = .ok o' ∧
    o'.attrs = some a := by
  obtain ⟨solve, hsolve⟩ := exact_ad3_exists
  obtain ⟨o', a, p, h1, h2, -⟩ := C91_exact_oneslack ⟨none, LP.ideal, some (solve, fun U edges _ _ r => solve U edges ⟨0, 0, 0, fun _ _ _ => 0⟩ r), none⟩
    solve _ rfl hsolve ⟨2, fun _ => 1⟩ triangleModel (by decide)
    rfl (by decide +kernel) triangleData (by decide) triangle_data QP.ideal
    QP.ideal_exact.1 QP.ideal_exact.2 (fun _ _ => .ok true)
    ⟨⟨4000, 1, false, none, false, 0, 1 / 2, 5, 1 / 10 ^ 5, 0, .auto⟩, none, []⟩ (.inr fun _ _ => ⟨_, rfl⟩) (by norm_num) (by norm_num)
    (by norm_num) rfl (by norm_num) rfl rfl (by norm_num) 126 (by norm_num) triangle_bound (1 / 1008) (by norm_num)
    (by decide +kernel) (by decide +kernel) (by decide +kernel)
  exact ⟨_, o', a, h1, h2⟩

/-- All hypotheses of `C91_relaxed_frankwolfe` can be met. -/
example : ∃ o' w, FrankWolfe.fit (graphModel (backend idealPackages (.name "lp")) ⟨2, fun _ => 1⟩ triangleModel)
      (fun _ => [0]) ⟨⟨10 ^ 6, 1, 1, false, true, 1, false⟩, none, none, ⟨[], []⟩⟩ (graphSamples triangleData) =
      .ok o' ∧ o'.w = some w := by
  obtain ⟨o', w, p, q, h1, h2, -⟩ := C91_relaxed_frankwolfe idealPackages (.name "lp") ⟨2, fun _ => 1⟩ triangleModel (by decide)
    (idealPackages_relaxes _ (by decide)) rfl (by decide +kernel) triangleData (by decide) triangle_data
    (fun _ => [0]) (fun _ => List.Perm.refl _) ⟨⟨10 ^ 6, 1, 1, false, true, 1, false⟩, none, none, ⟨[], []⟩⟩
    rfl rfl rfl rfl rfl (by norm_num) (by norm_num) (by decide) (by decide) 126 (by norm_num) triangle_bound
    (by decide +kernel)
  exact ⟨o', w, h1, h2⟩

end Verif.Props
