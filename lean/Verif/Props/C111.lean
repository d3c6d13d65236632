import Verif.Lemmas.EdgeOutputs
import Verif.Props.C91
import Verif.Lemmas.PairwiseTraining
import Verif.Props.C88

/-!
# C111: training an `EdgeFeatureGraphCRF`
-/

namespace Verif.Props

open Finset Verif.Common Verif.Spec Verif.Learner Verif.Dispatch Verif.EdgeFeature Verif.Lemmas
open Verif.GraphCRF (Infer)
open Verif.MaxProd (maxProductInfer inferenceMaxProduct inferenceMaxProduct_chain)

/-! ### inference methods -/

theorem denotes_ten (S E : ℕ) (Q : ℕ → ℕ → ℕ → ℚ) : Denotes S E (.ten ⟨E, S, S, Q⟩) Q := ⟨rfl, rfl, rfl, fun _ _ _ => rfl⟩

/-- LP inference with `relaxed=True` finds the best relaxed labelling also if edges have potentials of their own. -/
theorem lp_solves_edges (P : Packages) {S : ℕ} (hS : 1 ≤ S) (hex : LPExact S P.lp) :
    SolvesEdges S (relaxedOutputs S) (backend P (.name "lp") true) := by
  intro n edges hn hE _ U Q
  obtain ⟨x, energy, hpoly, hen, -, h1, -⟩ := inferenceLP_ok (U := ⟨n, S, U⟩) (denotes_ten S edges.length Q) hn hS hE
    (hex n edges hn hE U _)
  simp only at hpoly hen h1
  have hbound := fun μ ν hμ => inferenceLP_bound (U := ⟨n, S, U⟩) (μ := μ) (ν := ν) (denotes_ten S edges.length Q) hn hS hE
    (hex n edges hn hE U _) h1 hμ
  set v : YVal := .relaxed ⟨n * S, fun k => nodeVars S x (k / S) (k % S)⟩
    ⟨edges.length * S ^ 2, fun k => edgeVars n S x (k / S ^ 2) (k % S ^ 2 / S) (k % S ^ 2 % S)⟩ with hv
  have e1 : ∀ i < n, ∀ s < S, nodeVars S x i s = nodeMarg S v i s := by
    intro i hi s hs
    rw [hv]
    unfold nodeMarg
    simp only
    rw [flat_div hs, flat_mod hs]
  have e2 : ∀ e < edges.length, ∀ s < S, ∀ t < S, edgeVars n S x e s t = edgeMarg S edges v e s t := by
    intro e he s hs t ht
    have h3 : s * S + t < S ^ 2 := by rw [pow_two]; exact flat_lt hs ht
    rw [hv]
    unfold edgeMarg
    simp only
    rw [show (e * S + s) * S + t = e * S ^ 2 + (s * S + t) by ring, flat_div h3, flat_mod h3, flat_div ht, flat_mod ht]
  refine ⟨v, .inr ⟨_, _, rfl, rfl, rfl, LP.polytope_congr hE e1 e2 hpoly⟩, ?_, ?_⟩
  · unfold backend
    rw [dispatch_lp, h1]
    rfl
  · intro v' hv'
    have h3 := hbound _ _ (isRelaxed_polytope hE hv')
    rw [hen, neg_neg, marginalScore_congr e1 e2] at h3
    exact h3

/-- AD3 with `relaxed=True` finds the best relaxed labelling also if edges have potentials of their own. -/
theorem ad3_solves_edges (P : Packages) {S : ℕ} (hS : 1 ≤ S) {solve solve'} (hP : P.ad3 = some (solve, solve'))
    (hex : Ad3Relaxes S solve) : SolvesEdges S (relaxedOutputs S) (backend P (.name "ad3") true) := by
  intro n edges hn hE _ U Q
  obtain ⟨hr, hc, h⟩ := hex n edges hn hE U Q
  have hinf : inferenceAd3 P ⟨n, S, U⟩ (.ten ⟨edges.length, S, S, Q⟩) edges
      [("return_energy", .bool false), ("relaxed", .bool true)] =
      (let r := solve ⟨n, S, U⟩ edges ⟨edges.length, S, S, Q⟩ false
      if r.unsolved && true then
        match r.unary.ravel.reshape2 n S with
        | .error err => .error err
        | .ok u => .ok (Res.mk false (.relaxed u.ravel r.pairwise.ravel) (-r.energy))
      else
        match decodeRows r.unary with
        | .error err => .error err
        | .ok y => .ok (Res.mk false y (-r.energy))) := by
    unfold inferenceAd3
    rw [hP]
    simp only
    have := validateParams_denotes (unary := ⟨n, S, U⟩) (denotes_ten S edges.length Q)
    rw [this]
    rfl
  generalize solve ⟨n, S, U⟩ edges ⟨edges.length, S, S, Q⟩ false = r at hr hc h hinf
  rcases h with ⟨hu, y, hyv, hone, hmax⟩ | ⟨hu, hp1, hp2, hpoly, hmax⟩
  · have hdec : ∀ i < n, argmaxN (r.unary.get i) S = y i := by
      intro i hi
      have hlt := argmaxN_lt (r.unary.get i) hS
      have hle := le_argmaxN (r.unary.get i) (hyv i hi)
      rw [hone i hi _ (hyv i hi), hone i hi _ hlt, if_pos rfl] at hle
      by_contra hne
      rw [if_neg hne] at hle
      norm_num at hle
    have hval : Valid n S (fun i => argmaxN (r.unary.get i) S) := fun i _ => argmaxN_lt _ hS
    refine ⟨.discrete ⟨n, fun i => argmaxN (r.unary.get i) S⟩, .inl ⟨_, rfl, rfl, hval⟩, ?_, ?_⟩
    · unfold backend
      rw [dispatch_ad3_relaxed, hinf]
      simp only [hu, Bool.false_and, Bool.false_eq_true, if_false]
      unfold decodeRows
      rw [if_neg (by omega), hr, hc]
      rfl
    · intro v' hv'
      refine (hmax _ _ (isRelaxed_polytope hE hv')).trans (le_of_eq ?_)
      rw [edgeScore_labelling hE hval]
      unfold Spec.score
      congr 1
      · exact sum_congr rfl fun i hi => by simp only; rw [hdec i (mem_range.mp hi)]
      · refine sum_congr rfl fun e he => ?_
        have := hE _ (getD_mem (mem_range.mp he))
        simp only
        rw [hdec _ this.1, hdec _ this.2]
  · have hres : r.unary.ravel.reshape2 n S = .ok ⟨n, S, fun i s => r.unary.ravel.get (i * S + s)⟩ := by
      unfold Vec.reshape2
      rw [if_pos (by simp [Mat.ravel, hr, hc])]
    have e1 : ∀ i < n, ∀ s < S, r.unary.get i s = nodeMarg S (.relaxed
        (Mat.ravel ⟨n, S, fun i s => r.unary.ravel.get (i * S + s)⟩) r.pairwise.ravel) i s := by
      intro i hi s hs
      unfold nodeMarg Mat.ravel
      simp only
      rw [flat_div hs, flat_mod hs, hc, flat_div hs, flat_mod hs]
    have e2 : ∀ e < edges.length, ∀ s < S, ∀ t < S, r.pairwise.get e (s * S + t) = edgeMarg S edges (.relaxed
        (Mat.ravel ⟨n, S, fun i s => r.unary.ravel.get (i * S + s)⟩) r.pairwise.ravel) e s t := by
      intro e he s hs t ht
      have h3 : s * S + t < S ^ 2 := by rw [pow_two]; exact flat_lt hs ht
      unfold edgeMarg Mat.ravel
      simp only
      rw [hp2, show (e * S + s) * S + t = e * S ^ 2 + (s * S + t) by ring, flat_div h3, flat_mod h3]
    refine ⟨.relaxed (Mat.ravel ⟨n, S, fun i s => r.unary.ravel.get (i * S + s)⟩) r.pairwise.ravel,
      .inr ⟨_, _, rfl, rfl, by simp [Mat.ravel, hp1, hp2], LP.polytope_congr hE e1 e2 hpoly⟩, ?_, ?_⟩
    · unfold backend
      rw [dispatch_ad3_relaxed, hinf]
      simp only [hu, Bool.true_and, if_true]
      rw [hres]
      rfl
    · intro v' hv'
      have h3 := hmax _ _ (isRelaxed_polytope hE hv')
      rw [marginalScore_congr e1 e2] at h3
      exact h3

/-- An exact AD3 finds the best labelling, relaxed or not. -/
theorem ad3_exact_solves_edges (P : Packages) {S : ℕ} (hS : 1 ≤ S) {solve solve'} (hP : P.ad3 = some (solve, solve'))
    (hex : Ad3AlwaysExact solve) (relaxed : Bool) : SolvesEdges S (labellings S) (backend P (.name "ad3") relaxed) := by
  intro n edges hn hE _ U Q
  obtain ⟨y, h1, h2, h3⟩ := C60_routes_ad3 P ⟨n, S, U⟩ (.ten ⟨edges.length, S, S, Q⟩) edges Q solve solve' hP
    (denotes_ten S edges.length Q) hS hE (hex _ _ _ hS hE) [("relaxed", .bool relaxed)] (fun p hp => relaxed_only hp)
  rcases C60_energy_partial P ⟨n, S, U⟩ (.ten ⟨edges.length, S, S, Q⟩) edges (.name "ad3") (by decide) [("relaxed", .bool relaxed)] with
    ⟨err, he⟩ | ⟨y', en, he1, he2⟩
  · rw [he] at h1; cases h1
  · rw [he1, Except.ok.injEq] at h1
    injection h1 with h1 h1'
    subst h1
    refine ⟨.discrete y, ⟨y, rfl, h2, h3.1⟩, ?_, ?_⟩
    · unfold backend
      rw [he2]
      rfl
    · rintro v' ⟨y', rfl, -, hv'⟩
      rw [edgeScore_labelling hE hv', edgeScore_labelling hE h3.1]
      exact h3.2 y'.get hv'

theorem relaxes_solves_edges {P : Packages} {S : ℕ} (hS : 1 ≤ S) {method : Method} (h : Relaxes S P method) :
    SolvesEdges S (relaxedOutputs S) (backend P method true) := by
  rcases h with ⟨rfl, h⟩ | ⟨rfl, solve, solve', h1, h2⟩
  · exact lp_solves_edges P hS h
  · exact ad3_solves_edges P hS h1 h2

/-- max-product finds the best label sequence of every chain, also if edges have potentials of their own. -/
theorem chain_solves_edges (opts : MaxProd.Opts) {S : ℕ} (hS : 1 ≤ S) :
    SolvesEdges S (chainOutputs S) (maxProductInfer opts) := by
  rintro n edges hn hE ⟨v0, rfl, -⟩ U P
  obtain ⟨y, hy, hys, hyv, hymax⟩ := inferenceMaxProduct_chain opts ⟨n, S, U⟩ (.ten ⟨(chainEdges n).length, S, S, P⟩)
    ⟨n - 1, S, S, P⟩ (by simp [validateParams, MaxProd.chainEdges_length]) hn hS
  simp only at hy hys hyv hymax
  refine ⟨.discrete y, ⟨rfl, y, rfl, hys, hyv⟩, ?_, ?_⟩
  · unfold maxProductInfer
    rw [hy]
  · rintro v' ⟨-, y', rfl, -, hv'⟩
    rw [edgeScore_labelling hE hv', edgeScore_labelling hE hyv]
    exact hymax y'.get hv'

/-! ### the model as seen by the learners -/

theorem noSymmetry (S F : ℕ) (w : ℕ → ℚ) : RespectsSymmetry S F [] [] w :=
  ⟨fun k hk => absurd hk (by simp), fun k hk => absurd hk (by simp)⟩

theorem edge_feature_congr {m : EdgeFeature.Model} (hmod : checkModel m = .ok ()) {x : EdgeFeature.X} (h : EdgeFits m x) {y z : Labels}
    (hy : IsLabelling x.features.rows m.nStates (.discrete y)) (hz : IsLabelling x.features.rows m.nStates (.discrete z))
    (hag : ∀ i < x.features.rows, y.get i = z.get i) (k : ℕ) (hk : k < EdgeFeature.sizeJointFeature m) :
    edgeFeature m x (.discrete y) k = edgeFeature m x (.discrete z) k := by
  obtain ⟨-, -, hE, hr, -⟩ := id h
  obtain ⟨-, hdis⟩ := checkModel_ok hmod
  have hrow : ∀ e < x.edgeFeatures.rows, ∀ j, edgeRow m.nStates x.edges (.discrete y) e j = edgeRow m.nStates x.edges (.discrete z) e j :=
    fun e he j => edgeMarg_congr hE hag (by rw [← hr]; exact he) _ _
  rw [edgeFeature_output hmod h (.inl hy) k hk, edgeFeature_output hmod h (.inl hz) k hk,
    psi_congr_ef m x _ hdis (fun e he a _ b _ => hrow e he _) k hk, psi_get_ef m x _ _ hdis k hk, psi_get_ef m x _ _ hdis k hk]
  congr 1
  refine sum_congr rfl fun i hi => ?_
  rw [nodeMarg_congr hag (mem_range.mp hi)]

/-- An `EdgeFeatureGraphCRF` without symmetry declarations, with an inference method that finds the best output. -/
theorem edge_learner {backend : Bool → Infer} {cw : Vec} {m : EdgeFeature.Model} (hsym : m.sym = []) (hanti : m.anti = [])
    (hpos : 0 < m.nEdgeFeatures) (hS : 2 ≤ m.nStates) (hc : cw.size = m.nStates) (hcw : ∀ c < m.nStates, 0 < cw.get c)
    {O : ℕ → Edges → Set YVal} (hO : ∀ n edges, ∀ v ∈ O n edges, IsRelaxed n m.nStates edges v)
    (hsolve : SolvesEdges m.nStates O (backend true)) :
    PairwiseLearner (edgeModel backend cw m) m.nStates cw (fun x => x.features.rows) (fun x => x.edges) (EdgeFits m)
      (fun x => O x.features.rows x.edges) (edgeBound m) := by
  have hmod : checkModel m = .ok () := by
    unfold checkModel
    rw [hsym, hanti]
    simp
  have hS1 : 1 ≤ m.nStates := by omega
  exact {
    plain := rfl
    states := hS
    weights := hc
    weights_pos := hcw
    nodes_pos := fun x hx => hx.1
    edges_in := fun x hx => hx.2.2.1
    outputs := fun x _ v hv => hO _ _ v hv
    exact_lossAug := fun x y w hy h0 =>
      edge_exact_at hmod hpos hS1 hc hO true hsolve x y w (by rw [hsym, hanti]; exact noSymmetry _ _ _) hy h0
    lossOf := fun x _ t v ht htv hv => edge_lossOf hS1 hc ht htv hv
    feature := fun x hx y z hy hz hag k hk => edge_feature_congr hmod hx hy hz hag k hk
    bound_nonneg := edgeBound_nonneg m
    range := fun x hx y hy z hz =>
      edge_range (backend := backend) (cw := cw) hmod hO [(x, y)] (edgeBound m x) (by simp) (x, y) (by simp) y ⟨hx, hy⟩ z ⟨hx, hz⟩ }

/-- Every sample has an instance of the right format and one label in range per vertex. -/
def EdgeData (m : EdgeFeature.Model) (data : List (EdgeFeature.X × Labels)) : Prop :=
  ∀ d ∈ data, EdgeFits m d.1 ∧ d.2.size = d.1.features.rows ∧ Valid d.1.features.rows m.nStates d.2.get

/-- **C111 (relaxed inference).** An `EdgeFeatureGraphCRF` without symmetry declarations, on arbitrary graphs, with LP inference or
AD3: the one-slack learner and the Frank-Wolfe learner return weights whose risk, with relaxed labellings as competitors, is close to
the minimum. -/
theorem C111_relaxed (P : Packages) (method : Method) (cw : Vec) (m : EdgeFeature.Model) (hsym : m.sym = []) (hanti : m.anti = [])
    (hpos : 0 < m.nEdgeFeatures) (hS : 2 ≤ m.nStates) (hc : cw.size = m.nStates) (hcw : ∀ c < m.nStates, 0 < cw.get c)
    (hP : Relaxes m.nStates P method) (data : List (EdgeFeature.X × Labels)) (hne : data ≠ []) (hd : EdgeData m data)
    (R : ℚ) (hR : ∀ d ∈ data, edgeBound m d.1 ≤ R) :
    OneSlackTrains (edgeModel (backend P method) cw m) (edgeOutputs m (relaxedOutputs m.nStates)) (labelled data) R
      (totalWeight cw data) ∧
    FrankWolfeTrains (edgeModel (backend P method) cw m) (edgeOutputs m (relaxedOutputs m.nStates)) (labelled data) R
      (totalWeight cw data) :=
  (edge_learner hsym hanti hpos hS hc hcw (fun _ _ _ h => h) (relaxes_solves_edges (by omega) hP)).trains data hne
    (fun d hdm => ⟨(hd d hdm).1, (hd d hdm).2.1, (hd d hdm).2.2, fun _ hv => .inl hv⟩) R hR

/-- **C111 (exact inference).** With an exact AD3, on arbitrary graphs, all four learners return weights whose risk is close to the
minimum; competitors are all labellings. -/
theorem C111_exact (P : Packages) (solve solve') (hP : P.ad3 = some (solve, solve')) (hex : Ad3AlwaysExact solve) (cw : Vec)
    (m : EdgeFeature.Model) (hsym : m.sym = []) (hanti : m.anti = []) (hpos : 0 < m.nEdgeFeatures) (hS : 2 ≤ m.nStates)
    (hc : cw.size = m.nStates) (hcw : ∀ c < m.nStates, 0 < cw.get c) (data : List (EdgeFeature.X × Labels)) (hne : data ≠ [])
    (hd : EdgeData m data) (R : ℚ) (hR : ∀ d ∈ data, edgeBound m d.1 ≤ R) :
    let M := edgeModel (backend P (.name "ad3")) cw m
    let outputs := edgeOutputs m (labellings m.nStates)
    OneSlackTrains M outputs (labelled data) R (totalWeight cw data) ∧
    ((∃ d ∈ data, 1 / 10 ^ 5 ≤ ∑ i ∈ range d.2.size, cw.get (d.2.get i)) →
      NSlackTrains M outputs graphEq (labelled data) R (totalWeight cw data)) ∧
    FrankWolfeTrains M outputs (labelled data) R (totalWeight cw data) ∧ SubgradientTrains M outputs (labelled data) := by
  have h := edge_learner hsym hanti hpos hS hc hcw (fun n edges v hv => .inl hv)
    (ad3_exact_solves_edges P (S := m.nStates) (by omega) hP hex true)
  have hd' : LabelledData m.nStates (fun x : EdgeFeature.X => x.features.rows) (EdgeFits m)
      (fun x => labellings m.nStates x.features.rows x.edges) data :=
    fun d hdm => ⟨(hd d hdm).1, (hd d hdm).2.1, (hd d hdm).2.2, fun _ hv => hv⟩
  obtain ⟨h1, h2⟩ := h.trains data hne hd' R hR
  obtain ⟨h3, h4⟩ := h.trains_discrete (fun x _ v hv => hv) data hne hd' R hR
  exact ⟨h1, h3, h2, h4⟩

/-- **C111 (chains).** With max-product, on chains, all four learners return weights whose risk is close to the minimum. -/
theorem C111_chain (opts : MaxProd.Opts) (cw : Vec)
    (m : EdgeFeature.Model) (hsym : m.sym = []) (hanti : m.anti = []) (hpos : 0 < m.nEdgeFeatures) (hS : 2 ≤ m.nStates)
    (hc : cw.size = m.nStates) (hcw : ∀ c < m.nStates, 0 < cw.get c) (data : List (EdgeFeature.X × Labels)) (hne : data ≠ [])
    (hd : EdgeData m data) (hchain : ∀ d ∈ data, d.1.edges = chainEdges d.1.features.rows)
    (R : ℚ) (hR : ∀ d ∈ data, edgeBound m d.1 ≤ R) :
    let M := edgeModel (fun _ => maxProductInfer opts) cw m
    let outputs := edgeOutputs m (chainOutputs m.nStates)
    OneSlackTrains M outputs (labelled data) R (totalWeight cw data) ∧
    ((∃ d ∈ data, 1 / 10 ^ 5 ≤ ∑ i ∈ range d.2.size, cw.get (d.2.get i)) →
      NSlackTrains M outputs graphEq (labelled data) R (totalWeight cw data)) ∧
    FrankWolfeTrains M outputs (labelled data) R (totalWeight cw data) ∧ SubgradientTrains M outputs (labelled data) := by
  have h := edge_learner (backend := fun _ => maxProductInfer opts) hsym hanti hpos hS hc hcw (fun n edges v hv => .inl hv.2)
    (chain_solves_edges opts (S := m.nStates) (by omega))
  have hd' : LabelledData m.nStates (fun x : EdgeFeature.X => x.features.rows) (EdgeFits m)
      (fun x => chainOutputs m.nStates x.features.rows x.edges) data :=
    fun d hdm => ⟨(hd d hdm).1, (hd d hdm).2.1, (hd d hdm).2.2, fun _ hv => ⟨hchain d hdm, hv⟩⟩
  obtain ⟨h1, h2⟩ := h.trains data hne hd' R hR
  obtain ⟨h3, h4⟩ := h.trains_discrete (fun x _ v hv => hv.2) data hne hd' R hR
  exact ⟨h1, h3, h2, h4⟩

/-! ### the hypotheses can be met -/

/-- two states, one feature, two edge features. -/
def efModel : EdgeFeature.Model := ⟨2, 1, 2, [], []⟩

/-- a triangle. -/
def efData : List (EdgeFeature.X × Labels) :=
  [(⟨⟨3, 1, fun i _ => i⟩, [(0, 1), (1, 2), (0, 2)], ⟨3, 2, fun e k => e + k⟩⟩, ⟨3, fun i => if i = 2 then 1 else 0⟩)]

/-- a chain. -/
def efChain : List (EdgeFeature.X × Labels) :=
  [(⟨⟨3, 1, fun i _ => i⟩, [(0, 1), (1, 2)], ⟨2, 2, fun e k => e + k⟩⟩, ⟨3, fun i => if i = 2 then 1 else 0⟩)]

theorem ef_data : EdgeData efModel efData := by
  intro d hd
  rw [efData, List.mem_singleton] at hd
  subst hd
  refine ⟨⟨by decide, rfl, ?_, rfl, rfl⟩, rfl, ?_⟩
  · unfold EdgesIn; decide
  · unfold Valid; decide

theorem ef_chain : EdgeData efModel efChain := by
  intro d hd
  rw [efChain, List.mem_singleton] at hd
  subst hd
  refine ⟨⟨by decide, rfl, ?_, rfl, rfl⟩, rfl, ?_⟩
  · unfold EdgesIn; decide
  · unfold Valid; decide

theorem ef_bound : ∀ d ∈ efData, edgeBound efModel d.1 ≤ 198 := by
  intro d hd
  rw [efData, List.mem_singleton] at hd
  subst hd
  decide +kernel

theorem ef_chain_bound : ∀ d ∈ efChain, edgeBound efModel d.1 ≤ 58 := by
  intro d hd
  rw [efChain, List.mem_singleton] at hd
  subst hd
  decide +kernel

example : ∃ o' a, OneSlack.fit (edgeModel (backend idealPackages (.name "lp")) ⟨2, fun _ => 1⟩ efModel) QP.ideal
    (fun _ _ => .error .typeError) none (fun _ => none)
    ⟨⟨10000, 1, false, none, false, 0, 1 / 2, 0, 1 / 10 ^ 5, 0, .auto⟩, none, []⟩ (labelled efData) .no = .ok o' ∧
    o'.attrs = some a := by
  obtain ⟨h, -⟩ := C111_relaxed idealPackages (.name "lp") ⟨2, fun _ => 1⟩ efModel rfl rfl (by decide) (by decide) rfl
    (by decide +kernel) (idealPackages_relaxes _ (by decide)) efData (by decide) ef_data 198 ef_bound
  obtain ⟨o', a, h1, h2, -⟩ := h QP.ideal QP.ideal_exact.1 QP.ideal_exact.2 (fun _ _ => .error .typeError)
    ⟨⟨10000, 1, false, none, false, 0, 1 / 2, 0, 1 / 10 ^ 5, 0, .auto⟩, none, []⟩ (.inl rfl) (by norm_num) (by norm_num)
    (by norm_num) rfl (by norm_num) rfl rfl (by norm_num) (1 / 1584) (by norm_num)
    (by decide +kernel) (by decide +kernel) (by decide +kernel)
  exact ⟨o', a, h1, h2⟩

example : ∃ P : Packages, SubgradientTrains (edgeModel (backend P (.name "ad3")) ⟨2, fun _ => 1⟩ efModel)
    (edgeOutputs efModel (labellings 2)) (labelled efData) := by
  obtain ⟨solve, hsolve⟩ := exact_ad3_exists
  exact ⟨_, (C111_exact ⟨none, LP.ideal, some (solve, fun U edges _ _ r => solve U edges ⟨0, 0, 0, fun _ _ _ => 0⟩ r), none⟩
    solve _ rfl hsolve ⟨2, fun _ => 1⟩ efModel rfl rfl (by decide) (by decide) rfl (by decide +kernel) efData (by decide) ef_data
    198 ef_bound).2.2.2⟩

example : ∃ o' b a, NSlack.fit (edgeModel (fun _ => maxProductInfer {}) ⟨2, fun _ => 1⟩ efModel) QP.ideal graphEq none
    (fun _ _ => none) ⟨⟨10000, 1, true, none, false, 0, 100, 1 / 1000, 1 / 10 ^ 5, 0⟩, none, []⟩ (labelled efChain) none =
      .ok (o', .stopped b) ∧ o'.attrs = some a := by
  obtain ⟨-, h, -, -⟩ := C111_chain {} ⟨2, fun _ => 1⟩ efModel rfl rfl (by decide) (by decide) rfl (by decide +kernel) efChain
    (by decide) ef_chain (by decide) 58 ef_chain_bound
  obtain ⟨o', b, a, h1, h2, -⟩ := h (by decide +kernel) QP.ideal QP.ideal_exact.1 QP.ideal_exact.2
    ⟨⟨10000, 1, true, none, false, 0, 100, 1 / 1000, 1 / 10 ^ 5, 0⟩, none, []⟩ (by norm_num) (by norm_num) rfl rfl
    (.inr (by decide)) rfl (by decide) (1 / 2) (by norm_num) (by norm_num) (by norm_num) (by decide +kernel)
  exact ⟨o', b, a, h1, h2⟩

end Verif.Props
