import Verif.Props.C77
import Verif.Lemmas.GraphOutputs
import Mathlib.Data.Fintype.Pi
import Mathlib.Data.Fintype.Lattice

/-!
# C60: opengm; CRF inference with all its arguments through the dispatcher
-/

namespace Verif.Props

open Finset Verif.Common Verif.Dispatch Verif.Spec

/-! ### exact solvers exist -/

/-- every finite problem has a labelling of maximal score. -/
theorem isMAP_exists (n S : ℕ) (hS : 1 ≤ S) (edges : Edges) (hE : EdgesIn n edges) (U : ℕ → ℕ → ℚ)
    (Q : ℕ → ℕ → ℕ → ℚ) : ∃ y, IsMAP n S edges U Q y := by
  let ext : (Fin n → Fin S) → ℕ → ℕ := fun z i => if h : i < n then (z ⟨i, h⟩).val else 0
  haveI : Nonempty (Fin S) := ⟨⟨0, hS⟩⟩
  obtain ⟨z, hz⟩ := Finite.exists_max fun z : Fin n → Fin S => Spec.score n edges U Q (ext z)
  refine ⟨ext z, fun i hi => ?_, fun y' hy' => ?_⟩
  · simp only [ext, dif_pos hi]
    exact (z ⟨i, hi⟩).isLt
  · have h1 := hz fun i => ⟨y' i.val, hy' i.val i.isLt⟩
    refine le_trans (le_of_eq ?_) h1
    have h2 : ∀ i < n, ext (fun i => ⟨y' i.val, hy' i.val i.isLt⟩) i = y' i := by
      intro i hi
      simp only [ext, dif_pos hi]
    unfold Spec.score
    congr 1
    · exact sum_congr rfl fun i hi => by rw [h2 i (mem_range.mp hi)]
    · refine sum_congr rfl fun e he => ?_
      have := hE _ (edge_mem (mem_range.mp he))
      simp only [edge] at this
      rw [h2 _ this.1, h2 _ this.2]

/-! ### opengm -/

/-- opengm finds, with algorithm `alg`, a labelling of minimal energy of a problem whose potentials are given as
costs, and evaluates energies as sums of costs. -/
def OgmExact (solve : Mat → Ten → Edges → String → KVal → Labels) (evaluate : Mat → Ten → Edges → Labels → ℚ)
    (alg : String) : Prop :=
  ∀ (u : Mat) (p : Ten) (edges : Edges) (init : KVal), 1 ≤ u.cols → EdgesIn u.rows edges →
    p.d0 = edges.length → p.d1 = u.cols → p.d2 = u.cols →
    (solve u p edges alg init).size = u.rows ∧ Valid u.rows u.cols (solve u p edges alg init).get ∧
    (∀ y', Valid u.rows u.cols y' → Spec.score u.rows edges u.get p.get (solve u p edges alg init).get ≤
      Spec.score u.rows edges u.get p.get y') ∧
    evaluate u p edges (solve u p edges alg init) =
      Spec.score u.rows edges u.get p.get (solve u p edges alg init).get

theorem score_neg (n : ℕ) (edges : Edges) (U : ℕ → ℕ → ℚ) (Q : ℕ → ℕ → ℕ → ℚ) (y : ℕ → ℕ) :
    Spec.score n edges (fun i s => -U i s) (fun e a b => -Q e a b) y = -Spec.score n edges U Q y := by
  unfold Spec.score
  rw [sum_neg_distrib, sum_neg_distrib]
  ring

theorem bindArgs_ogm (kwargs : KW) (hk : ∀ p ∈ kwargs, p.1 ∉ posArgs ∧ p.1 ≠ "return_energy") (re : Bool) :
    bindArgs posArgs ["return_energy", "alg", "init", "reserveNumFactorsPerVariable"] true
      [("return_energy", .bool re)] kwargs = .ok (("return_energy", .bool re) :: kwargs) := by
  have h1 : (kwargs.any fun p => posArgs.contains p.1) = false := by
    rw [List.any_eq_false]
    intro p hp
    simpa using (hk p hp).1
  have h2 : (kwargs.any fun p => (List.map Prod.fst [("return_energy", KVal.bool re)]).contains p.1) = false := by
    rw [List.any_eq_false]
    intro p hp
    simpa using (hk p hp).2
  unfold bindArgs
  rw [h1, h2]
  rfl

theorem dispatch_ogm (P : Packages) (U : Mat) (pw : Pairwise) (edges : Edges) (re : Bool) (kwargs : KW)
    (hk : ∀ p ∈ kwargs, p.1 ∉ posArgs ∧ p.1 ≠ "return_energy") :
    dispatch P U pw edges (.name "ogm") re kwargs =
      inferenceOgm P U pw edges (("return_energy", .bool re) :: kwargs) := by
  change branch P U pw edges "ogm" re kwargs = _
  unfold branch
  rw [if_neg (by decide), if_neg (by decide), if_neg (by decide), if_neg (by decide), if_pos rfl,
    bindArgs_ogm kwargs hk]
  rfl

/-- The algorithms listed in the documentation of `inference_ogm`, and its default. -/
def requestedAlg (kwargs : KW) : Option KVal := some ((kwargs.lookup "alg").getD (.str "dd"))

/-- **C60** (`ogm`): if the package minimises energies exactly with the requested algorithm (dual decomposition by
default), the method returns a labelling of maximal score, and the energy is minus the score. Any other options may
be given. -/
theorem C60_routes_ogm (P : Packages) (U : Mat) (pw : Pairwise) (edges : Edges) (Q : ℕ → ℕ → ℕ → ℚ)
    (solve evaluate) (hP : P.ogm = some (solve, evaluate)) (hQ : Denotes U.cols edges.length pw Q)
    (hS : 1 ≤ U.cols) (hE : EdgesIn U.rows edges) (kwargs : KW)
    (hk : ∀ p ∈ kwargs, p.1 ∉ posArgs ∧ p.1 ≠ "return_energy") (alg : String)
    (halg : requestedAlg kwargs = some (.str alg))
    (hknown : alg ∈ ["bp", "dd", "trws", "trw", "gibbs", "lf", "icm", "dyn", "fm", "gc", "loc", "mqpbo", "alphaexp"])
    (hex : OgmExact solve evaluate alg) :
    ∃ y : Labels, dispatch P U pw edges (.name "ogm") true kwargs =
        .ok (.pair (.discrete y) (-Spec.score U.rows edges U.get Q y.get)) ∧
      dispatch P U pw edges (.name "ogm") false kwargs = .ok (.plain (.discrete y)) ∧
      y.size = U.rows ∧ IsMAP U.rows U.cols edges U.get Q y.get := by
  have hval : ∀ re, KW.val (("return_energy", .bool re) :: kwargs) "alg" = kwargs.lookup "alg" := fun re => by
    unfold KW.val
    rw [List.lookup_cons]
    rfl
  have halg' : ogmAlg (kwargs.lookup "alg") = .ok alg := by
    unfold requestedAlg at halg
    simp only [Option.some.injEq] at halg
    cases hl : kwargs.lookup "alg" with
    | none =>
      rw [hl] at halg
      simp only [Option.getD_none, KVal.str.injEq] at halg
      rw [← halg]
      rfl
    | some v =>
      rw [hl] at halg
      simp only [Option.getD_some] at halg
      rw [halg]
      change (if ogmAlgs.contains alg then _ else _) = _
      rw [if_pos (show ogmAlgs.contains alg = true from List.contains_iff_mem.mpr hknown)]
  have hinit : ∀ re, KW.val (("return_energy", .bool re) :: kwargs) "init" = kwargs.lookup "init" := fun re => by
    unfold KW.val
    rw [List.lookup_cons]
    rfl
  obtain ⟨h1, h2, h3, h4⟩ := hex ⟨U.rows, U.cols, fun i s => -U.get i s⟩
    ⟨edges.length, U.cols, U.cols, fun e a b => -Q e a b⟩ edges ((kwargs.lookup "init").getD .none) hS hE rfl rfl rfl
  have key : ∀ re, dispatch P U pw edges (.name "ogm") re kwargs = .ok (Res.mk re
      (.discrete (solve ⟨U.rows, U.cols, fun i s => -U.get i s⟩
        ⟨edges.length, U.cols, U.cols, fun e a b => -Q e a b⟩ edges alg ((kwargs.lookup "init").getD .none)))
      (evaluate ⟨U.rows, U.cols, fun i s => -U.get i s⟩
        ⟨edges.length, U.cols, U.cols, fun e a b => -Q e a b⟩ edges
        (solve ⟨U.rows, U.cols, fun i s => -U.get i s⟩
        ⟨edges.length, U.cols, U.cols, fun e a b => -Q e a b⟩ edges alg ((kwargs.lookup "init").getD .none)))) := by
    intro re
    rw [dispatch_ogm P U pw edges re kwargs hk]
    unfold inferenceOgm
    rw [hP]
    simp only
    rw [validateParams_denotes hQ]
    simp only
    rw [hval, halg', hinit]
    simp only
    cases re <;> rfl
  simp only [score_neg, neg_le_neg_iff] at h3 h4
  refine ⟨_, ?_, key false, h1, h2, h3⟩
  rw [key true, h4]
  rfl

/-- **C60** (`ogm`, unknown algorithm): any other value of `alg` ends in `UnboundLocalError` instead of a message. -/
theorem C60_ogm_unknown_alg (P : Packages) (U : Mat) (pw : Pairwise) (edges : Edges) (Q : ℕ → ℕ → ℕ → ℚ)
    (s) (hP : P.ogm = some s) (hQ : Denotes U.cols edges.length pw Q) (kwargs : KW) (re : Bool)
    (hk : ∀ p ∈ kwargs, p.1 ∉ posArgs ∧ p.1 ≠ "return_energy")
    (halg : ∀ alg ∈ ["bp", "dd", "trws", "trw", "gibbs", "lf", "icm", "dyn", "fm", "gc", "loc", "mqpbo", "alphaexp"],
      requestedAlg kwargs ≠ some (.str alg)) :
    dispatch P U pw edges (.name "ogm") re kwargs = .error .unboundLocalError := by
  rw [dispatch_ogm P U pw edges re kwargs hk]
  unfold inferenceOgm
  rw [hP]
  simp only
  rw [validateParams_denotes hQ]
  simp only
  have hval : KW.val (("return_energy", .bool re) :: kwargs) "alg" = kwargs.lookup "alg" := by
    unfold KW.val
    rw [List.lookup_cons]
    rfl
  have : ogmAlg (KW.val (("return_energy", .bool re) :: kwargs) "alg") = .error .unboundLocalError := by
    rw [hval]
    unfold requestedAlg at halg
    cases hl : kwargs.lookup "alg" with
    | none =>
      rw [hl] at halg
      exact absurd rfl (halg "dd" (by decide))
    | some v =>
      rw [hl] at halg
      simp only [Option.getD_some] at halg
      cases v with
      | str s =>
        change (if ogmAlgs.contains s then _ else _) = _
        rw [if_neg]
        intro h
        exact halg s (List.contains_iff_mem.mp h) rfl
      | none => rfl
      | bool b => rfl
      | num q => rfl
      | obj t i => rfl
  rw [this]

/-- An exact opengm exists. -/
example : ∃ solve evaluate, ∀ alg, OgmExact solve evaluate alg := by
  classical
  have h : ∀ (u : Mat) (p : Ten) (edges : Edges), ∃ y : ℕ → ℕ, 1 ≤ u.cols → EdgesIn u.rows edges →
      IsMAP u.rows u.cols edges (fun i s => -u.get i s) (fun e a b => -p.get e a b) y := by
    intro u p edges
    by_cases h : 1 ≤ u.cols ∧ EdgesIn u.rows edges
    · obtain ⟨y, hy⟩ := isMAP_exists u.rows u.cols h.1 edges h.2 (fun i s => -u.get i s) (fun e a b => -p.get e a b)
      exact ⟨y, fun _ _ => hy⟩
    · exact ⟨fun _ => 0, fun h1 h2 => absurd ⟨h1, h2⟩ h⟩
  choose f hf using h
  refine ⟨fun u p edges _ _ => ⟨u.rows, f u p edges⟩, fun u p edges y => Spec.score u.rows edges u.get p.get y.get,
    fun alg u p edges init h1 h2 _ _ _ => ?_⟩
  obtain ⟨h3, h4⟩ := hf u p edges h1 h2
  refine ⟨rfl, h3, fun y' hy' => ?_, rfl⟩
  have := h4 y' hy'
  rw [score_neg, score_neg] at this
  exact neg_le_neg_iff.mp this

/-! ### CRF inference with AD3 -/

/-- `ad3.general_graph` solves every problem exactly. -/
def Ad3AlwaysExact (solve : Mat → Edges → Ten → Bool → AD3Result) : Prop :=
  ∀ U edges Q, 1 ≤ U.cols → EdgesIn U.rows edges → Ad3Exact solve U edges Q

theorem relaxed_only {p : String × KVal} {relaxed : KVal} (hp : p ∈ [("relaxed", relaxed)]) :
    p.1 ∈ ["relaxed", "verbose", "branch_and_bound", "inference_exception"] := by
  rw [List.mem_singleton] at hp
  rw [hp]
  exact List.mem_cons_self

theorem denotes_mat (S E : ℕ) (g : ℕ → ℕ → ℚ) : Denotes S E (.mat ⟨S, S, g⟩) (fun _ => g) :=
  ⟨rfl, rfl, fun _ _ _ => rfl⟩

/-- **C60** (inference of a `GraphCRF` with `inference_method="ad3"`): if AD3 is exact, then for all features,
graphs and weights, whatever `relaxed` is and without constraints, `inference` with `return_energy` returns a
labelling that maximises `⟨w, joint_feature(x, y)⟩`, with minus this maximum as energy; without `return_energy` it
returns the labelling only. -/
theorem C60_crf_ad3 (P : Packages) (solve solve') (hP : P.ad3 = some (solve, solve')) (hex : Ad3AlwaysExact solve)
    (m : GraphCRF.Model) (x : GraphCRF.X) (w : Vec) (hS : 1 ≤ m.nStates) (hF : x.features.cols = m.nFeatures)
    (hE : EdgesIn x.features.rows x.edges) (hw : w.size = GraphCRF.sizeJointFeature m) (relaxed constraints : KVal)
    (hc : constraints.truthy = false) :
    ∃ (y : Labels) (ψ : Vec), crfInference P (.name "ad3") m x w relaxed true constraints =
        .ok (.pair (.discrete y) (-dot w.size w.get ψ.get)) ∧
      crfInference P (.name "ad3") m x w relaxed false constraints = .ok (.plain (.discrete y)) ∧
      y.size = x.features.rows ∧ Valid x.features.rows m.nStates y.get ∧
      GraphCRF.jointFeature m x (.discrete y) = .ok ψ ∧
      ∀ y' : Labels, y'.size = x.features.rows → Valid x.features.rows m.nStates y'.get →
        ∃ ψ', GraphCRF.jointFeature m x (.discrete y') = .ok ψ' ∧
          dot w.size w.get ψ'.get ≤ dot w.size w.get ψ.get := by
  obtain ⟨y, h1, h2, h3, h4⟩ := C60_routes_ad3 P ⟨x.features.rows, m.nStates, GraphCRF.UN m x.features w.get⟩
    (.mat ⟨m.nStates, m.nStates, GraphCRF.PW m w.get⟩) x.edges _ solve solve' hP (denotes_mat _ _ _) hS hE
    (hex _ _ _ hS hE) [("relaxed", relaxed)] (fun p hp => relaxed_only hp)
  have key : ∀ re, crfInference P (.name "ad3") m x w relaxed re constraints =
      dispatch P ⟨x.features.rows, m.nStates, GraphCRF.UN m x.features w.get⟩
        (.mat ⟨m.nStates, m.nStates, GraphCRF.PW m w.get⟩) x.edges (.name "ad3") re [("relaxed", relaxed)] := by
    intro re
    unfold crfInference inferenceKW
    rw [GraphCRF.checkSizeW_ok hw, GraphCRF.unary_ok hF hw, GraphCRF.pairwise_ok hF hw, hc]
    rfl
  have hψ : ∀ y' : Labels, y'.size = x.features.rows → Valid x.features.rows m.nStates y'.get →
      ∃ ψ', GraphCRF.jointFeature m x (.discrete y') = .ok ψ' ∧ dot w.size w.get ψ'.get =
        Spec.score x.features.rows x.edges (GraphCRF.UN m x.features w.get) (fun _ => GraphCRF.PW m w.get) y'.get := by
    intro y' ha hb
    have hr : IsRelaxed x.features.rows m.nStates x.edges (.discrete y') := .inl ⟨y', rfl, ha, hb⟩
    refine ⟨_, jointFeature_output hF hE hS hr, ?_⟩
    rw [← outputScore_labelling hE hb, ← value_output hF hE hS hr, hw]
    unfold Learner.graphFeature
    rw [jointFeature_output hF hE hS hr]
    rfl
  obtain ⟨ψ, hψ1, hψ2⟩ := hψ y h2 h3
  refine ⟨y, ψ, ?_, ?_, h2, h3, hψ1, fun y' ha hb => ?_⟩
  · rw [key, h1, hψ2]
  · rw [key]
    rcases C60_energy_partial P ⟨x.features.rows, m.nStates, GraphCRF.UN m x.features w.get⟩
      (.mat ⟨m.nStates, m.nStates, GraphCRF.PW m w.get⟩) x.edges (.name "ad3") (by decide) [("relaxed", relaxed)] with
      ⟨err, he⟩ | ⟨z, e, he, he'⟩
    · rw [he] at h1; cases h1
    · rw [he] at h1
      simp only [Except.ok.injEq, Res.pair.injEq] at h1
      rw [he', h1.1]
  · obtain ⟨ψ', ha', hb'⟩ := hψ y' ha hb
    refine ⟨ψ', ha', ?_⟩
    rw [hb', hψ2]
    exact h4 y'.get hb

/-- **C60** (loss-augmented inference of a `GraphCRF` with `inference_method="ad3"`): if AD3 is exact, the result
maximises `⟨w, joint_feature(x, ŷ)⟩ + loss(y, ŷ)`, and the energy is minus this maximum. -/
theorem C60_crf_ad3_augmented (P : Packages) (solve solve') (hP : P.ad3 = some (solve, solve'))
    (hex : Ad3AlwaysExact solve) (cw : Vec) (m : GraphCRF.Model) (x : GraphCRF.X) (w : Vec) (hS : 1 ≤ m.nStates)
    (hF : x.features.cols = m.nFeatures) (hE : EdgesIn x.features.rows x.edges)
    (hw : w.size = GraphCRF.sizeJointFeature m) (hc : cw.size = m.nStates) (relaxed : KVal) (y : Labels)
    (hy : y.size = x.features.rows) (hyv : Valid x.features.rows m.nStates y.get) :
    ∃ (z : Labels) (ψ : Vec) (l : ℚ), crfLossAugmented P (.name "ad3") cw m x y w relaxed true =
        .ok (.pair (.discrete z) (-(dot w.size w.get ψ.get + l))) ∧
      z.size = x.features.rows ∧ Valid x.features.rows m.nStates z.get ∧
      GraphCRF.jointFeature m x (.discrete z) = .ok ψ ∧ Loss.loss (some cw) y z = .ok l ∧
      ∀ z' : Labels, z'.size = x.features.rows → Valid x.features.rows m.nStates z'.get →
        ∃ ψ' l', GraphCRF.jointFeature m x (.discrete z') = .ok ψ' ∧ Loss.loss (some cw) y z' = .ok l' ∧
          dot w.size w.get ψ'.get + l' ≤ dot w.size w.get ψ.get + l := by
  have hcw : ∀ i < x.features.rows, y.get i < cw.size := by rw [hc]; exact hyv
  obtain ⟨z, h1, h2, h3, h4⟩ := C60_routes_ad3 P ⟨x.features.rows, m.nStates, fun i s =>
      if s = y.get i then GraphCRF.UN m x.features w.get i s else
        GraphCRF.UN m x.features w.get i s + cw.get (y.get i)⟩
    (.mat ⟨m.nStates, m.nStates, GraphCRF.PW m w.get⟩) x.edges _ solve solve' hP (denotes_mat _ _ _) hS hE
    (hex _ _ _ hS hE) [("relaxed", relaxed)] (fun p hp => relaxed_only hp)
  have key : crfLossAugmented P (.name "ad3") cw m x y w relaxed true =
      dispatch P ⟨x.features.rows, m.nStates, fun i s =>
      if s = y.get i then GraphCRF.UN m x.features w.get i s else
        GraphCRF.UN m x.features w.get i s + cw.get (y.get i)⟩
        (.mat ⟨m.nStates, m.nStates, GraphCRF.PW m w.get⟩) x.edges (.name "ad3") true [("relaxed", relaxed)] := by
    unfold crfLossAugmented
    rw [GraphCRF.checkSizeW_ok hw, GraphCRF.unary_ok hF hw, GraphCRF.pairwise_ok hF hw]
    simp only [bind, Except.bind]
    rw [augment_ok (U := ⟨x.features.rows, m.nStates, GraphCRF.UN m x.features w.get⟩) hy hcw]
  have hψ : ∀ z' : Labels, z'.size = x.features.rows → Valid x.features.rows m.nStates z'.get →
      ∃ ψ' l', GraphCRF.jointFeature m x (.discrete z') = .ok ψ' ∧ Loss.loss (some cw) y z' = .ok l' ∧
        dot w.size w.get ψ'.get + l' = Spec.score x.features.rows x.edges (fun i s =>
      if s = y.get i then GraphCRF.UN m x.features w.get i s else
        GraphCRF.UN m x.features w.get i s + cw.get (y.get i)) (fun _ => GraphCRF.PW m w.get) z'.get := by
    intro z' ha hb
    have hr : IsRelaxed x.features.rows m.nStates x.edges (.discrete z') := .inl ⟨z', rfl, ha, hb⟩
    refine ⟨_, _, jointFeature_output hF hE hS hr, loss_some_ok hy ha hcw, ?_⟩
    rw [← outputScore_labelling hE hb, outputScore_augment _ _ _ _ hyv (isRelaxed_polytope hE hr),
      ← value_output hF hE hS hr, hw]
    unfold Learner.graphFeature
    rw [jointFeature_output hF hE hS hr]
    have := lossOf_output (backend := fun _ _ _ _ => .error .valueError) hS hc hy hyv hr
    rw [← this]
    change _ = _ + Learner.okD 0 (Loss.loss (some cw) y z')
    rw [loss_some_ok hy ha hcw]
    rfl
  obtain ⟨ψ, l, hψ1, hψ2, hψ3⟩ := hψ z h2 h3
  refine ⟨z, ψ, l, ?_, h2, h3, hψ1, hψ2, fun z' ha hb => ?_⟩
  · rw [key, h1, hψ3]
  · obtain ⟨ψ', l', ha', hb', hc'⟩ := hψ z' ha hb
    refine ⟨ψ', l', ha', hb', ?_⟩
    rw [hc', hψ3]
    exact h4 z'.get hb

/-- An exact AD3 exists. -/
theorem exact_ad3_exists : ∃ solve, Ad3AlwaysExact solve := by
  classical
  have h : ∀ (U : Mat) (edges : Edges) (Q : ℕ → ℕ → ℕ → ℚ), ∃ y : ℕ → ℕ, 1 ≤ U.cols → EdgesIn U.rows edges →
      IsMAP U.rows U.cols edges U.get Q y := by
    intro U edges Q
    by_cases h : 1 ≤ U.cols ∧ EdgesIn U.rows edges
    · obtain ⟨y, hy⟩ := isMAP_exists U.rows U.cols h.1 edges h.2 U.get Q
      exact ⟨y, fun _ _ => hy⟩
    · exact ⟨fun _ => 0, fun h1 h2 => absurd ⟨h1, h2⟩ h⟩
  choose f hf using h
  refine ⟨fun U edges t _ => ⟨⟨U.rows, U.cols, fun i s => if s = f U edges t.get i then 1 else 0⟩, ⟨0, 0, fun _ _ => 0⟩,
    Spec.score U.rows edges U.get t.get (f U edges t.get), false⟩, fun U edges Q h1 h2 b => ?_⟩
  exact ⟨f U edges Q, hf U edges Q h1 h2, rfl, rfl, rfl, fun _ _ _ _ => rfl, rfl⟩

end Verif.Props
