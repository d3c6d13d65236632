import Verif.Props.C60
import Mathlib.Algebra.Order.Round
import Mathlib.Data.Rat.Floor

/-!
# C60: routing to the solvers; C77: installed methods; C78: constraints; C79: discretisation for `qpbo`
-/

namespace Verif.Props

open Finset Verif.Common Verif.Dispatch Verif.Spec

/-! ### single branches -/

theorem dispatch_lp (P : Packages) (U : Mat) (pw : Pairwise) (edges : Edges) (re r : Bool) :
    dispatch P U pw edges (.name "lp") re [("relaxed", .bool r)] =
      match LP.inferenceLP P.lp U pw edges r with
      | .error err => .error err
      | .ok (y, energy) => .ok (Res.mk re y energy) := by
  rfl

theorem dispatch_max_product (P : Packages) (U : Mat) (pw : Pairwise) (edges : Edges) (re : Bool) (v : KVal) :
    dispatch P U pw edges (.name "max-product") re [("relaxed", v)] =
      plainOf (MaxProd.maxProductInfer {} U pw edges) := by
  rfl

theorem dispatch_unary (P : Packages) (U : Mat) (pw : Pairwise) (edges : Edges) (re : Bool) (kwargs : KW)
    (hk : ∀ p ∈ kwargs, p.1 ∉ posArgs) :
    dispatch P U pw edges (.name "unary") re kwargs = plainOf ((inferenceUnaries U pw edges).map .discrete) := by
  have h1 : (kwargs.any fun p => posArgs.contains p.1) = false := by
    rw [List.any_eq_false]
    intro p hp
    simpa using hk p hp
  have h2 : (kwargs.any fun p => (List.map Prod.fst ([] : KW)).contains p.1) = false := by
    rw [List.any_eq_false]
    intro p hp
    simp
  have hb : bindArgs posArgs ["verbose"] true [] kwargs = .ok ([] ++ kwargs) := by
    unfold bindArgs
    rw [h1, h2]
    rfl
  change branch P U pw edges "unary" re kwargs = _
  unfold branch
  rw [if_neg (by decide), if_neg (by decide), if_neg (by decide), if_neg (by decide), if_neg (by decide),
    if_pos rfl, hb]
  rfl

/-- **C60** (`lp`): the answer of `lp` with `return_energy` bounds the score of every labelling. -/
theorem C60_routes_lp (P : Packages) (U : Mat) (pw : Pairwise) (edges : Edges) (Q : ℕ → ℕ → ℕ → ℚ)
    (hQ : Denotes U.cols edges.length pw Q) (hn : 1 ≤ U.rows) (hS : 1 ≤ U.cols) (hE : EdgesIn U.rows edges)
    (hopt : SolvesExactly P.lp U edges Q) (relaxed : Bool) :
    ∃ y energy, dispatch P U pw edges (.name "lp") true [("relaxed", .bool relaxed)] = .ok (.pair y energy) ∧
      ∀ y', Valid U.rows U.cols y' → score U.rows edges U.get Q y' ≤ -energy := by
  obtain ⟨y, energy, h1, h2⟩ := C07_upper_bound P.lp U pw edges Q hQ hn hS hE hopt relaxed
  refine ⟨y, energy, ?_, h2⟩
  rw [dispatch_lp, h1]
  rfl

/-- **C60** (`unary`): `unary` accepts and ignores all other keyword arguments and returns a labelling that
maximises the sum of the unary potentials. -/
theorem C60_routes_unary (P : Packages) (U : Mat) (pw : Pairwise) (edges : Edges) (Q : ℕ → ℕ → ℕ → ℚ)
    (hQ : Denotes U.cols edges.length pw Q) (hS : 1 ≤ U.cols) (re : Bool) (kwargs : KW)
    (hk : ∀ p ∈ kwargs, p.1 ∉ posArgs) :
    ∃ y : Labels, dispatch P U pw edges (.name "unary") re kwargs = .ok (.plain (.discrete y)) ∧
      y.size = U.rows ∧ Valid U.rows U.cols y.get ∧
      ∀ y', Valid U.rows U.cols y' →
        ∑ i ∈ range U.rows, U.get i (y' i) ≤ ∑ i ∈ range U.rows, U.get i (y.get i) := by
  obtain ⟨y, h1, h2, h3, h4⟩ := C10_unary_optimal U hS
  refine ⟨y, ?_, h1, h2, h3⟩
  rw [dispatch_unary P U pw edges re kwargs hk, h4 pw edges Q hQ]
  rfl

/-- **C60** (`max-product`): on a chain the labelling has maximal score. -/
theorem C60_routes_max_product (P : Packages) (U : Mat) (pw : Pairwise) (Q : ℕ → ℕ → ℕ → ℚ)
    (hQ : Denotes U.cols (chainEdges U.rows).length pw Q) (hn : 1 ≤ U.rows) (hS : 1 ≤ U.cols) (re : Bool)
    (relaxed : KVal) :
    ∃ y : Labels, dispatch P U pw (chainEdges U.rows) (.name "max-product") re [("relaxed", relaxed)] =
        .ok (.plain (.discrete y)) ∧ y.size = U.rows ∧ IsMAP U.rows U.cols (chainEdges U.rows) U.get Q y.get := by
  have hv := validateParams_denotes hQ
  obtain ⟨y, h1, h2, h3, h4⟩ := MaxProd.inferenceMaxProduct_chain {} U pw _ hv hn hS
  refine ⟨y, ?_, h2, h3, h4⟩
  rw [dispatch_max_product]
  unfold MaxProd.maxProductInfer
  rw [h1]
  rfl

/-- `ad3.general_graph` solves a problem exactly: the marginals are those of a labelling of maximal score, and
the value is that score. -/
def Ad3Exact (solve : Mat → Edges → Ten → Bool → AD3Result) (U : Mat) (edges : Edges) (Q : ℕ → ℕ → ℕ → ℚ) :
    Prop :=
  ∀ b, ∃ y, IsMAP U.rows U.cols edges U.get Q y ∧
    let r := solve U edges ⟨edges.length, U.cols, U.cols, Q⟩ b
    r.unary.rows = U.rows ∧ r.unary.cols = U.cols ∧ r.unsolved = false ∧
    (∀ i < U.rows, ∀ s < U.cols, r.unary.get i s = if s = y i then 1 else 0) ∧
    r.energy = score U.rows edges U.get Q y

/-- **C60** (`ad3`): if the package finds the exact solution, so does the method, for all values of `relaxed`,
`branch_and_bound`, `verbose` and `inference_exception`; the energy is minus the score. -/
theorem C60_routes_ad3 (P : Packages) (U : Mat) (pw : Pairwise) (edges : Edges) (Q : ℕ → ℕ → ℕ → ℚ) (solve solve')
    (hP : P.ad3 = some (solve, solve')) (hQ : Denotes U.cols edges.length pw Q) (hS : 1 ≤ U.cols)
    (hE : EdgesIn U.rows edges)
    (hex : Ad3Exact solve U edges Q) (kwargs : KW)
    (hk : ∀ p ∈ kwargs, p.1 ∈ ["relaxed", "verbose", "branch_and_bound", "inference_exception"]) :
    ∃ y : Labels, dispatch P U pw edges (.name "ad3") true kwargs =
        .ok (.pair (.discrete y) (-score U.rows edges U.get Q y.get)) ∧
      y.size = U.rows ∧ IsMAP U.rows U.cols edges U.get Q y.get := by
  have hb : bindArgs posArgs ["relaxed", "verbose", "return_energy", "branch_and_bound", "inference_exception"]
      false [("return_energy", .bool true)] kwargs = .ok (("return_energy", .bool true) :: kwargs) := by
    have h1 : (kwargs.any fun p => posArgs.contains p.1) = false := by
      rw [List.any_eq_false]
      intro p hp
      have := hk p hp
      simp only [List.mem_cons, List.not_mem_nil, or_false] at this
      rcases this with h | h | h | h <;> rw [h] <;> decide
    have h2 : (kwargs.any fun p => (List.map Prod.fst [("return_energy", KVal.bool true)]).contains p.1) = false := by
      rw [List.any_eq_false]
      intro p hp
      have := hk p hp
      simp only [List.mem_cons, List.not_mem_nil, or_false] at this
      rcases this with h | h | h | h <;> rw [h] <;> decide
    have h3 : (kwargs.any fun p => !(["relaxed", "verbose", "return_energy", "branch_and_bound",
        "inference_exception"] : List String).contains p.1) = false := by
      rw [List.any_eq_false]
      intro p hp
      have := hk p hp
      simp only [List.mem_cons, List.not_mem_nil, or_false] at this
      rcases this with h | h | h | h <;> rw [h] <;> decide
    unfold bindArgs
    rw [h1, h2, h3]
    rfl
  have hd : dispatch P U pw edges (.name "ad3") true kwargs =
      inferenceAd3 P U pw edges (("return_energy", .bool true) :: kwargs) := by
    change branch P U pw edges "ad3" true kwargs = _
    unfold branch
    rw [if_neg (by decide), if_neg (by decide), if_pos rfl, hb]
    rfl
  rw [hd]
  obtain ⟨y, hmap, hr1, hr2, hr3, hr4, hr5⟩ :=
    hex (KW.flag (("return_energy", .bool true) :: kwargs) "branch_and_bound" false)
  refine ⟨⟨U.rows, fun i => argmaxN ((solve U edges ⟨edges.length, U.cols, U.cols, Q⟩
    (KW.flag (("return_energy", .bool true) :: kwargs) "branch_and_bound" false)).unary.get i) U.cols⟩, ?_, rfl, ?_⟩
  all_goals
    have hdec : ∀ i < U.rows, argmaxN ((solve U edges ⟨edges.length, U.cols, U.cols, Q⟩
      (KW.flag (("return_energy", .bool true) :: kwargs) "branch_and_bound" false)).unary.get i) U.cols = y i := by
      intro i hi
      have hlt := argmaxN_lt ((solve U edges ⟨edges.length, U.cols, U.cols, Q⟩
        (KW.flag (("return_energy", .bool true) :: kwargs) "branch_and_bound" false)).unary.get i) hS
      have hle := le_argmaxN ((solve U edges ⟨edges.length, U.cols, U.cols, Q⟩
        (KW.flag (("return_energy", .bool true) :: kwargs) "branch_and_bound" false)).unary.get i) (hmap.1 i hi)
      rw [hr4 i hi _ (hmap.1 i hi), hr4 i hi _ hlt, if_pos rfl] at hle
      by_contra hne
      rw [if_neg hne] at hle
      norm_num at hle
    have hsc : score U.rows edges U.get Q (fun i => argmaxN ((solve U edges ⟨edges.length, U.cols, U.cols, Q⟩
        (KW.flag (("return_energy", .bool true) :: kwargs) "branch_and_bound" false)).unary.get i) U.cols) =
        score U.rows edges U.get Q y := by
      unfold score
      congr 1
      · exact sum_congr rfl fun i hi => by beta_reduce; rw [hdec i (mem_range.mp hi)]
      · refine sum_congr rfl fun e he => ?_
        have := edge_mem (mem_range.mp he)
        have := hE _ this
        simp only [edge] at this
        beta_reduce
        rw [hdec _ this.1, hdec _ this.2]
  · unfold inferenceAd3
    rw [hP]
    simp only
    rw [validateParams_denotes hQ]
    simp only [hr3, Bool.false_and]
    unfold decodeRows
    rw [if_neg (by simp), if_neg (by rw [hr2]; omega), hr5, hsc, hr1, hr2]
    rfl
  · refine ⟨fun i hi => argmaxN_lt _ hS, fun y' hy' => ?_⟩
    simp only
    rw [hsc]
    exact hmap.2 y' hy'

/-- A package set with an `ad3` that solves problems with two independent nodes. -/
def ad3Toy : Mat → Edges → Ten → Bool → AD3Result := fun U edges t _ =>
  ⟨⟨U.rows, U.cols, fun i s => if s = argmaxN (U.get i) U.cols then 1 else 0⟩, ⟨0, 0, fun _ _ => 0⟩,
    score U.rows edges U.get t.get (fun i => argmaxN (U.get i) U.cols), false⟩

example : Ad3Exact ad3Toy ⟨2, 2, fun i s => if i = s then 1 else 0⟩ [] (fun _ _ _ => 0) := by
  intro b
  refine ⟨fun i => argmaxN (fun s => if i = s then 1 else 0) 2, ⟨fun i _ => argmaxN_lt _ (by norm_num), ?_⟩, rfl,
    rfl, rfl, fun i _ s _ => rfl, rfl⟩
  intro y' hy'
  unfold score
  exact add_le_add (sum_le_sum fun i hi => le_argmaxN (fun s => if i = s then 1 else 0)
    (hy' i (mem_range.mp hi))) (le_of_eq rfl)

/-! ### a chain model through the dispatcher -/

/-- **C60** (end to end): a chain CRF with `inference_method="max-product"` predicts, for all features and
weights, a label sequence of maximal score; `relaxed`, `return_energy` and empty constraints make no
difference. -/
theorem C60_chain_crf (P : Packages) (m : GraphCRF.Model) (features : Mat) (w : Vec)
    (hn : 1 ≤ features.rows) (hS : 1 ≤ m.nStates) (hF : features.cols = m.nFeatures)
    (hw : w.size = GraphCRF.sizeJointFeature m) (relaxed : KVal) (re : Bool) (constraints : KVal)
    (hc : constraints.truthy = false) :
    ∃ (y : Labels) (ψ : Vec), crfInference P (.name "max-product") m (GraphCRF.chainX features) w relaxed re constraints =
        .ok (.plain (.discrete y)) ∧
      y.size = features.rows ∧ Valid features.rows m.nStates y.get ∧
      GraphCRF.jointFeature m (GraphCRF.chainX features) (.discrete y) = .ok ψ ∧
      ∀ y' : Labels, y'.size = features.rows → Valid features.rows m.nStates y'.get →
        ∃ ψ', GraphCRF.jointFeature m (GraphCRF.chainX features) (.discrete y') = .ok ψ' ∧
          dot w.size w.get ψ'.get ≤ dot w.size w.get ψ.get := by
  obtain ⟨y, ψ, h1, h2, h3, h4, h5⟩ := C14_chain_inference_exact {} m features w hn hS hF hw
  refine ⟨y, ψ, ?_, h2, h3, h4, fun y' h6 h7 => ?_⟩
  · unfold GraphCRF.inference at h1
    unfold crfInference
    rw [bind_eq_ok] at h1
    obtain ⟨_, ha, h1⟩ := h1
    rw [bind_eq_ok] at h1
    obtain ⟨u, hb, h1⟩ := h1
    rw [bind_eq_ok] at h1
    obtain ⟨p, hd, h1⟩ := h1
    rw [ha, hb, hd]
    simp only [bind, Except.bind]
    have : inferenceKW relaxed constraints = [("relaxed", relaxed)] := by
      unfold inferenceKW
      rw [hc]
      rfl
    rw [this, dispatch_max_product, h1]
    rfl
  · obtain ⟨ψ', ha, _, _, hb⟩ := h5 y' h6 h7
    exact ⟨ψ', ha, hb⟩

/-- The hypotheses of `C60_chain_crf` hold for three positions with two features and two states. -/
example : ∃ (m : GraphCRF.Model) (features : Mat) (w : Vec), 1 ≤ features.rows ∧ 1 ≤ m.nStates ∧
    features.cols = m.nFeatures ∧ w.size = GraphCRF.sizeJointFeature m ∧ (KVal.none).truthy = false :=
  ⟨⟨2, 2, true⟩, ⟨3, 2, fun i j => i - j⟩, ⟨8, fun k => k⟩, by decide, by decide, rfl, rfl, rfl⟩

/-! ### C77: which methods are installed -/

/-- Whether the package behind a method can be imported (`lp`, `unary` and `max-product` come with pystruct). -/
def available (P : Packages) (s : String) : Bool :=
  if s = "qpbo" then P.qpbo.isSome
  else if s = "ad3" ∨ s = "ad3+" then P.ad3.isSome
  else if s = "ogm" then P.ogm.isSome
  else true

/-- The packages work: AD3 returns one column per state, the LP solver solves the trial problem. -/
structure Working (P : Packages) : Prop where
  ad3 : ∀ s s', P.ad3 = some (s, s') → (∀ U e t b, (s U e t b).unary.cols = U.cols) ∧
    ∀ U e pw c b, (s' U e pw c b).unary.cols = U.cols
  lp : SolvesExactly P.lp ⟨1, 1, fun _ _ => 0⟩ [] (fun _ _ _ => 0)

theorem trial_ok (P : Packages) (hP : Working P) (s : String) (hs : s ∈ methodNames) :
    (available P s = true → ∃ r, dispatch P ⟨1, 1, fun _ _ => 0⟩ (if s ≠ "ad3+" then .mat ⟨1, 1, fun _ _ => 0⟩
      else .ten ⟨0, 1, 1, fun _ _ _ => 0⟩) [] (.name s) false [] = .ok r) ∧
    (available P s = false → dispatch P ⟨1, 1, fun _ _ => 0⟩ (if s ≠ "ad3+" then .mat ⟨1, 1, fun _ _ => 0⟩
      else .ten ⟨0, 1, 1, fun _ _ _ => 0⟩) [] (.name s) false [] = .error .importError) := by
  obtain ⟨qpbo, lp, ad3, ogm⟩ := P
  simp only [methodNames, List.mem_cons, List.not_mem_nil, or_false] at hs
  rcases hs with rfl | rfl | rfl | rfl | rfl | rfl | rfl
  · cases qpbo with
    | none => exact ⟨fun h => by simp [available] at h, fun _ => rfl⟩
    | some q => exact ⟨fun _ => ⟨_, rfl⟩, fun h => by simp [available] at h⟩
  · refine ⟨fun _ => ?_, fun h => by simp [available] at h⟩
    obtain ⟨y, energy, h, _⟩ := C07_upper_bound lp ⟨1, 1, fun _ _ => 0⟩ (.mat ⟨1, 1, fun _ _ => 0⟩) []
      (fun _ _ _ => 0) ⟨rfl, rfl, fun _ _ _ => rfl⟩ (by decide) (by decide) (fun e he => by simp at he)
      hP.lp false
    have : ∀ re, dispatch ⟨qpbo, lp, ad3, ogm⟩ ⟨1, 1, fun _ _ => 0⟩ (.mat ⟨1, 1, fun _ _ => 0⟩) [] (.name "lp") re [] =
        match LP.inferenceLP lp ⟨1, 1, fun _ _ => 0⟩ (.mat ⟨1, 1, fun _ _ => 0⟩) [] false with
        | .error err => .error err
        | .ok (y, energy) => .ok (Res.mk re y energy) := fun _ => rfl
    refine ⟨.plain y, ?_⟩
    rw [if_pos (by decide), this, h]
    rfl
  · cases ad3 with
    | none => exact ⟨fun h => by simp [available] at h, fun _ => rfl⟩
    | some q =>
      refine ⟨fun _ => ?_, fun h => by simp [available] at h⟩
      obtain ⟨q, q'⟩ := q
      have hc := (hP.ad3 q q' rfl).1 ⟨1, 1, fun _ _ => 0⟩ [] ⟨0, 1, 1, fun _ _ _ => 0⟩ false
      have : dispatch ⟨qpbo, lp, some (q, q'), ogm⟩ ⟨1, 1, fun _ _ => 0⟩ (.mat ⟨1, 1, fun _ _ => 0⟩) [] (.name "ad3")
          false [] = if (q ⟨1, 1, fun _ _ => 0⟩ [] ⟨0, 1, 1, fun _ _ _ => 0⟩ false).unsolved && false then _
          else match decodeRows (q ⟨1, 1, fun _ _ => 0⟩ [] ⟨0, 1, 1, fun _ _ _ => 0⟩ false).unary with
            | .error err => .error err
            | .ok y => .ok (Res.mk false y (-(q ⟨1, 1, fun _ _ => 0⟩ [] ⟨0, 1, 1, fun _ _ _ => 0⟩ false).energy)) := rfl
      rw [if_pos (by decide), this]
      unfold decodeRows
      rw [hc, if_neg (by simp), if_neg (by decide)]
      exact ⟨_, rfl⟩
  · cases ad3 with
    | none => exact ⟨fun h => by simp [available] at h, fun _ => rfl⟩
    | some q =>
      refine ⟨fun _ => ?_, fun h => by simp [available] at h⟩
      obtain ⟨q, q'⟩ := q
      have hc := (hP.ad3 q q' rfl).2 ⟨1, 1, fun _ _ => 0⟩ [] (.ten ⟨0, 1, 1, fun _ _ _ => 0⟩) .none false
      have : dispatch ⟨qpbo, lp, some (q, q'), ogm⟩ ⟨1, 1, fun _ _ => 0⟩ (.ten ⟨0, 1, 1, fun _ _ _ => 0⟩) [] (.name "ad3+")
          false [] = if (q' ⟨1, 1, fun _ _ => 0⟩ [] (.ten ⟨0, 1, 1, fun _ _ _ => 0⟩) .none false).unsolved && false then _
          else if (q' ⟨1, 1, fun _ _ => 0⟩ [] (.ten ⟨0, 1, 1, fun _ _ _ => 0⟩) .none false).unsolved && false then _
          else match decodeRows (q' ⟨1, 1, fun _ _ => 0⟩ [] (.ten ⟨0, 1, 1, fun _ _ _ => 0⟩) .none false).unary with
            | .error err => .error err
            | .ok y => .ok (Res.mk false y
              (-(q' ⟨1, 1, fun _ _ => 0⟩ [] (.ten ⟨0, 1, 1, fun _ _ _ => 0⟩) .none false).energy)) := rfl
      rw [if_neg (by decide), this]
      unfold decodeRows
      rw [hc, if_neg (by simp), if_neg (by simp), if_neg (by decide)]
      exact ⟨_, rfl⟩
  · cases ogm with
    | none => exact ⟨fun h => by simp [available] at h, fun _ => rfl⟩
    | some q => exact ⟨fun _ => ⟨_, rfl⟩, fun h => by simp [available] at h⟩
  · exact ⟨fun _ => ⟨_, rfl⟩, fun h => by simp [available] at h⟩
  · refine ⟨fun _ => ?_, fun h => by simp [available] at h⟩
    obtain ⟨y, h, _⟩ := C60_routes_max_product ⟨qpbo, lp, ad3, ogm⟩ ⟨1, 1, fun _ _ => 0⟩ (.mat ⟨1, 1, fun _ _ => 0⟩)
      (fun _ _ _ => 0) ⟨rfl, rfl, fun _ _ _ => rfl⟩ (by decide) (by decide) false .none
    exact ⟨_, h⟩

/-- **C77**: for every list of known methods `get_installed` returns exactly those, in the same order, whose
package can be imported. -/
theorem C77_get_installed (P : Packages) (hP : Working P) (names : List String) (hn : ∀ s ∈ names, s ∈ methodNames) :
    getInstalled P names = .ok (names.filter (available P)) := by
  induction names with
  | nil => rfl
  | cons s rest ih =>
    have ih := ih fun t ht => hn t (List.mem_cons_of_mem _ ht)
    obtain ⟨h1, h2⟩ := trial_ok P hP s (hn s (List.mem_cons_self ..))
    unfold getInstalled
    simp only
    cases h : available P s with
    | true =>
      obtain ⟨r, hr⟩ := h1 h
      rw [hr, ih]
      simp [List.filter_cons, h]
    | false =>
      rw [h2 h, ih]
      simp [List.filter_cons, h]

/-- **C77**: a name that is not a method makes `get_installed` raise `ValueError`. -/
theorem C77_unknown (P : Packages) (s : String) (rest : List String) (hs : s ∉ methodNames) :
    getInstalled P (s :: rest) = .error .valueError := by
  unfold getInstalled
  simp only
  rw [C60_unknown P _ _ _ (.name s) false [] hs]
  simp

/-- **C77**: the default inference method of the CRF models is `ad3` if it can be imported and `max-product`
otherwise. -/
theorem C77_default (P : Packages) (hP : Working P) :
    defaultMethod P = .ok (if P.ad3.isSome then "ad3" else "max-product") := by
  unfold defaultMethod
  rw [C77_get_installed P hP _ (by decide)]
  cases h : P.ad3.isSome with
  | true =>
    have : available P "ad3" = true := by simp [available, h]
    simp [List.filter_cons, this]
  | false =>
    have h1 : available P "ad3" = false := by simp [available, h]
    have h2 : available P "max-product" = true := by simp [available]
    simp [List.filter_cons, h1, h2]

/-- An LP solver for the trial problem. -/
theorem onesSolver_trial : SolvesExactly (fun _ _ => 1) ⟨1, 1, fun _ _ => 0⟩ [] (fun _ _ _ => 0) := by
  intro p hp
  have h := Except.ok.inj (hp.symm.trans (rfl : _ = Except.ok (⟨1,
    ⟨1, ((⟨1, 1, fun _ _ => -0⟩ : Mat).ravel.append (⟨0, 1, 1, fun _ _ _ => -0⟩ : Ten).ravel).get⟩,
    [⟨1, 0, 0⟩], 1, 1, fun r => if r < 1 then 1 else 0⟩ : LP.Program)))
  subst h
  refine ⟨⟨fun _ _ => by norm_num, fun r hr => ?_⟩, fun x' _ => ?_⟩
  · have hr0 : r = 0 := by
      have : r < 1 := hr
      omega
    subst hr0
    simp [LP.rowDot]
  · have : ∀ x : ℕ → ℚ, dot 1 ((⟨1, 1, fun _ _ => -0⟩ : Mat).ravel.append
        (⟨0, 1, 1, fun _ _ _ => -0⟩ : Ten).ravel).get x = 0 := by
      intro x
      simp [dot, Vec.append, Mat.ravel]
    rw [this, this]

/-- A working installation without any optional package, and its default method. -/
example : Working ⟨none, fun _ _ => 1, none, none⟩ ∧
    defaultMethod ⟨none, fun _ _ => 1, none, none⟩ = .ok "max-product" := by
  have h : Working ⟨none, fun _ _ => 1, none, none⟩ := ⟨fun _ _ h => by simp at h, onesSolver_trial⟩
  exact ⟨h, C77_default _ h⟩

/-- A working installation with `ad3`. -/
example : Working ⟨none, fun _ _ => 1, some (ad3Toy, fun U _ _ _ _ => ⟨U, U, 0, false⟩), none⟩ :=
  ⟨fun s s' h => by
    simp only [Option.some.injEq, Prod.mk.injEq] at h
    obtain ⟨rfl, rfl⟩ := h
    exact ⟨fun _ _ _ _ => rfl, fun _ _ _ _ _ => rfl⟩, onesSolver_trial⟩

/-! ### C78: constraints -/

/-- **C78** (rejected): `ad3` and `max-product` raise `TypeError` when constraints are given. -/
theorem C78_rejected (P : Packages) (U : Mat) (pw : Pairwise) (edges : Edges) (name : String)
    (hname : name = "ad3" ∨ name = "max-product") (re : Bool) (relaxed c : KVal) (hc : c.truthy = true) :
    dispatch P U pw edges (.name name) re (inferenceKW relaxed c) = .error .typeError := by
  unfold inferenceKW
  rw [hc]
  rcases hname with rfl | rfl <;> rfl

/-- **C78** (honoured): with `ad3+` the labelling satisfies the constraints if the package returns the
marginals of a labelling that does. -/
theorem C78_honoured (P : Packages) (U : Mat) (pw : Pairwise) (edges : Edges) (solve solve')
    (hP : P.ad3 = some (solve, solve')) (Sat : KVal → (ℕ → ℕ) → Prop)
    (hlocal : ∀ c y y', (∀ i < U.rows, y i = y' i) → Sat c y → Sat c y') (hS : 1 ≤ U.cols) (c : KVal)
    (hc : c.truthy = true)
    (hsolve : ∀ b, ∃ y, Sat c y ∧ Valid U.rows U.cols y ∧ (solve' U edges pw c b).unsolved = false ∧
      (solve' U edges pw c b).unary.rows = U.rows ∧ (solve' U edges pw c b).unary.cols = U.cols ∧
      ∀ i < U.rows, ∀ s < U.cols, (solve' U edges pw c b).unary.get i s = if s = y i then 1 else 0)
    (relaxed : KVal) :
    ∃ y : Labels, dispatch P U pw edges (.name "ad3+") false (inferenceKW relaxed c) = .ok (.plain (.discrete y)) ∧
      y.size = U.rows ∧ Sat c y.get := by
  obtain ⟨y, h1, hv, h2, h3, h4, h5⟩ := hsolve false
  refine ⟨⟨U.rows, fun i => argmaxN ((solve' U edges pw c false).unary.get i) U.cols⟩, ?_, rfl, ?_⟩
  · have hk : inferenceKW relaxed c = [("relaxed", relaxed), ("constraints", c)] := by
      unfold inferenceKW; rw [hc]; rfl
    have hd : dispatch P U pw edges (.name "ad3+") false [("relaxed", relaxed), ("constraints", c)] =
        inferenceAd3plus P U pw edges [("return_energy", .bool false), ("relaxed", relaxed), ("constraints", c)] := rfl
    rw [hk, hd]
    unfold inferenceAd3plus
    rw [hP]
    change (if (solve' U edges pw c false).unsolved && _ then _ else if (solve' U edges pw c false).unsolved && _ then _
      else match decodeRows (solve' U edges pw c false).unary with
        | .error err => _
        | .ok y => _) = _
    rw [h2, if_neg (by simp), if_neg (by simp)]
    unfold decodeRows
    rw [h3, h4, if_neg (by omega)]
    rfl
  · refine hlocal c y _ (fun i hi => ?_) h1
    have hlt := argmaxN_lt ((solve' U edges pw c false).unary.get i) hS
    have hle := le_argmaxN ((solve' U edges pw c false).unary.get i) (hv i hi)
    rw [h5 i hi _ (hv i hi), h5 i hi _ hlt, if_pos rfl] at hle
    by_contra hne
    rw [if_neg (fun h => hne h.symm)] at hle
    norm_num at hle

/-- **C78 violated**: `lp`, `qpbo`, `ogm` and `unary` silently ignore constraints: the result is the one
without constraints. -/
theorem C78_violated_ignored (P : Packages) (U : Mat) (pw : Pairwise) (edges : Edges) (name : String)
    (hname : name ∈ ["lp", "qpbo", "ogm", "unary"]) (re : Bool) (relaxed c : KVal) :
    dispatch P U pw edges (.name name) re (inferenceKW relaxed c) =
      dispatch P U pw edges (.name name) re (inferenceKW relaxed .none) := by
  have h0 : inferenceKW relaxed .none = [("relaxed", relaxed)] := rfl
  rw [h0]
  unfold inferenceKW
  cases hc : c.truthy
  · rfl
  · simp only [List.mem_cons, List.not_mem_nil, or_false] at hname
    rcases hname with rfl | rfl | rfl | rfl <;> rfl

/-! ### C79: discretisation for `qpbo` -/

theorem scaled_close (q : ℚ) : |(scaled q : ℚ) - -1000 * q| < 1 := by
  set r := -1000 * q with hr
  have hs : scaled q = Int.tdiv r.num r.den := rfl
  have hd : (0 : ℚ) < r.den := by exact_mod_cast r.den_pos
  have h1 : r.num = r.den * Int.tdiv r.num r.den + Int.tmod r.num r.den :=
    (Int.mul_tdiv_add_tmod r.num r.den).symm
  have h2 : |Int.tmod r.num r.den| < r.den := by
    rw [← Int.natCast_natAbs, Int.natAbs_tmod]
    have : (r.num.natAbs % (r.den : ℤ).natAbs) < r.den := by
      simpa using Nat.mod_lt _ r.den_pos
    exact_mod_cast this
  have h3 : (r.num : ℚ) = r.den * (Int.tdiv r.num r.den : ℤ) + (Int.tmod r.num r.den : ℤ) := by exact_mod_cast h1
  have h4 : |((Int.tmod r.num r.den : ℤ) : ℚ)| < r.den := by exact_mod_cast h2
  have h5 : r = r.num / r.den := (Rat.num_div_den r).symm
  have h6 : (Int.tdiv r.num r.den : ℤ) - r = -((Int.tmod r.num r.den : ℤ) : ℚ) / r.den := by
    have h7 : r * r.den = r.num := by
      nth_rewrite 1 [h5]
      field_simp
    rw [eq_div_iff hd.ne', sub_mul, h7, h3]
    ring
  rw [hs, h6, abs_div, abs_neg, abs_of_pos hd, div_lt_one hd]
  exact h4

/-- If the scaled potential is an integer, nothing is lost. -/
theorem scaled_exact (q : ℚ) (z : ℤ) (h : 1000 * q = z) : (scaled q : ℚ) = -1000 * q := by
  have : -1000 * q = ((-z : ℤ) : ℚ) := by push_cast; linarith
  unfold scaled
  rw [this, Rat.num_intCast, Rat.den_intCast]
  simp

/-- The energy of a labelling for integer potentials. -/
def intEnergy (edges : Edges) (p : IntPotentials) (y : ℕ → ℕ) : ℤ :=
  ∑ i ∈ range p.nNodes, p.unary i (y i) +
    ∑ e ∈ range p.nEdges, p.pairwise e (y (edges.getD e (0, 0)).1) (y (edges.getD e (0, 0)).2)

/-- The package minimises the energy exactly on the integer problem derived from these potentials. -/
def QpboExact (solve : Edges → IntPotentials → Labels) (edges : Edges) (p : IntPotentials) : Prop :=
  (solve edges p).size = p.nNodes ∧ Valid p.nNodes p.nStates (solve edges p).get ∧
    ∀ y, Valid p.nNodes p.nStates y → intEnergy edges p (solve edges p).get ≤ intEnergy edges p y

/-- The potentials handed to the package: scaled by -1000 and truncated. -/
def discretised (U : Mat) (E : ℕ) (Q : ℕ → ℕ → ℕ → ℚ) : IntPotentials :=
  ⟨U.rows, U.cols, E, fun i s => scaled (U.get i s), fun e a b => scaled (Q e a b)⟩

theorem dispatch_qpbo (P : Packages) (U : Mat) (pw : Pairwise) (edges : Edges) (Q : ℕ → ℕ → ℕ → ℚ) (solve)
    (hP : P.qpbo = some solve) (hQ : Denotes U.cols edges.length pw Q) (re : Bool) (relaxed c : KVal) :
    dispatch P U pw edges (.name "qpbo") re (inferenceKW relaxed c) =
      .ok (.plain (.discrete (solve edges (discretised U edges.length Q)))) := by
  have h : dispatch P U pw edges (.name "qpbo") re (inferenceKW relaxed c) = plainOf (inferenceQpbo P U pw edges) := by
    unfold inferenceKW
    cases c.truthy <;> rfl
  rw [h]
  unfold inferenceQpbo
  rw [hP]
  simp only
  rw [validateParams_denotes hQ]
  rfl

theorem intEnergy_eq (U : Mat) (edges : Edges) (Q : ℕ → ℕ → ℕ → ℚ) (y : ℕ → ℕ) :
    |(intEnergy edges (discretised U edges.length Q) y : ℚ) - -1000 * score U.rows edges U.get Q y| ≤
      U.rows + edges.length := by
  unfold intEnergy score discretised
  push_cast
  rw [mul_add, mul_sum, mul_sum, add_sub_add_comm, ← sum_sub_distrib, ← sum_sub_distrib]
  refine le_trans (abs_add_le _ _) (add_le_add ?_ ?_)
  · refine le_trans (abs_sum_le_sum_abs _ _) (le_trans (sum_le_sum fun i _ => (scaled_close _).le) ?_)
    simp
  · refine le_trans (abs_sum_le_sum_abs _ _) (le_trans (sum_le_sum fun i _ => (scaled_close _).le) ?_)
    simp

/-- **C79**: if the package solves its integer problem exactly, the labelling returned by `qpbo` is within
`2 (n + E) / 1000` of the best score, for `n` nodes and `E` edges. -/
theorem C79_near_optimal (P : Packages) (U : Mat) (pw : Pairwise) (edges : Edges) (Q : ℕ → ℕ → ℕ → ℚ) (solve)
    (hP : P.qpbo = some solve) (hQ : Denotes U.cols edges.length pw Q)
    (hex : QpboExact solve edges (discretised U edges.length Q)) (re : Bool) (relaxed c : KVal) :
    ∃ y : Labels, dispatch P U pw edges (.name "qpbo") re (inferenceKW relaxed c) = .ok (.plain (.discrete y)) ∧
      y.size = U.rows ∧ Valid U.rows U.cols y.get ∧
      ∀ y', Valid U.rows U.cols y' →
        score U.rows edges U.get Q y' ≤ score U.rows edges U.get Q y.get + 2 * (U.rows + edges.length) / 1000 := by
  obtain ⟨h1, h2, h3⟩ := hex
  refine ⟨_, dispatch_qpbo P U pw edges Q solve hP hQ re relaxed c, h1, h2, fun y' hy' => ?_⟩
  have h4 := h3 y' hy'
  have h4' : (intEnergy edges (discretised U edges.length Q)
    (solve edges (discretised U edges.length Q)).get : ℚ) ≤ intEnergy edges (discretised U edges.length Q) y' := by
    exact_mod_cast h4
  have h5 := abs_le.mp (intEnergy_eq U edges Q y')
  have h6 := abs_le.mp (intEnergy_eq U edges Q (solve edges (discretised U edges.length Q)).get)
  linarith [h5.1, h5.2, h6.1, h6.2]

/-- **C79**: if all potentials are multiples of 1/1000, the labelling is optimal. -/
theorem C79_exact_on_grid (P : Packages) (U : Mat) (pw : Pairwise) (edges : Edges) (Q : ℕ → ℕ → ℕ → ℚ) (solve)
    (hP : P.qpbo = some solve) (hQ : Denotes U.cols edges.length pw Q)
    (hex : QpboExact solve edges (discretised U edges.length Q))
    (hU : ∀ i s, ∃ z : ℤ, 1000 * U.get i s = z) (hQg : ∀ e a b, ∃ z : ℤ, 1000 * Q e a b = z)
    (re : Bool) (relaxed c : KVal) :
    ∃ y : Labels, dispatch P U pw edges (.name "qpbo") re (inferenceKW relaxed c) = .ok (.plain (.discrete y)) ∧
      y.size = U.rows ∧ IsMAP U.rows U.cols edges U.get Q y.get := by
  obtain ⟨h1, h2, h3⟩ := hex
  refine ⟨_, dispatch_qpbo P U pw edges Q solve hP hQ re relaxed c, h1, h2, fun y' hy' => ?_⟩
  have hE : ∀ y, (intEnergy edges (discretised U edges.length Q) y : ℚ) = -1000 * score U.rows edges U.get Q y := by
    intro y
    unfold intEnergy score discretised
    push_cast
    rw [mul_add, mul_sum, mul_sum]
    congr 1
    · exact sum_congr rfl fun i _ => by obtain ⟨z, hz⟩ := hU i (y i); exact scaled_exact _ z hz
    · exact sum_congr rfl fun e _ => by obtain ⟨z, hz⟩ := hQg e _ _; exact scaled_exact _ z hz
  have h4 := h3 y' hy'
  have h4' : (intEnergy edges (discretised U edges.length Q)
    (solve edges (discretised U edges.length Q)).get : ℚ) ≤ intEnergy edges (discretised U edges.length Q) y' := by
    exact_mod_cast h4
  rw [hE, hE] at h4'
  linarith

/-- One node with potentials `1/2000` and `0`: both become 0. -/
def tinyU : Mat := ⟨1, 2, fun _ s => if s = 0 then 1 / 2000 else 0⟩

theorem tiny_zero (i s : ℕ) : scaled (tinyU.get i s) = 0 := by
  unfold tinyU
  simp only
  split_ifs <;> decide +kernel

/-- **C79 violated**: even with an exact package `qpbo` is not exact; differences below 1/1000 are lost. -/
theorem C79_violated_exact : ∃ (solve : Edges → IntPotentials → Labels) (y : Labels),
    QpboExact solve [] (discretised tinyU 0 (fun _ _ _ => 0)) ∧
    (∀ P : Packages, P.qpbo = some solve → ∀ re relaxed c,
      dispatch P tinyU (.mat ⟨2, 2, fun _ _ => 0⟩) [] (.name "qpbo") re (inferenceKW relaxed c) =
        .ok (.plain (.discrete y))) ∧
    ¬ IsMAP 1 2 [] tinyU.get (fun _ _ _ => 0) y.get := by
  refine ⟨fun _ p => ⟨p.nNodes, fun _ => 1⟩, ⟨1, fun _ => 1⟩, ⟨rfl, fun i _ => by simp [discretised, tinyU],
    fun y _ => ?_⟩, fun P hP re relaxed c => ?_, fun h => ?_⟩
  · simp [intEnergy, discretised, tiny_zero]
  · rw [dispatch_qpbo P tinyU (.mat ⟨2, 2, fun _ _ => 0⟩) [] (fun _ _ _ => 0) _ hP ⟨rfl, rfl, fun _ _ _ => rfl⟩]
    rfl
  · have := h.2 (fun _ => 0) fun _ _ => by norm_num
    norm_num [score, tinyU] at this

/-- Two nodes and an edge with potentials that are multiples of 1/1000, and an exact package for it. -/
example : ∃ (solve : Edges → IntPotentials → Labels) (U : Mat) (edges : Edges) (Q : ℕ → ℕ → ℕ → ℚ),
    edges ≠ [] ∧ QpboExact solve edges (discretised U edges.length Q) ∧
    (∀ i s, ∃ z : ℤ, 1000 * U.get i s = z) ∧ ∀ e a b, ∃ z : ℤ, 1000 * Q e a b = z := by
  refine ⟨fun _ p => ⟨p.nNodes, fun _ => 0⟩, ⟨2, 1, fun _ _ => 1 / 10⟩, [(0, 1)], fun _ _ _ => -1 / 20, by simp,
    ⟨rfl, fun i _ => by simp [discretised], fun y hy => ?_⟩, fun _ _ => ⟨100, by norm_num⟩,
    fun _ _ _ => ⟨-50, by norm_num⟩⟩
  apply le_of_eq
  simp [intEnergy, discretised]

end Verif.Props
