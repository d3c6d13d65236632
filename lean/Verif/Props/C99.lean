import Verif.Lemmas.TreeLP
import Verif.Props.C07
import Verif.Props.C60CRF
import Verif.Lemmas.LPExists

/-!
# C99: the LP relaxation is exact on forests

For acyclic graphs the linear program of `inference_lp` has the value of the best labelling, and its solutions
only use states that occur in best labellings. With a unique best labelling the rounded solution is that
labelling; with several it may not be one of them (`C99_violated_ties`), and with cycles the value may be
larger than that of every labelling (`C99_cycle_not_tight`).
-/

namespace Verif.Props

open Finset Verif.Common Verif.LP Verif.Spec Verif.MaxProd

/-- Among the labellings with state `s` at vertex `i` there is a best one. -/
theorem best_with_state (n S : ℕ) (hS : 1 ≤ S) (edges : Edges) (hE : EdgesIn n edges) (U : ℕ → ℕ → ℚ)
    (P : ℕ → ℕ → ℕ → ℚ) (i s : ℕ) (hs : s < S) :
    ∃ z, Valid n S z ∧ z i = s ∧ ∀ y, Valid n S y → y i = s →
      Spec.score n edges U P y ≤ Spec.score n edges U P z := by
  set U' : ℕ → ℕ → ℚ := fun j a => if j = i then U j s else U j a with hU'
  set P' : ℕ → ℕ → ℕ → ℚ := fun e a b => P e (if (edges.getD e (0, 0)).1 = i then s else a)
    (if (edges.getD e (0, 0)).2 = i then s else b) with hP'
  have key : ∀ y, Spec.score n edges U' P' y = Spec.score n edges U P (Function.update y i s) := by
    intro y
    unfold Spec.score
    congr 1
    · apply sum_congr rfl; intro j _
      simp only [hU', Function.update_apply]
      by_cases h : j = i <;> simp [h]
    · apply sum_congr rfl; intro e _
      simp only [hP', Function.update_apply]
  obtain ⟨z, hz, hbest⟩ := isMAP_exists n S hS edges hE U' P'
  refine ⟨Function.update z i s, ?_, by simp, fun y hy hyi => ?_⟩
  · intro j hj
    rw [Function.update_apply]
    split
    · exact hs
    · exact hz j hj
  · have h1 := hbest y hy
    rw [key, key] at h1
    have : Function.update y i s = y := by rw [← hyi]; exact Function.update_eq_self i y
    rwa [this] at h1

/-- marginal scores for potentials with a bonus `ε` for state `s` of vertex `i`. -/
theorem marginalScore_bonus {n S : ℕ} {edges : Edges} (U : ℕ → ℕ → ℚ) (P : ℕ → ℕ → ℕ → ℚ) {i s : ℕ} (hi : i < n)
    (hs : s < S) (ε : ℚ) (μ : ℕ → ℕ → ℚ) (ν : ℕ → ℕ → ℕ → ℚ) :
    marginalScore n S edges (fun j a => U j a + if j = i ∧ a = s then ε else 0) P μ ν =
      marginalScore n S edges U P μ ν + ε * μ i s := by
  unfold marginalScore
  have : ∑ j ∈ range n, ∑ a ∈ range S, (U j a + if j = i ∧ a = s then ε else 0) * μ j a =
      ∑ j ∈ range n, ∑ a ∈ range S, U j a * μ j a + ε * μ i s := by
    have h1 : ∀ j ∈ range n, ∑ a ∈ range S, (U j a + if j = i ∧ a = s then ε else 0) * μ j a =
        ∑ a ∈ range S, U j a * μ j a + if j = i then ε * μ i s else 0 := by
      intro j _
      by_cases h : j = i
      · subst h
        simp only [true_and, add_mul, sum_add_distrib, ite_mul, zero_mul, if_true]
        rw [sum_ite_eq', if_pos (mem_range.mpr hs)]
      · simp [h]
    rw [sum_congr rfl h1, sum_add_distrib, sum_ite_eq', if_pos (mem_range.mpr hi)]
  rw [this]
  ring

/-- scores for potentials with a bonus `ε` for state `s` of vertex `i`. -/
theorem score_bonus {n : ℕ} {edges : Edges} (U : ℕ → ℕ → ℚ) (P : ℕ → ℕ → ℕ → ℚ) {i s : ℕ} (hi : i < n) (ε : ℚ)
    (y : ℕ → ℕ) :
    Spec.score n edges (fun j a => U j a + if j = i ∧ a = s then ε else 0) P y =
      Spec.score n edges U P y + if y i = s then ε else 0 := by
  unfold Spec.score
  have : ∑ j ∈ range n, (U j (y j) + if j = i ∧ y j = s then ε else 0) =
      ∑ j ∈ range n, U j (y j) + if y i = s then ε else 0 := by
    rw [sum_add_distrib]
    congr 1
    have h1 : ∀ j ∈ range n, (if j = i ∧ y j = s then ε else 0) = if j = i then (if y i = s then ε else 0) else 0 := by
      intro j _
      by_cases h : j = i
      · subst h; simp
      · simp [h]
    rw [sum_congr rfl h1, sum_ite_eq', if_pos (mem_range.mpr hi)]
  rw [this]
  ring

/-- **C99a.** On a forest no point of the local polytope scores more than the best labelling. -/
theorem C99_polytope_tight (n S : ℕ) (hS : 1 ≤ S) (edges : Edges) (hE : EdgesIn n edges) (hc : ¬ HasCycle edges)
    (U : ℕ → ℕ → ℚ) (P : ℕ → ℕ → ℕ → ℚ) :
    ∃ y, IsMAP n S edges U P y ∧ ∀ μ ν, LocalPolytope n S edges μ ν →
      marginalScore n S edges U P μ ν ≤ Spec.score n edges U P y := by
  obtain ⟨st, hst⟩ := Option.isSome_iff_exists.mp ((explore_isSome_iff true hE).mpr hc)
  obtain ⟨y, hy, hmax⟩ := forest_tight (explore_tree true hE hst) hE hS U P
  refine ⟨y, ⟨hy, fun y' hy' => ?_⟩, hmax⟩
  have := hmax _ _ (encode_polytope hE hy')
  rwa [encode_score hE hy'] at this

/-- **C99b.** On a forest every state with positive probability in an optimal point of the local polytope occurs in
a best labelling. -/
theorem C99_support (n S : ℕ) (hS : 1 ≤ S) (edges : Edges) (hE : EdgesIn n edges) (hc : ¬ HasCycle edges)
    (U : ℕ → ℕ → ℚ) (P : ℕ → ℕ → ℕ → ℚ) (μ : ℕ → ℕ → ℚ) (ν : ℕ → ℕ → ℕ → ℚ) (hμ : LocalPolytope n S edges μ ν)
    (hopt : ∀ y, Valid n S y → Spec.score n edges U P y ≤ marginalScore n S edges U P μ ν)
    (i s : ℕ) (hi : i < n) (hs : s < S) (hpos : 0 < μ i s) :
    ∃ z, IsMAP n S edges U P z ∧ z i = s := by
  obtain ⟨y, hy, hmax⟩ := C99_polytope_tight n S hS edges hE hc U P
  obtain ⟨z, hz, hzi, hzbest⟩ := best_with_state n S hS edges hE U P i s hs
  refine ⟨z, ⟨hz, fun y' hy' => (hy.2 y' hy').trans ?_⟩, hzi⟩
  by_contra hlt
  push Not at hlt
  set ε := Spec.score n edges U P y - Spec.score n edges U P z with hε
  have hε0 : 0 < ε := by linarith
  obtain ⟨y2, hy2, hmax2⟩ := C99_polytope_tight n S hS edges hE hc
    (fun j a => U j a + if j = i ∧ a = s then ε else 0) P
  have h1 := hmax2 μ ν hμ
  rw [marginalScore_bonus U P hi hs, score_bonus U P hi] at h1
  have h2 : Spec.score n edges U P y2 + (if y2 i = s then ε else 0) ≤ Spec.score n edges U P y := by
    by_cases h : y2 i = s
    · rw [if_pos h]
      have := hzbest y2 hy2.1 h
      linarith
    · rw [if_neg h, add_zero]
      exact hy.2 y2 hy2.1
  have h3 := hopt y hy.1
  have h4 := mul_pos hε0 hpos
  linarith

/-- **C99c.** `inference_lp` on a forest, with a solver that finds an optimum: minus the reported energy is the
score of a best labelling, and every single state of the returned labelling occurs in some best labelling. -/
theorem C99_lp_forest (solver : Solver) (U : Mat) (pw : Pairwise) (edges : Edges)
    (P : ℕ → ℕ → ℕ → ℚ) (hP : Denotes U.cols edges.length pw P) (hn : 1 ≤ U.rows)
    (hS : 1 ≤ U.cols) (hE : EdgesIn U.rows edges) (hc : ¬ HasCycle edges)
    (hopt : SolvesExactly solver U edges P) :
    ∃ (y : Labels) (energy : ℚ), inferenceLP solver U pw edges false = .ok (.discrete y, energy) ∧
      y.size = U.rows ∧ (∃ z, IsMAP U.rows U.cols edges U.get P z ∧ Spec.score U.rows edges U.get P z = - energy) ∧
      ∀ v < U.rows, ∃ z, IsMAP U.rows U.cols edges U.get P z ∧ z v = y.get v := by
  obtain ⟨x, energy, hpoly, hen, hb, _, h2⟩ := inferenceLP_ok hP hn hS hE hopt
  refine ⟨_, energy, h2, rfl, ?_, ?_⟩
  · obtain ⟨z, hz, hmax⟩ := C99_polytope_tight U.rows U.cols hS edges hE hc U.get P
    refine ⟨z, hz, le_antisymm (hb z hz.1) ?_⟩
    rw [hen, neg_neg]
    exact hmax _ _ hpoly
  · intro v hv
    have hpos : 0 < nodeVars U.cols x v (argmaxN (nodeVars U.cols x v) U.cols) := by
      by_contra h
      push Not at h
      have hz : ∀ s ∈ range U.cols, nodeVars U.cols x v s ≤ 0 := fun s hs =>
        (le_argmaxN (nodeVars U.cols x v) (mem_range.mp hs)).trans h
      have := sum_nonpos hz
      rw [hpoly.normalised v hv] at this
      linarith
    exact C99_support U.rows U.cols hS edges hE hc U.get P _ _ hpoly
      (fun y hy => by have := hb y hy; rw [hen, neg_neg] at this; exact this) v _ hv (argmaxN_lt _ hS) hpos

/-- **C99d (partial).** On a forest with a unique best labelling `inference_lp` returns it. Missing: optimality of
the returned labelling when there are several best labellings, which fails (`C99_violated_ties`). -/
theorem C99_lp_unique_partial (solver : Solver) (U : Mat) (pw : Pairwise) (edges : Edges)
    (P : ℕ → ℕ → ℕ → ℚ) (hP : Denotes U.cols edges.length pw P) (hn : 1 ≤ U.rows)
    (hS : 1 ≤ U.cols) (hE : EdgesIn U.rows edges) (hc : ¬ HasCycle edges)
    (hopt : SolvesExactly solver U edges P)
    (huniq : ∀ z z', IsMAP U.rows U.cols edges U.get P z →
      IsMAP U.rows U.cols edges U.get P z' → ∀ v < U.rows, z v = z' v) :
    ∃ (y : Labels) (energy : ℚ), inferenceLP solver U pw edges false = .ok (.discrete y, energy) ∧
      y.size = U.rows ∧ IsMAP U.rows U.cols edges U.get P y.get ∧
      Spec.score U.rows edges U.get P y.get = - energy := by
  obtain ⟨y, energy, h, hsize, ⟨z, hz, hzen⟩, hst⟩ := C99_lp_forest solver U pw edges P hP hn hS hE hc hopt
  have hag : ∀ v < U.rows, y.get v = z v := by
    intro v hv
    obtain ⟨z', hz', hzv⟩ := hst v hv
    rw [← hzv]
    exact huniq z' z hz' hz v hv
  have hsc : Spec.score U.rows edges U.get P y.get = Spec.score U.rows edges U.get P z := by
    unfold Spec.score
    congr 1
    · exact sum_congr rfl fun i hi => by rw [hag i (mem_range.mp hi)]
    · refine sum_congr rfl fun e he => ?_
      have := hE _ (getD_mem (mem_range.mp he))
      rw [hag _ this.1, hag _ this.2]
  refine ⟨y, energy, h, hsize, ⟨fun v hv => by rw [hag v hv]; exact hz.1 v hv, fun y' hy' => ?_⟩, by rw [hsc, hzen]⟩
  rw [hsc]
  exact hz.2 y' hy'

/-! ### Sharpness -/

/-- A point of the local polytope that no point beats is an optimal solution of the program of `inference_lp`. -/
theorem solvesExactly_of_polytope {solver : Solver} (U : Mat) (edges : Edges) (P : ℕ → ℕ → ℕ → ℚ) (hn : 1 ≤ U.rows)
    (hS : 1 ≤ U.cols) (hE : EdgesIn U.rows edges) (x : ℕ → ℚ) (hx : ∀ p, solver p = x)
    (hpoly : LocalPolytope U.rows U.cols edges (nodeVars U.cols x) (edgeVars U.rows U.cols x))
    (hbest : ∀ μ ν, LocalPolytope U.rows U.cols edges μ ν → marginalScore U.rows U.cols edges U.get P μ ν ≤
      marginalScore U.rows U.cols edges U.get P (nodeVars U.cols x) (edgeVars U.rows U.cols x)) :
    SolvesExactly solver U edges P := by
  intro p hp
  rw [hx p]
  obtain ⟨p', hp', hfeas⟩ := C09_local_polytope ⟨U.rows, U.cols, fun i s => - U.get i s⟩ edges
    ⟨edges.length, U.cols, U.cols, fun e a b => - P e a b⟩ hn hS rfl rfl rfl hE
  rw [hp] at hp'
  injection hp' with hp'
  subst hp'
  have hobj : ∀ x', dot p.nVars p.c.get x' = - marginalScore U.rows U.cols edges U.get P
      (nodeVars U.cols x') (edgeVars U.rows U.cols x') := by
    intro x'
    rw [build_ok (unaries := ⟨U.rows, U.cols, fun i s => - U.get i s⟩) hn hS rfl rfl rfl] at hp
    injection hp with hp
    have := objective_eq ⟨U.rows, U.cols, fun i s => - U.get i s⟩ edges
      ⟨edges.length, U.cols, U.cols, fun e a b => - P e a b⟩ rfl rfl rfl x'
    rw [← hp]
    simp only at this ⊢
    rw [this, marginalScore_neg]
  refine ⟨(hfeas x).mpr hpoly, fun x' hx' => ?_⟩
  rw [hobj, hobj]
  exact neg_le_neg (hbest _ _ ((hfeas x').mp hx'))

/-- two vertices joined by an edge; half of each of the two labellings with different states. -/
def halfHalf : ℕ → ℚ := fun k => if k < 4 then 1 / 2 else if k = 5 ∨ k = 6 then 1 / 2 else 0

/-- **C99 is violated by ties.** One edge that rewards different states: an optimal solution of the program makes
`inference_lp` return equal states, although every best labelling has different ones. -/
theorem C99_violated_ties :
    ∃ (solver : Solver) (U : Mat) (t : Ten) (y : Labels) (en : ℚ), ¬ HasCycle [(0, 1)] ∧
      SolvesExactly solver U [(0, 1)] t.get ∧
      inferenceLP solver U (.ten t) [(0, 1)] false = .ok (.discrete y, en) ∧
      ¬ IsMAP U.rows U.cols [(0, 1)] U.get t.get y.get := by
  have hE : EdgesIn 2 [(0, 1)] := by intro e he; simp at he; subst he; exact ⟨by norm_num, by norm_num⟩
  have hc : ¬ HasCycle [(0, 1)] := (explore_isSome_iff (n := 2) true hE).mp (by decide +kernel)
  have hsol : SolvesExactly (fun _ => halfHalf) ⟨2, 2, fun _ _ => 0⟩ [(0, 1)]
      (fun _ a b => if a = b then 0 else 1) := by
    apply solvesExactly_of_polytope _ _ _ (by decide) (by decide) hE halfHalf (fun _ => rfl)
    · refine ⟨?_, ?_, ?_, ?_, ?_⟩ <;> decide +kernel
    · intro μ ν hμ
      obtain ⟨y, hy, hmax⟩ := C99_polytope_tight 2 2 (by decide) [(0, 1)] hE hc (fun _ _ => 0)
        (fun _ a b => if a = b then 0 else 1)
      refine (hmax μ ν hμ).trans ?_
      have h1 : marginalScore 2 2 [(0, 1)] (fun _ _ => 0) (fun _ a b => if a = b then 0 else 1)
          (nodeVars 2 halfHalf) (edgeVars 2 2 halfHalf) = 1 := by decide +kernel
      refine le_trans ?_ (le_of_eq h1.symm)
      unfold Spec.score
      simp
      split <;> norm_num
  obtain ⟨y, _, _, en, _, h2, _⟩ := C08_integral_is_MAP (fun _ => halfHalf) ⟨2, 2, fun _ _ => 0⟩
    (.ten ⟨1, 2, 2, fun _ a b => if a = b then 0 else 1⟩) [(0, 1)] (fun _ a b => if a = b then 0 else 1)
    ⟨rfl, rfl, rfl, fun _ _ _ => rfl⟩ (by decide) (by decide) hE hsol
  refine ⟨fun _ => halfHalf, ⟨2, 2, fun _ _ => 0⟩, ⟨1, 2, 2, fun _ a b => if a = b then 0 else 1⟩, y, en, hc,
    hsol, h2, ?_⟩
  have hk : (inferenceLP (fun _ => halfHalf) ⟨2, 2, fun _ _ => 0⟩
      (.ten ⟨1, 2, 2, fun _ a b => if a = b then 0 else 1⟩) [(0, 1)] false).map (fun r => match r with
        | (.discrete y, _) => (y.get 0, y.get 1)
        | _ => (5, 5)) = .ok (0, 0) := by decide +kernel
  rw [h2] at hk
  simp only [Except.map, Except.ok.injEq, Prod.mk.injEq] at hk
  rintro ⟨_, h⟩
  have := h (fun i => i) (by intro i hi; exact hi)
  unfold Spec.score at this
  simp [hk.1, hk.2] at this
  linarith

/-- a frustrated triangle: every vertex undecided, every edge with different ends. -/
def frustrated : ℕ → ℚ := fun k => if k < 6 then 1 / 2 else if k % 4 = 3 ∨ k % 4 = 0 then 1 / 2 else 0

/-- **Acyclicity is needed.** On a triangle whose edges reward different states the relaxation reports value 3,
while no labelling with two states scores more than 2. -/
theorem C99_cycle_not_tight :
    ∃ (solver : Solver) (U : Mat) (t : Ten) (y : YVal) (en : ℚ),
      SolvesExactly solver U [(0, 1), (1, 2), (2, 0)] t.get ∧
      inferenceLP solver U (.ten t) [(0, 1), (1, 2), (2, 0)] true = .ok (y, en) ∧
      ∀ z, Valid U.rows U.cols z → Spec.score U.rows [(0, 1), (1, 2), (2, 0)] U.get t.get z < - en := by
  have hE : EdgesIn 3 [(0, 1), (1, 2), (2, 0)] := by
    intro e he; simp at he; rcases he with rfl | rfl | rfl <;> exact ⟨by norm_num, by norm_num⟩
  have hsol : SolvesExactly (fun _ => frustrated) ⟨3, 2, fun _ _ => 0⟩ [(0, 1), (1, 2), (2, 0)]
      (fun _ a b => if a = b then 0 else 1) := by
    apply solvesExactly_of_polytope _ _ _ (by decide) (by decide) hE frustrated (fun _ => rfl)
    · refine ⟨?_, ?_, ?_, ?_, ?_⟩ <;> decide +kernel
    · intro μ ν hμ
      have h1 : marginalScore 3 2 [(0, 1), (1, 2), (2, 0)] (fun _ _ => 0) (fun _ a b => if a = b then 0 else 1)
          (nodeVars 2 frustrated) (edgeVars 3 2 frustrated) = 3 := by decide +kernel
      refine le_trans ?_ (le_of_eq h1.symm)
      have hone : ∀ e < 3, ν e 0 1 + ν e 1 0 ≤ 1 := by
        intro e he
        have ha := hμ.first e he 0 (by decide)
        have hb := hμ.first e he 1 (by decide)
        have hr := hE _ (getD_mem (edges := [(0, 1), (1, 2), (2, 0)]) he)
        have hs := hμ.normalised _ hr.1
        have p0 := hμ.nonneg_edge e he 0 (by decide) 0 (by decide)
        have p1 := hμ.nonneg_edge e he 1 (by decide) 1 (by decide)
        simp only [sum_range_succ, range_zero, sum_empty, zero_add] at ha hb hs
        linarith
      have e0 := hone 0 (by decide)
      have e1 := hone 1 (by decide)
      have e2 := hone 2 (by decide)
      unfold marginalScore
      simp [sum_range_succ]
      linarith
  obtain ⟨y, en, h2, _⟩ := C07_upper_bound (fun _ => frustrated) ⟨3, 2, fun _ _ => 0⟩
    (.ten ⟨3, 2, 2, fun _ a b => if a = b then 0 else 1⟩) [(0, 1), (1, 2), (2, 0)] (fun _ a b => if a = b then 0 else 1)
    ⟨rfl, rfl, rfl, fun _ _ _ => rfl⟩ (by decide) (by decide) hE hsol true
  refine ⟨fun _ => frustrated, ⟨3, 2, fun _ _ => 0⟩, ⟨3, 2, 2, fun _ a b => if a = b then 0 else 1⟩, y, en,
    hsol, h2, ?_⟩
  have hk : (inferenceLP (fun _ => frustrated) ⟨3, 2, fun _ _ => 0⟩
      (.ten ⟨3, 2, 2, fun _ a b => if a = b then 0 else 1⟩) [(0, 1), (1, 2), (2, 0)] true).map Prod.snd =
        .ok (-3) := by decide +kernel
  rw [h2] at hk
  simp only [Except.map, Except.ok.injEq] at hk
  rw [hk]
  · intro z hz
    have h0 : z 0 = 0 ∨ z 0 = 1 := by have := hz 0 (by decide); simp only at this; omega
    have h1 : z 1 = 0 ∨ z 1 = 1 := by have := hz 1 (by decide); simp only at this; omega
    have h2 : z 2 = 0 ∨ z 2 = 1 := by have := hz 2 (by decide); simp only at this; omega
    unfold Spec.score
    simp only [List.length_cons, List.length_nil, sum_range_succ, range_zero, sum_empty]
    rcases h0 with h0 | h0 <;> rcases h1 with h1 | h1 <;> rcases h2 with h2 | h2 <;>
      (simp only [List.getD_cons_zero, List.getD_cons_succ, h0, h1, h2]; decide +kernel)

/-- the hypotheses of C99c are met by a path with three vertices and an exact solver. -/
example : ∃ (solver : Solver), ¬ HasCycle [(0, 1), (2, 1)] ∧ EdgesIn 3 [(0, 1), (2, 1)] ∧
    SolvesExactly solver ⟨3, 2, fun i s => i * s⟩ [(0, 1), (2, 1)] (fun _ a b => if a = b then 0 else 1) := by
  have hE : EdgesIn 3 [(0, 1), (2, 1)] := by
    intro e he; simp at he; rcases he with rfl | rfl <;> exact ⟨by norm_num, by norm_num⟩
  exact ⟨_, (explore_isSome_iff (n := 3) true hE).mp (by decide +kernel), hE,
    Verif.LP.ideal_solves ⟨3, 2, fun i s => i * s⟩ _ _ (by decide) (by decide) hE⟩

end Verif.Props
