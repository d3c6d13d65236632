import Verif.Props.C09
import Verif.Lemmas.Denotes

/-!
# C07, C08: the LP relaxation bounds the best labelling; integral solutions are optimal labellings
-/

namespace Verif.Props

open Finset Verif.Common Verif.LP Verif.Spec

/-- The LP objective in terms of marginals. -/
theorem objective_eq (unaries : Mat) (edges : Edges) (ew : Ten) (h0 : ew.d0 = edges.length)
    (h1 : ew.d1 = unaries.cols) (h2 : ew.d2 = unaries.cols) (x : ℕ → ℚ) :
    dot (unaries.rows * unaries.cols + edges.length * unaries.cols ^ 2)
      (unaries.ravel.append ew.ravel).get x =
    marginalScore unaries.rows unaries.cols edges unaries.get ew.get (nodeVars unaries.cols x)
      (edgeVars unaries.rows unaries.cols x) := by
  have hsize : unaries.rows * unaries.cols + edges.length * unaries.cols ^ 2 =
      (unaries.ravel.append ew.ravel).size := by
    simp only [Vec.append, Mat.ravel, Ten.ravel, h0, h1, h2]; ring
  rw [hsize, dot_comm, dot_append, dot_ravel]
  unfold marginalScore nodeVars edgeVars
  congr 1
  · apply sum_congr rfl; intro i _; apply sum_congr rfl; intro s _; ring
  · unfold dot Ten.ravel Mat.ravel
    simp only [h0, h1, h2]
    set S := unaries.cols
    rw [sum_range_mul' (edges.length * S) S, sum_range_mul' edges.length S]
    apply sum_congr rfl; intro e _; apply sum_congr rfl; intro s hs
    apply sum_congr rfl; intro t ht
    rw [flat_div (mem_range.mp ht), flat_mod (mem_range.mp ht), flat_div (mem_range.mp hs),
      flat_mod (mem_range.mp hs), mul_comm (ew.get _ _ _)]
    congr 2
    ring

/-- LP variables encoding a labelling: indicator of the chosen state for every vertex and of the chosen
pair of states for every edge. -/
def encode (n S : ℕ) (edges : Edges) (y : ℕ → ℕ) (k : ℕ) : ℚ :=
  if k < n * S then (if k % S = y (k / S) then 1 else 0)
  else
    let k' := k - n * S
    if k' % S ^ 2 / S = y (edges.getD (k' / S ^ 2) (0, 0)).1 ∧
      k' % S ^ 2 % S = y (edges.getD (k' / S ^ 2) (0, 0)).2 then 1 else 0

theorem nodeVars_encode {n S : ℕ} {edges : Edges} {y : ℕ → ℕ} {i s : ℕ} (hi : i < n) (hs : s < S) :
    nodeVars S (encode n S edges y) i s = if s = y i then 1 else 0 := by
  unfold nodeVars encode
  rw [if_pos (flat_lt hi hs), flat_mod hs, flat_div hs]

theorem edgeVars_encode {n S : ℕ} {edges : Edges} {y : ℕ → ℕ} {e s t : ℕ} (hs : s < S)
    (ht : t < S) : edgeVars n S (encode n S edges y) e s t =
      if s = y (edges.getD e (0, 0)).1 ∧ t = y (edges.getD e (0, 0)).2 then 1 else 0 := by
  unfold edgeVars encode
  have h : s * S + t < S ^ 2 := by rw [pow_two]; exact flat_lt hs ht
  rw [if_neg (by omega)]
  simp only
  rw [show n * S + e * S ^ 2 + s * S + t - n * S = e * S ^ 2 + (s * S + t) by omega, flat_div h,
    flat_mod h, flat_div ht, flat_mod ht]

theorem sum_pair {S : ℕ} {a b : ℕ} (ha : a < S) (hb : b < S) (f : ℕ → ℕ → ℚ) :
    ∑ s ∈ range S, ∑ t ∈ range S, f s t * (if s = a ∧ t = b then 1 else 0) = f a b := by
  rw [sum_eq_single a, sum_eq_single b]
  · simp
  · intro t _ hne; simp [hne]
  · intro h; exact absurd (mem_range.mpr hb) h
  · intro s _ hne
    apply sum_eq_zero; intro t _; simp [hne]
  · intro h; exact absurd (mem_range.mpr ha) h

theorem getD_mem {edges : Edges} {e : ℕ} (he : e < edges.length) :
    edges.getD e (0, 0) ∈ edges := by
  rw [List.getD_eq_getElem _ _ he]
  exact List.getElem_mem _

theorem encode_polytope {n S : ℕ} {edges : Edges} (hE : EdgesIn n edges) {y : ℕ → ℕ}
    (hy : Valid n S y) :
    LocalPolytope n S edges (nodeVars S (encode n S edges y))
      (edgeVars n S (encode n S edges y)) := by
  refine ⟨?_, ?_, ?_, ?_, ?_⟩
  · intro i hi s hs
    rw [nodeVars_encode hi hs]; split <;> norm_num
  · intro e _ s hs t ht
    rw [edgeVars_encode hs ht]; split <;> norm_num
  · intro i hi
    rw [sum_congr rfl fun s hs => nodeVars_encode hi (mem_range.mp hs)]
    simp [hy i hi]
  · intro e he s hs
    have hr := hE _ (getD_mem he)
    rw [sum_congr rfl fun t ht => edgeVars_encode hs (mem_range.mp ht), nodeVars_encode hr.1 hs]
    have := hy _ hr.2
    by_cases h : s = y (edges.getD e (0, 0)).1
    · simp only [h, true_and, sum_ite_eq', mem_range, this, if_true]
    · simp only [h, false_and, if_false, sum_const_zero]
  · intro e he t ht
    have hr := hE _ (getD_mem he)
    rw [sum_congr rfl fun s hs => edgeVars_encode (mem_range.mp hs) ht, nodeVars_encode hr.2 ht]
    have := hy _ hr.1
    by_cases h : t = y (edges.getD e (0, 0)).2
    · simp only [h, and_true, sum_ite_eq', mem_range, this, if_true]
    · simp only [h, and_false, if_false, sum_const_zero]

theorem encode_score {n S : ℕ} {edges : Edges} (hE : EdgesIn n edges) {y : ℕ → ℕ}
    (hy : Valid n S y) (U : ℕ → ℕ → ℚ) (P : ℕ → ℕ → ℕ → ℚ) :
    marginalScore n S edges U P (nodeVars S (encode n S edges y))
      (edgeVars n S (encode n S edges y)) = score n edges U P y := by
  unfold marginalScore score
  congr 1
  · apply sum_congr rfl; intro i hi
    rw [sum_congr rfl fun s hs => by rw [nodeVars_encode (mem_range.mp hi) (mem_range.mp hs)]]
    exact sum_onehot' S _ (hy i (mem_range.mp hi)) _
  · apply sum_congr rfl; intro e he
    have hr := hE _ (getD_mem (mem_range.mp he))
    rw [← sum_pair (hy _ hr.1) (hy _ hr.2) (P e)]
    apply sum_congr rfl; intro s hs; apply sum_congr rfl; intro t ht
    rw [edgeVars_encode (mem_range.mp hs) (mem_range.mp ht)]

theorem marginalScore_neg {n S : ℕ} {edges : Edges} (U : ℕ → ℕ → ℚ) (P : ℕ → ℕ → ℕ → ℚ)
    (μ : ℕ → ℕ → ℚ) (ν : ℕ → ℕ → ℕ → ℚ) :
    marginalScore n S edges (fun i s => - U i s) (fun e s t => - P e s t) μ ν =
      - marginalScore n S edges U P μ ν := by
  unfold marginalScore
  simp only [neg_mul, sum_neg_distrib]
  ring

/-- **C07a.** Every labelling is a feasible point of the program which `inference_lp` builds (potentials
negated), and its objective value is minus the score of the labelling. -/
theorem C07_labellings_feasible (U : Mat) (edges : Edges) (P : ℕ → ℕ → ℕ → ℚ) (hn : 1 ≤ U.rows)
    (hS : 1 ≤ U.cols) (hE : EdgesIn U.rows edges) :
    ∃ p, build ⟨U.rows, U.cols, fun i s => - U.get i s⟩ edges
        ⟨edges.length, U.cols, U.cols, fun e a b => - P e a b⟩ = .ok p ∧
      ∀ y, Valid U.rows U.cols y → ∃ x, p.Feasible x ∧
        (∀ i < U.rows, ∀ s < U.cols, nodeVars U.cols x i s = if s = y i then 1 else 0) ∧
        dot p.nVars p.c.get x = - score U.rows edges U.get P y := by
  obtain ⟨p, hp, hfeas⟩ := C09_local_polytope ⟨U.rows, U.cols, fun i s => - U.get i s⟩ edges
    ⟨edges.length, U.cols, U.cols, fun e a b => - P e a b⟩ hn hS rfl rfl rfl hE
  refine ⟨p, hp, fun y hy => ⟨encode U.rows U.cols edges y, (hfeas _).mpr (encode_polytope hE hy),
    fun i hi s hs => nodeVars_encode hi hs, ?_⟩⟩
  rw [build_ok (unaries := ⟨U.rows, U.cols, fun i s => - U.get i s⟩) hn hS rfl rfl rfl] at hp
  injection hp with hp
  subst hp
  have := objective_eq ⟨U.rows, U.cols, fun i s => - U.get i s⟩ edges
    ⟨edges.length, U.cols, U.cols, fun e a b => - P e a b⟩ rfl rfl rfl
    (encode U.rows U.cols edges y)
  simp only at this ⊢
  rw [this, marginalScore_neg, encode_score hE hy]

/-- The solver finds an optimal solution of the program built for these potentials. -/
def SolvesExactly (solver : Solver) (U : Mat) (edges : Edges) (P : ℕ → ℕ → ℕ → ℚ) : Prop :=
  ∀ p, build ⟨U.rows, U.cols, fun i s => - U.get i s⟩ edges
      ⟨edges.length, U.cols, U.cols, fun e a b => - P e a b⟩ = .ok p → p.Optimal (solver p)

/-- What `inference_lp` returns, in terms of the point `x` the solver found. -/
theorem inferenceLP_ok {solver : Solver} {U : Mat} {pw : Pairwise} {edges : Edges}
    {P : ℕ → ℕ → ℕ → ℚ} (hP : Denotes U.cols edges.length pw P) (hn : 1 ≤ U.rows)
    (hS : 1 ≤ U.cols) (hE : EdgesIn U.rows edges) (hopt : SolvesExactly solver U edges P) :
    ∃ (x : ℕ → ℚ) (energy : ℚ),
      LocalPolytope U.rows U.cols edges (nodeVars U.cols x) (edgeVars U.rows U.cols x) ∧
      energy = - marginalScore U.rows U.cols edges U.get P (nodeVars U.cols x)
        (edgeVars U.rows U.cols x) ∧
      (∀ y', Valid U.rows U.cols y' → score U.rows edges U.get P y' ≤ - energy) ∧
      inferenceLP solver U pw edges true = .ok (
          .relaxed ⟨U.rows * U.cols, fun k => nodeVars U.cols x (k / U.cols) (k % U.cols)⟩
            ⟨edges.length * U.cols ^ 2, fun k => edgeVars U.rows U.cols x (k / U.cols ^ 2)
              (k % U.cols ^ 2 / U.cols) (k % U.cols ^ 2 % U.cols)⟩, energy) ∧
      inferenceLP solver U pw edges false = .ok (
        .discrete ⟨U.rows, fun i => argmaxN (nodeVars U.cols x i) U.cols⟩, energy) := by
  obtain ⟨p, hp, hlab⟩ := C07_labellings_feasible U edges P hn hS hE
  obtain ⟨p', hp', hfeas⟩ := C09_local_polytope ⟨U.rows, U.cols, fun i s => - U.get i s⟩ edges
    ⟨edges.length, U.cols, U.cols, fun e a b => - P e a b⟩ hn hS rfl rfl rfl hE
  rw [hp] at hp'
  injection hp' with hp'
  subst hp'
  obtain ⟨hx, hmin⟩ := hopt p hp
  set x := solver p with hxdef
  have hpoly : LocalPolytope U.rows U.cols edges (nodeVars U.cols x) (edgeVars U.rows U.cols x) :=
    (hfeas x).mp hx
  have hobj : dot p.nVars p.c.get x = - marginalScore U.rows U.cols edges U.get P
      (nodeVars U.cols x) (edgeVars U.rows U.cols x) := by
    have hp2 := hp
    rw [build_ok (unaries := ⟨U.rows, U.cols, fun i s => - U.get i s⟩) hn hS rfl rfl rfl] at hp2
    injection hp2 with hp2
    have := objective_eq ⟨U.rows, U.cols, fun i s => - U.get i s⟩ edges
      ⟨edges.length, U.cols, U.cols, fun e a b => - P e a b⟩ rfl rfl rfl x
    rw [hxdef] at this ⊢
    rw [← hp2] at this ⊢
    simp only at this ⊢
    rw [this, marginalScore_neg]
  have hnorm : ∀ i < U.rows, |∑ s ∈ range U.cols, x (i * U.cols + s) - 1| < 1 / 10000 := by
    intro i hi
    have := hpoly.normalised i hi
    unfold nodeVars at this
    rw [this]
    norm_num
  have hnorm2 : ∀ e < edges.length,
      |∑ k ∈ range (U.cols ^ 2), x (U.rows * U.cols + (e * U.cols ^ 2 + k)) - 1| < 1 / 10000 := by
    intro e he
    have hr := hE _ (getD_mem he)
    have h1 := hpoly.normalised _ hr.1
    rw [← sum_congr rfl fun s hs => hpoly.first e he s (mem_range.mp hs)] at h1
    rw [pow_two, sum_range_mul']
    have h2 : ∑ i ∈ range U.cols, ∑ j ∈ range U.cols,
        x (U.rows * U.cols + (e * (U.cols * U.cols) + (i * U.cols + j))) = 1 := by
      rw [← h1]
      apply sum_congr rfl; intro s _; apply sum_congr rfl; intro t _
      unfold edgeVars
      congr 1
      ring
    rw [h2]
    norm_num
  have hlp : lpGeneralGraph solver ⟨U.rows, U.cols, fun i s => - U.get i s⟩ edges
        ⟨edges.length, U.cols, U.cols, fun e a b => - P e a b⟩ =
      .ok (⟨U.rows, U.cols, fun i s => x (i * U.cols + s)⟩,
        ⟨edges.length, U.cols ^ 2, fun e k => x (U.rows * U.cols + (e * U.cols ^ 2 + k))⟩,
        dot p.nVars p.c.get x) := by
    unfold lpGeneralGraph
    rw [hp]
    simp only
    rw [if_neg (not_not.mpr hnorm), if_neg (not_not.mpr hnorm2)]
  refine ⟨x, dot p.nVars p.c.get x, hpoly, hobj, ?_, ?_, ?_⟩
  · intro y' hy'
    obtain ⟨x', hx', _, hval⟩ := hlab y' hy'
    have := hmin x' hx'
    rw [hval] at this
    linarith
  · unfold inferenceLP
    rw [validateParams_denotes hP]
    simp only
    rw [hlp]
    simp only [if_true, Mat.ravel]
    congr 4
    funext k
    unfold edgeVars
    congr 1
    have := Nat.div_add_mod (k % U.cols ^ 2) U.cols
    rw [mul_comm] at this
    omega
  · unfold inferenceLP
    rw [validateParams_denotes hP]
    simp only
    rw [hlp]
    rfl

/-- **C07b.** If the solver finds an optimum, `inference_lp` succeeds and minus the energy it reports is
an upper bound on the score of every labelling, relaxed or not. -/
theorem C07_upper_bound (solver : Solver) (U : Mat) (pw : Pairwise) (edges : Edges)
    (P : ℕ → ℕ → ℕ → ℚ) (hP : Denotes U.cols edges.length pw P) (hn : 1 ≤ U.rows)
    (hS : 1 ≤ U.cols) (hE : EdgesIn U.rows edges) (hopt : SolvesExactly solver U edges P)
    (relaxed : Bool) :
    ∃ y energy, inferenceLP solver U pw edges relaxed = .ok (y, energy) ∧
      ∀ y', Valid U.rows U.cols y' → score U.rows edges U.get P y' ≤ - energy := by
  obtain ⟨x, energy, _, _, hb, h1, h2⟩ := inferenceLP_ok hP hn hS hE hopt
  cases relaxed
  · exact ⟨_, energy, h2, hb⟩
  · exact ⟨_, energy, h1, hb⟩

/-- integral normalised vertex marginals are the indicator of their argmax. -/
theorem integral_onehot {S : ℕ} (hS : 1 ≤ S) {μ : ℕ → ℚ} (hint : ∀ s < S, μ s = 0 ∨ μ s = 1)
    (hsum : ∑ s ∈ range S, μ s = 1) :
    ∀ s < S, μ s = if s = argmaxN μ S then 1 else 0 := by
  have hnn : ∀ s ∈ range S, 0 ≤ μ s := by
    intro s hs
    rcases hint s (mem_range.mp hs) with h | h <;> rw [h]; norm_num
  have ha := argmaxN_lt μ hS
  have h1 : μ (argmaxN μ S) = 1 := by
    rcases hint _ ha with h | h
    · exfalso
      have : ∑ s ∈ range S, μ s ≤ 0 := by
        apply sum_nonpos
        intro s hs
        rw [← h]
        exact le_argmaxN μ (mem_range.mp hs)
      linarith
    · exact h
  intro s hs
  split
  · rename_i h; rw [h]; exact h1
  · rename_i hne
    have h2 : μ s + μ (argmaxN μ S) ≤ ∑ s ∈ range S, μ s := by
      rw [← Finset.sum_pair hne]
      apply sum_le_sum_of_subset_of_nonneg
      · intro t ht
        simp only [mem_insert, mem_singleton] at ht
        rcases ht with rfl | rfl
        · exact mem_range.mpr hs
        · exact mem_range.mpr ha
      · intro t ht _; exact hnn t ht
    rcases hint s hs with h | h
    · exact h
    · rw [h, h1, hsum] at h2; norm_num at h2

/-- edge marginals between vertices with deterministic marginals are deterministic. -/
theorem edge_determined {S a b : ℕ} {ν : ℕ → ℕ → ℚ} (ha : a < S) (hb : b < S)
    (hnn : ∀ s < S, ∀ t < S, 0 ≤ ν s t)
    (hrow : ∀ s < S, ∑ t ∈ range S, ν s t = if s = a then 1 else 0)
    (hcol : ∀ t < S, ∑ s ∈ range S, ν s t = if t = b then 1 else 0) :
    ∀ s < S, ∀ t < S, ν s t = if s = a ∧ t = b then 1 else 0 := by
  have hz1 : ∀ s < S, s ≠ a → ∀ t < S, ν s t = 0 := by
    intro s hs hne t ht
    have := hrow s hs
    rw [if_neg hne] at this
    exact (sum_eq_zero_iff_of_nonneg (fun t ht => hnn s hs t (mem_range.mp ht))).mp this t
      (mem_range.mpr ht)
  have hz2 : ∀ t < S, t ≠ b → ∀ s < S, ν s t = 0 := by
    intro t ht hne s hs
    have := hcol t ht
    rw [if_neg hne] at this
    exact (sum_eq_zero_iff_of_nonneg (fun s hs => hnn s (mem_range.mp hs) t ht)).mp this s
      (mem_range.mpr hs)
  intro s hs t ht
  by_cases h1 : s = a
  · by_cases h2 : t = b
    · subst h1 h2
      rw [if_pos ⟨rfl, rfl⟩]
      have := hrow s hs
      rw [if_pos rfl, sum_eq_single t (fun t' ht' hne => hz2 t' (mem_range.mp ht') hne s hs)
        (fun h => absurd (mem_range.mpr ht) h)] at this
      exact this
    · rw [if_neg (fun h => h2 h.2)]; exact hz2 t ht h2 s hs
  · rw [if_neg (fun h => h1 h.1)]; exact hz1 s hs h1 t ht

/-- **C08.** Let the solver find an optimum. `inference_lp` (not relaxed) returns an in-range labelling;
if the vertex marginals it returns with `relaxed=True` are all 0 or 1, that labelling has maximal score
and minus the reported energy is its score. -/
theorem C08_integral_is_MAP (solver : Solver) (U : Mat) (pw : Pairwise) (edges : Edges)
    (P : ℕ → ℕ → ℕ → ℚ) (hP : Denotes U.cols edges.length pw P) (hn : 1 ≤ U.rows)
    (hS : 1 ≤ U.cols) (hE : EdgesIn U.rows edges) (hopt : SolvesExactly solver U edges P) :
    ∃ (y : Labels) (u q : Vec) (energy : ℚ),
      inferenceLP solver U pw edges true = .ok (.relaxed u q, energy) ∧
      inferenceLP solver U pw edges false = .ok (.discrete y, energy) ∧
      y.size = U.rows ∧ Valid U.rows U.cols y.get ∧
      u.size = U.rows * U.cols ∧
      ((∀ k < u.size, u.get k = 0 ∨ u.get k = 1) →
        IsMAP U.rows U.cols edges U.get P y.get ∧
        score U.rows edges U.get P y.get = - energy) := by
  obtain ⟨x, energy, hpoly, hen, hb, h1, h2⟩ := inferenceLP_ok hP hn hS hE hopt
  have hvalid : Valid U.rows U.cols (fun i => argmaxN (nodeVars U.cols x i) U.cols) :=
    fun i _ => argmaxN_lt _ hS
  refine ⟨_, _, _, energy, h1, h2, rfl, hvalid, rfl, fun hint => ?_⟩
  simp only at hint ⊢
  have hnode : ∀ i < U.rows, ∀ s < U.cols, nodeVars U.cols x i s =
      if s = argmaxN (nodeVars U.cols x i) U.cols then 1 else 0 := by
    intro i hi
    apply integral_onehot hS _ (hpoly.normalised i hi)
    intro s hs
    have := hint (i * U.cols + s) (flat_lt hi hs)
    rwa [flat_div hs, flat_mod hs] at this
  have hsc : score U.rows edges U.get P (fun i => argmaxN (nodeVars U.cols x i) U.cols) =
      - energy := by
    rw [hen, neg_neg]
    unfold score marginalScore
    congr 1
    · apply sum_congr rfl; intro i hi
      rw [sum_congr rfl fun s hs => by
        rw [hnode i (mem_range.mp hi) s (mem_range.mp hs)]]
      exact (sum_onehot' U.cols _ (argmaxN_lt _ hS) _).symm
    · apply sum_congr rfl; intro e he
      have he' := mem_range.mp he
      have hr := hE _ (getD_mem he')
      have hdet := edge_determined (argmaxN_lt (nodeVars U.cols x (edges.getD e (0, 0)).1) hS)
        (argmaxN_lt (nodeVars U.cols x (edges.getD e (0, 0)).2) hS) (hpoly.nonneg_edge e he')
        (fun s hs => by rw [hpoly.first e he' s hs, hnode _ hr.1 s hs])
        (fun t ht => by rw [hpoly.second e he' t ht, hnode _ hr.2 t ht])
      rw [← Props.sum_pair (argmaxN_lt (nodeVars U.cols x (edges.getD e (0, 0)).1) hS)
        (argmaxN_lt (nodeVars U.cols x (edges.getD e (0, 0)).2) hS) (P e)]
      apply sum_congr rfl; intro s hs; apply sum_congr rfl; intro t ht
      rw [hdet s (mem_range.mp hs) t (mem_range.mp ht)]
  exact ⟨⟨hvalid, fun y' hy' => by rw [hsc]; exact hb y' hy'⟩, hsc⟩

/-- concrete instance: one vertex with scores `(0, 3)` and no edge; the solver answering `(0, 1)` is
optimal, its answer is integral, and `inference_lp` returns state 1 with energy `-3`. -/
example : SolvesExactly (fun _ k => if k = 1 then 1 else 0) ⟨1, 2, fun _ s => 3 * s⟩ []
      (fun _ _ _ => 0) ∧
    (inferenceLP (fun _ k => if k = 1 then 1 else 0) ⟨1, 2, fun _ s => 3 * s⟩
      (.mat ⟨2, 2, fun _ _ => 0⟩) [] false).map (fun r => match r with
        | (.discrete y, en) => (y.size, y.get 0, en)
        | _ => (0, 0, 0)) = .ok (1, 1, -3) := by
  constructor
  · intro p hp
    rw [build_ok (by decide) (by decide) rfl rfl rfl] at hp
    injection hp with hp
    subst hp
    refine ⟨⟨?_, ?_⟩, ?_⟩
    · intro k _; simp only; split <;> norm_num
    · decide +kernel
    · rintro x' ⟨hpos, hrow⟩
      have h0 := hpos 0 (by decide)
      have h1 := hrow 0 (by decide)
      simp only at h1
      rw [rowDot_low (by decide) x' (by decide)] at h1
      simp [sum_range_succ] at h1
      simp only [dot, Mat.ravel, Ten.ravel, Vec.append]
      simp [sum_range_succ]
      linarith
  · decide +kernel

end Verif.Props
