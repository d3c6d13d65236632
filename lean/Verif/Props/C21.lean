import Verif.Lemmas.TypedLabels

/-!
# C21: NodeTypeEdgeFeatureGraphCRF — score equals weights times features
# C73: the instance check accepts the instances that fit
-/

namespace Verif.Props

open Finset Verif.Common Verif.GraphCRF Verif.Spec Verif.Typed

/-- Table of unary potentials of a type. -/
def unaryAt (us : List Mat) (t i s : ℕ) : ℚ := (us.getD t ⟨0, 0, fun _ _ => 0⟩).get i s

/-- Number of weights of a model with several types. -/
def typedSize (T : ℕ) (S F : List ℕ) (Fe : ℕ → ℕ → ℕ) : ℕ :=
  nodeWeights S F T + edgeWeights T S Fe (T * T)

theorem size_eq {m : Typed.Model} (hm : Good m) :
    m.size = typedSize m.nTypes m.nStates m.nFeatures m.nEdgeFeatures := by
  unfold Typed.Model.size typedSize
  rw [sizeUnaries_eq hm, sizePairwise_eq]

/-- the tables of potentials. -/
theorem potentials_ok {m : Typed.Model} {x : Typed.X} (hm : Good m)
    (h1 : m.nTypes ≤ x.nodeFeatures.length) (h2 : m.nTypes * m.nTypes ≤ x.edgeFeatures.length)
    (hf : TypedFits m.nTypes m.nFeatures m.nEdgeFeatures x.nodeFeatures x.edges x.edgeFeatures)
    {w : Vec} (hw : w.size = m.size) :
    ∃ us ps, Typed.unaryPotentials m x w = .ok us ∧ Typed.pairwisePotentials m x w = .ok ps ∧
      us.length = m.nTypes ∧ ps.length = m.nTypes * m.nTypes ∧
      us.map Mat.rows = counts m.nTypes x.nodeFeatures ∧ us.map Mat.cols = m.nStates ∧
      (∀ t < m.nTypes, ∀ i s, unaryAt us t i s =
        typedUnary m.nStates m.nFeatures x.nodeFeatures w.get t i s) ∧
      ∀ a < m.nTypes, ∀ b < m.nTypes, ∀ e, ∀ r < m.nStates.getD a 0, ∀ s < m.nStates.getD b 0,
        tenAt ps (a * m.nTypes + b) e r s = typedPairwise m.nTypes m.nStates m.nFeatures
          m.nEdgeFeatures x.edgeFeatures w.get a b e r s := by
  obtain ⟨ps, hps, hlen, hget⟩ := pairwise_ok hm h2 hf hw
  refine ⟨_, ps, Typed.unary_ok hm h1 hf hw, hps, by simp, hlen, ?_, ?_, ?_, hget⟩
  · rw [List.map_map]; rfl
  · rw [List.map_map]
    have := map_range_getD m.nStates
    rw [hm.states] at this
    exact this
  · intro t ht i s
    unfold unaryAt
    rw [getD_map_range _ _ _ ht]

/-- **C21.** For every correctly constructed `NodeTypeEdgeFeatureGraphCRF` (any number of types), every
instance whose arrays fit, every weight vector of the advertised size and every labelling with labels
in the ranges of the types: potentials and joint feature are computed without error, the joint feature
has the advertised size, and weights times joint feature equals the energy under the potentials used
by inference (missing tables of edges without features count as zero). Both equal the score computed
from the weights, with the weights of each type stored state by state and those of each pair of types
stored edge feature by edge feature. -/
theorem C21_typed_energy {T : ℕ} {S F : List ℕ} {rows cols : ℕ} {Fe : ℕ → ℕ → ℕ}
    {cw : Option (List Vec)} {m : Typed.Model} (hm : construct T S F rows cols Fe cw = .ok m)
    (x : Typed.X) (h1 : x.nodeFeatures.length = T) (h2 : x.edgeFeatures.length = T * T)
    (hf : TypedFits T F Fe x.nodeFeatures x.edges x.edgeFeatures)
    (w : Vec) (hw : w.size = typedSize T S F Fe)
    (y : List ℤ) (hy : LabelsFit S (counts T x.nodeFeatures) y) :
    ∃ us ps ψ, Typed.unaryPotentials m x w = .ok us ∧ Typed.pairwisePotentials m x w = .ok ps ∧
      Typed.jointFeature m x (.discrete y) = .ok ψ ∧ ψ.size = m.size ∧ m.size = typedSize T S F Fe ∧
      w.dot ψ = .ok (typedEnergy T (counts T x.nodeFeatures) x.edges (unaryAt us)
        (fun a b => tenAt ps (a * T + b)) (stateOf S (counts T x.nodeFeatures) y)) ∧
      w.dot ψ = .ok (typedEnergy T (counts T x.nodeFeatures) x.edges
        (typedUnary S F x.nodeFeatures w.get) (typedPairwise T S F Fe x.edgeFeatures w.get)
        (stateOf S (counts T x.nodeFeatures) y)) := by
  obtain ⟨hg, rfl, rfl, rfl, rfl⟩ := construct_good hm
  have hsz := size_eq hg
  have hw' : w.size = m.size := by rw [hw, hsz]
  obtain ⟨us, ps, hus, hps, _, _, _, _, huget, hpget⟩ := potentials_ok hg h1.ge h2.ge hf hw'
  obtain ⟨μ, ν, hmarg, hμ, hν⟩ := marginals_discrete hg h1.ge hf hy
  obtain ⟨ψ, hψ, hψs, hψd⟩ := jointFeature_of_marginals hg h1.ge h2.ge hf hmarg
  have hst : ∀ t < m.nTypes, ∀ i < rowsOf x.nodeFeatures t,
      stateOf m.nStates (counts m.nTypes x.nodeFeatures) y t i < m.nStates.getD t 0 := by
    intro t ht i hi
    exact (stateOf_spec hy (by rw [counts_length]; exact ht) (by rw [counts_getD ht]; exact hi)).2.1
  have hends : ∀ a < m.nTypes, ∀ b < m.nTypes,
      ∀ e < (edgesOf x.edges (a * m.nTypes + b)).length,
      ((edgesOf x.edges (a * m.nTypes + b)).getD e (0, 0)).1.toNat < rowsOf x.nodeFeatures a ∧
      ((edgesOf x.edges (a * m.nTypes + b)).getD e (0, 0)).2.toNat < rowsOf x.nodeFeatures b := by
    intro a ha b hb e he
    have hmem : (edgesOf x.edges (a * m.nTypes + b)).getD e (0, 0) ∈
        edgesOf x.edges (a * m.nTypes + b) := by
      rw [List.getD_eq_getElem?_getD, List.getElem?_eq_getElem he]
      exact List.getElem_mem he
    have := hf.edges_in a ha b hb _ hmem
    omega
  have hE : dot ψ.size w.get ψ.get = typedEnergy m.nTypes (counts m.nTypes x.nodeFeatures) x.edges
      (typedUnary m.nStates m.nFeatures x.nodeFeatures w.get)
      (typedPairwise m.nTypes m.nStates m.nFeatures m.nEdgeFeatures x.edgeFeatures w.get)
      (stateOf m.nStates (counts m.nTypes x.nodeFeatures) y) := by
    rw [hψd]
    unfold typedEnergy
    congr 1
    · apply sum_congr rfl; intro t ht
      have ht' := mem_range.mp ht
      rw [counts_getD ht']
      apply sum_congr rfl; intro i hi
      have hi' := mem_range.mp hi
      rw [sum_eq_single (stateOf m.nStates (counts m.nTypes x.nodeFeatures) y t i)]
      · rw [hμ t ht' i hi', if_pos rfl, one_mul]
      · intro s _ hs
        rw [hμ t ht' i hi', if_neg hs, zero_mul]
      · intro h
        exact absurd (mem_range.mpr (hst t ht' i hi')) h
    · apply sum_congr rfl; intro a ha
      apply sum_congr rfl; intro b hb
      apply sum_congr rfl; intro e he
      have ha' := mem_range.mp ha
      have hb' := mem_range.mp hb
      have he' := mem_range.mp he
      have hq := hends a ha' b hb' e he'
      have s1 := hst a ha' _ hq.1
      have s2 := hst b hb' _ hq.2
      rw [sum_eq_single _ _ (fun h => absurd (mem_range.mpr s1) h),
        sum_eq_single _ _ (fun h => absurd (mem_range.mpr s2) h)]
      · rw [hν a ha' b hb' e he' _ s1 _ s2, if_pos ⟨rfl, rfl⟩, one_mul]
      · intro s hs hne
        rw [hν a ha' b hb' e he' _ s1 _ (mem_range.mp hs), if_neg (fun h => hne h.2), zero_mul]
      · intro r hr hne
        apply sum_eq_zero
        intro s hs
        rw [hν a ha' b hb' e he' _ (mem_range.mp hr) _ (mem_range.mp hs),
          if_neg (fun h => hne h.1), zero_mul]
  have hdot : w.dot ψ = .ok (dot ψ.size w.get ψ.get) := by
    unfold Vec.dot
    rw [if_pos (by rw [hw', hψs]), hw', hψs]
  refine ⟨us, ps, ψ, hus, hps, hψ, hψs, hsz, ?_, ?_⟩
  · rw [hdot, hE]
    congr 1
    unfold typedEnergy
    congr 1
    · apply sum_congr rfl; intro t ht
      apply sum_congr rfl; intro i _
      rw [huget t (mem_range.mp ht)]
    · apply sum_congr rfl; intro a ha
      apply sum_congr rfl; intro b hb
      apply sum_congr rfl; intro e he
      have hq := hends a (mem_range.mp ha) b (mem_range.mp hb) e (mem_range.mp he)
      exact (hpget a (mem_range.mp ha) b (mem_range.mp hb) e _ (hst a (mem_range.mp ha) _ hq.1) _
        (hst b (mem_range.mp hb) _ hq.2)).symm
  · rw [hdot, hE]

/-- The same for relaxed labellings as returned by ad3 (one table of marginals per type and per pair of
types): weights times joint feature is the expected score under the marginals. -/
theorem C21_typed_relaxed {T : ℕ} {S F : List ℕ} {rows cols : ℕ} {Fe : ℕ → ℕ → ℕ}
    {cw : Option (List Vec)} {m : Typed.Model} (hm : construct T S F rows cols Fe cw = .ok m)
    (x : Typed.X) (h1 : x.nodeFeatures.length = T) (h2 : x.edgeFeatures.length = T * T)
    (hf : TypedFits T F Fe x.nodeFeatures x.edges x.edgeFeatures)
    (w : Vec) (hw : w.size = typedSize T S F Fe) (μ ν : ℕ → ℕ → ℕ → ℚ) :
    ∃ ψ, Typed.jointFeature m x (.lists
        ((List.range T).map fun t => ⟨rowsOf x.nodeFeatures t, S.getD t 0, μ t⟩)
        ((List.range (T * T)).map fun k => ⟨(edgesOf x.edges k).length,
          S.getD (k / T) 0 * S.getD (k % T) 0, ν k⟩)) = .ok ψ ∧ ψ.size = m.size ∧
      w.dot ψ = .ok (
        ∑ t ∈ range T, ∑ i ∈ range (rowsOf x.nodeFeatures t), ∑ s ∈ range (S.getD t 0),
          μ t i s * typedUnary S F x.nodeFeatures w.get t i s +
        ∑ a ∈ range T, ∑ b ∈ range T, ∑ e ∈ range (edgesOf x.edges (a * T + b)).length,
        ∑ r ∈ range (S.getD a 0), ∑ s ∈ range (S.getD b 0),
          ν (a * T + b) e (r * S.getD b 0 + s) *
            typedPairwise T S F Fe x.edgeFeatures w.get a b e r s) := by
  obtain ⟨hg, rfl, rfl, rfl, rfl⟩ := construct_good hm
  obtain ⟨ψ, hψ, hψs, hψd⟩ := jointFeature_of_marginals hg h1.ge h2.ge hf (y := .lists _ _)
    (μ := μ) (ν := ν) rfl
  refine ⟨ψ, hψ, hψs, ?_⟩
  rw [← hψd]
  unfold Vec.dot
  have : w.size = ψ.size := by rw [hw, hψs, size_eq hg]
  rw [if_pos this, this]

/-! ### marginals of all types in one array -/

theorem cutUnary_eq (u : Mat) (l : List (ℕ × ℕ)) : ∀ i j, cutUnary u i j l =
    scan (fun (o : ℕ × ℕ) (p : ℕ × ℕ) => subMat u o.1 p.1 o.2 p.2) id (i, j) l := by
  induction l with
  | nil => intro i j; rfl
  | cons p l ih =>
    intro i j
    obtain ⟨n, s⟩ := p
    unfold cutUnary scan
    rw [ih]
    rfl

theorem cutPairs_eq (m : Typed.Model) (u : Mat) (l : List ((ℕ × ℕ) × RawEdges)) : ∀ i j,
    cutPairs m u i j l = scan (fun (o : ℕ × ℕ) (p : (ℕ × ℕ) × RawEdges) =>
      subMat u o.1 p.2.length o.2 (m.states p.1.1 * m.states p.1.2))
      (fun p => (p.2.length, m.states p.1.1 * m.states p.1.2)) (i, j) l := by
  induction l with
  | nil => intro i j; rfl
  | cons p l ih =>
    intro i j
    obtain ⟨q, es⟩ := p
    unfold cutPairs scan
    rw [ih]
    rfl

theorem subMat_eq {a : Mat} {i r j c : ℕ} (h : i + r ≤ a.rows) (h' : j + c ≤ a.cols) :
    subMat a i r j c = ⟨r, c, fun p q => a.get (i + p) (j + q)⟩ := by
  unfold subMat
  rw [Nat.min_eq_left h, Nat.min_eq_left (by omega), Nat.min_eq_left h', Nat.min_eq_left (by omega),
    Nat.add_sub_cancel_left, Nat.add_sub_cancel_left]

theorem sum_typed_pair (f g : ℕ → ℕ) (T : ℕ) :
    ∑ t ∈ range T, (f t, g t) = (∑ t ∈ range T, f t, ∑ t ∈ range T, g t) := by
  induction T with
  | zero => rfl
  | succ T ih => rw [sum_range_succ, sum_range_succ, sum_range_succ, ih]; rfl

theorem sum_range_mono (f : ℕ → ℕ) {a b : ℕ} (h : a < b) :
    ∑ k ∈ range a, f k + f a ≤ ∑ k ∈ range b, f k := by
  rw [← sum_range_succ]
  exact sum_le_sum_of_subset (range_subset_range.mpr h)

/-- Marginals of all types in one array (rows: nodes, columns: labels) and of all edges in one array
(rows: edges, columns: pairs of states) are cut into the blocks of the types and pairs of types. -/
theorem C21_typed_blocks {T : ℕ} {S F : List ℕ} {rows cols : ℕ} {Fe : ℕ → ℕ → ℕ}
    {cw : Option (List Vec)} {m : Typed.Model} (hm : construct T S F rows cols Fe cw = .ok m)
    (x : Typed.X) (h1 : x.nodeFeatures.length = T)
    (hf : TypedFits T F Fe x.nodeFeatures x.edges x.edgeFeatures) (u pw : Mat)
    (hur : u.rows = ∑ t ∈ range T, rowsOf x.nodeFeatures t) (huc : u.cols = S.sum)
    (hpr : pw.rows = ∑ k ∈ range (T * T), (edgesOf x.edges k).length)
    (hpc : pw.cols = ∑ k ∈ range (T * T), S.getD (k / T) 0 * S.getD (k % T) 0) :
    Typed.jointFeature m x (.blocks u pw) = Typed.jointFeature m x (.lists
      ((List.range T).map fun t => ⟨rowsOf x.nodeFeatures t, S.getD t 0, fun i s =>
        u.get (∑ k ∈ range t, rowsOf x.nodeFeatures k + i) (before S t + s)⟩)
      ((List.range (T * T)).map fun k => ⟨(edgesOf x.edges k).length,
        S.getD (k / T) 0 * S.getD (k % T) 0, fun e q =>
        pw.get (∑ l ∈ range k, (edgesOf x.edges l).length + e)
          (∑ l ∈ range k, S.getD (l / T) 0 * S.getD (l % T) 0 + q)⟩)) := by
  obtain ⟨hg, rfl, rfl, rfl, rfl⟩ := construct_good hm
  unfold Typed.jointFeature
  have : Typed.marginals m x (.blocks u pw) = Typed.marginals m x (.lists
      ((List.range m.nTypes).map fun t => ⟨rowsOf x.nodeFeatures t, m.nStates.getD t 0, fun i s =>
        u.get (∑ k ∈ range t, rowsOf x.nodeFeatures k + i) (before m.nStates t + s)⟩)
      ((List.range (m.nTypes * m.nTypes)).map fun k => ⟨(edgesOf x.edges k).length,
        m.nStates.getD (k / m.nTypes) 0 * m.nStates.getD (k % m.nTypes) 0, fun e q =>
        pw.get (∑ l ∈ range k, (edgesOf x.edges l).length + e)
          (∑ l ∈ range k, m.nStates.getD (l / m.nTypes) 0 * m.nStates.getD (l % m.nTypes) 0 + q)⟩)) := by
    unfold Typed.marginals
    simp only
    congr 2
    · have hz : ((nodeMats m x).map Mat.rows).zip m.nStates =
          (List.range m.nTypes).map fun t => (rowsOf x.nodeFeatures t, m.nStates.getD t 0) := by
        have e1 := map_range_getD m.nStates
        rw [hg.states] at e1
        conv_lhs => rw [rows_eq hg h1.ge, ← e1]
        unfold counts
        rw [zip_map_range]
      rw [cutUnary_eq, hz, scan_range]
      apply List.map_congr_left
      intro t ht
      have ht' := List.mem_range.mp ht
      simp only [id]
      rw [sum_typed_pair]
      simp only [Prod.mk_add_mk, zero_add]
      rw [← before_eq_sum]
      refine subMat_eq ?_ ?_
      · rw [hur]
        exact sum_range_mono _ ht'
      · rw [huc, ← before_succ]
        exact before_le_sum _ _
    · have hz2 : (typePairs m.nTypes).zip (edgeLists x) =
          (List.range (m.nTypes * m.nTypes)).map fun k =>
          ((k / m.nTypes, k % m.nTypes), edgesOf x.edges k) := by
        rw [typePairs_eq, edgeLists_eq hf.edges_length, zip_map_range]
      rw [cutPairs_eq, hz2, scan_range]
      apply List.map_congr_left
      intro k hk
      have hk' := List.mem_range.mp hk
      simp only
      rw [sum_typed_pair]
      simp only [Prod.mk_add_mk, zero_add]
      refine subMat_eq ?_ ?_
      · rw [hpr]
        exact sum_range_mono (fun k => (edgesOf x.edges k).length) hk'
      · rw [hpc]
        exact sum_range_mono (fun k => m.nStates.getD (k / m.nTypes) 0 *
          m.nStates.getD (k % m.nTypes) 0) hk'
  rw [this]

/-! ### C73 -/

/-- **C73, as far as it is true.** The instance check accepts exactly the instances whose arrays fit,
except that surplus arrays of node or edge features are not noticed: only the first ones are looked
at. -/
theorem C73_partial {T : ℕ} {S F : List ℕ} {rows cols : ℕ} {Fe : ℕ → ℕ → ℕ}
    {cw : Option (List Vec)} {m : Typed.Model} (hm : construct T S F rows cols Fe cw = .ok m)
    (x : Typed.X) : checkSizeX m x = .ok () ↔
      T ≤ x.nodeFeatures.length ∧ T * T ≤ x.edgeFeatures.length ∧
      TypedFits T F Fe x.nodeFeatures x.edges x.edgeFeatures := by
  obtain ⟨hg, rfl, rfl, rfl, rfl⟩ := construct_good hm
  exact checkSizeX_iff hg x

/-- **C73 is violated**: if an instance is accepted, it is also accepted with any further arrays of node
and edge features appended, though the message says "Expected one node feature array per node type". -/
theorem C73_violated {T : ℕ} {S F : List ℕ} {rows cols : ℕ} {Fe : ℕ → ℕ → ℕ}
    {cw : Option (List Vec)} {m : Typed.Model} (hm : construct T S F rows cols Fe cw = .ok m)
    (x : Typed.X) (hx : checkSizeX m x = .ok ()) (more more' : List (Option Mat)) :
    checkSizeX m ⟨x.nodeFeatures ++ more, x.edges, x.edgeFeatures ++ more'⟩ = .ok () := by
  obtain ⟨hg, rfl, rfl, rfl, rfl⟩ := construct_good hm
  obtain ⟨h1, h2, hf⟩ := (checkSizeX_iff hg x).mp hx
  have hn : ∀ t < m.nTypes, (x.nodeFeatures ++ more).getD t none = x.nodeFeatures.getD t none := by
    intro t ht
    exact List.getD_append _ _ _ _ (by omega)
  have he : ∀ a < m.nTypes, ∀ b < m.nTypes, (x.edgeFeatures ++ more').getD (a * m.nTypes + b) none =
      x.edgeFeatures.getD (a * m.nTypes + b) none := by
    intro a ha b hb
    exact List.getD_append _ _ _ _ ((flat_lt ha hb).trans_le h2)
  rw [checkSizeX_iff hg]
  refine ⟨by simp only [List.length_append]; omega, by simp only [List.length_append]; omega,
    hf.edges_length, ?_, ?_, ?_, ?_⟩
  · intro t ht M hM
    simp only at hM
    rw [hn t ht] at hM
    exact hf.node_cols t ht M hM
  · intro a ha b hb e hee
    have := hf.edges_in a ha b hb e hee
    unfold rowsOf
    simp only
    rw [hn a ha, hn b hb]
    exact this
  · intro a ha b hb
    unfold rowsOf
    simp only
    rw [he a ha b hb]
    exact hf.efeat_rows a ha b hb
  · intro a ha b hb M hM
    simp only at hM
    rw [he a ha b hb] at hM
    exact hf.efeat_cols a ha b hb M hM

/-! ### an example with two types -/

/-- two types with 2 and 3 states and 1 and 2 features; edges within the first type and between the
types. -/
def exTyped : Except PyErr Typed.Model :=
  construct 2 [2, 3] [1, 2] 2 2 (fun a b => if a = 1 ∧ b = 1 then 0 else 1) none

/-- two nodes of the first type, one of the second. -/
def exTypedX : Typed.X :=
  ⟨[some ⟨2, 1, fun i _ => i + 1⟩, some ⟨1, 2, fun _ f => 3 + f⟩],
   [some [(0, 1)], some [(1, 0)], none, none],
   [some ⟨1, 1, fun _ _ => 7⟩, some ⟨1, 1, fun _ _ => 5⟩, none, none]⟩

/-- The hypotheses of the theorems above can be met. -/
example : ∃ m, exTyped = .ok m ∧ checkSizeX m exTypedX = .ok () ∧
    LabelsFit [2, 3] (counts 2 exTypedX.nodeFeatures) [1, 0, 4] ∧ m.size = 24 ∧
    (Typed.jointFeature m exTypedX (.discrete [1, 0, 4])).toOption.map
      (fun ψ => (List.range ψ.size).map ψ.get) =
      some [2, 1, 0, 0, 0, 0, 3, 4, 0, 0, 7, 0, 0, 0, 5, 0, 0, 0, 0, 0, 0, 0, 0, 0] := by
  refine ⟨_, rfl, by decide +kernel, ?_, by decide +kernel, by decide +kernel⟩
  unfold LabelsFit
  decide +kernel

end Verif.Props
