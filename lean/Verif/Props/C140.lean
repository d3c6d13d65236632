import Verif.Spec.TypedPrediction
import Verif.Props.C132

/-!
# C140: predictions of a `NodeTypeEdgeFeatureGraphCRF` and their score
-/

namespace Verif.Props

open Finset Verif.Common Verif.Spec Verif.Learner Verif.Typed Verif.Lemmas

section

variable {T : ℕ} {S F : List ℕ} {rows cols : ℕ} {Fe : ℕ → ℕ → ℕ} {cw : Option (List Vec)} {m : Typed.Model}

/-- inference with an exact solver. -/
theorem typed_predicts (hm : construct T S F rows cols Fe cw = .ok m) (hpos : ∀ t < T, 0 < S.getD t 0) {solver : Typed.Solver}
    (hs : TypedExact solver) {x : Typed.X} (hx : TypedGood T F Fe x) (w : ℕ → ℚ) :
    ∃ z, (typedModel solver m).inference x w = .discrete z ∧ LabelsFit S (counts T x.nodeFeatures) z ∧
      ∀ z', LabelsFit S (counts T x.nodeFeatures) z' → typedScore T S F Fe x w z' ≤ typedScore T S F Fe x w z := by
  obtain ⟨hg, e1, e2, e3, e4⟩ := construct_good hm
  have hsz : m.size = typedSize T S F Fe := by rw [size_eq hg, e1, e2, e3, e4]
  have hT : 0 < T := e1 ▸ hg.pos
  have hST : S.length = T := by rw [← e1, ← e2]; exact hg.states
  obtain ⟨us, ps, hus, hps, hl, -, hrows, hcols, -, -⟩ := potentials_ok (m := m) (x := x) (w := ⟨m.size, w⟩) hg
    (by rw [e1]; exact hx.1.ge) (by rw [e1]; exact hx.2.1.ge) (by rw [e1, e3, e4]; exact hx.2.2) rfl
  rw [e1] at hl hrows
  rw [e2] at hcols
  obtain ⟨r, z, h1, h2, h3, h4, h5⟩ := hs us ps (edgeLists x) (by
    intro h
    rw [h] at hl
    simp at hl
    omega) (by
    intro u hu
    obtain ⟨t, ht, rfl⟩ := List.getElem_of_mem hu
    have := hpos t (hl ▸ ht)
    rw [← hcols, List.getD_eq_getElem _ _ (by simpa using ht), List.getElem_map] at this
    exact this) (by rw [hrows]; exact typed_edges_in hx)
  rw [hrows, hcols] at h4
  rw [hrows, hcols, hl] at h5
  have key : ∀ z', LabelsFit S (counts T x.nodeFeatures) z' → typedEnergy T (counts T x.nodeFeatures) x.edges (unaryAt us)
      (fun a b => tenAt ps (a * T + b)) (stateOf S (counts T x.nodeFeatures) z') = typedScore T S F Fe x w z' := by
    intro z' hz'
    obtain ⟨us', ps', ψ, a1, a2, -, -, -, a3, a4⟩ := C21_typed_energy hm x hx.1 hx.2.1 hx.2.2 ⟨m.size, w⟩ hsz z' hz'
    rw [hus, Except.ok.injEq] at a1
    rw [hps, Except.ok.injEq] at a2
    subst a1 a2
    rw [a3, Except.ok.injEq] at a4
    exact a4
  refine ⟨z, ?_, h4, fun z' hz' => ?_⟩
  · change (okD (.discrete [], 0) (Typed.inference solver m false x ⟨m.size, w⟩ false)).1 = _
    unfold Typed.inference
    rw [GraphCRF.checkSizeW_ok (show (⟨m.size, w⟩ : Vec).size = m.size from rfl), hus, hps]
    simp only [bind, Except.bind]
    unfold inferenceMulti
    rw [h1]
    simp only [bind, Except.bind, h2, Bool.false_and, Bool.false_eq_true, if_false, h3]
    rfl
  · have := h5 z' hz'
    rw [typedEnergy_edges (edgesOf_lists x), typedEnergy_edges (edgesOf_lists x), key z' hz', key z h4] at this
    exact this

/-- **C140 (prediction).** With an exact AD3, whatever the weights, `inference` returns a labelling in which every node has a label of
its type and whose score, weights times joint feature, is maximal. -/
theorem C140_predicts (hm : construct T S F rows cols Fe cw = .ok m) (hpos : ∀ t < T, 0 < S.getD t 0) (solver : Typed.Solver)
    (hs : TypedExact solver) (x : Typed.X) (hx : TypedGood T F Fe x) (w : ℕ → ℚ) :
    ∃ z, (typedModel solver m).inference x w = .discrete z ∧ LabelsFit S (counts T x.nodeFeatures) z ∧
      ∀ z', LabelsFit S (counts T x.nodeFeatures) z' →
        ∑ k ∈ range (typedModel solver m).dim, w k * (typedModel solver m).jointFeature x (.discrete z') k ≤
        ∑ k ∈ range (typedModel solver m).dim, w k * (typedModel solver m).jointFeature x (.discrete z) k := by
  obtain ⟨z, h1, h2, h3⟩ := typed_predicts hm hpos hs hx w
  refine ⟨z, h1, h2, fun z' hz' => ?_⟩
  have := h3 z' hz'
  rw [← typed_sum hm hx hz' w, ← typed_sum hm hx h2 w] at this
  exact this

/-! ### labels by type -/

theorem labelLists_length {n : List ℕ} {ys : List (List ℤ)} (h : LabelLists S n ys) : ys.length = n.length := by
  rw [← h.1, List.length_map]

/-- unflattening a labelling gives the states by type. -/
theorem unflatten_states (hm : construct T S F rows cols Fe cw = .ok m) {x : Typed.X} (h1 : x.nodeFeatures.length = T)
    (hs : ∀ f ∈ x.nodeFeatures, f ≠ none) {y : List ℤ} (hy : LabelsFit S (counts T x.nodeFeatures) y) :
    ∃ zs, unflattenY m x y = .ok zs ∧ LabelLists S (counts T x.nodeFeatures) zs ∧
      ∀ t < T, ∀ i < (counts T x.nodeFeatures).getD t 0, labelAt zs t i = stateOf S (counts T x.nodeFeatures) y t i := by
  obtain ⟨hg, rfl, rfl, rfl, rfl⟩ := construct_good hm
  set n := counts m.nTypes x.nodeFeatures with hn
  have hnl : n.length = m.nTypes := counts_length _ _
  have hle : ∀ t < m.nTypes, before n t + rowsOf x.nodeFeatures t ≤ y.length := by
    intro t ht
    rw [hy.1, ← counts_getD ht, ← hn, ← before_succ]
    exact before_le_sum _ _
  have hget : ∀ t < m.nTypes, (((List.range m.nTypes).map fun t => (slice y (before n t) (rowsOf x.nodeFeatures t)).map
      fun z => z - (before m.nStates t : ℤ)).getD t []) = (List.range (n.getD t 0)).map fun i =>
        (stateOf m.nStates n y t i : ℤ) := by
    intro t ht
    rw [getD_map_range _ _ _ ht, slice_eq _ _ _ (hle t ht), List.map_map, hn, counts_getD ht, ← hn]
    refine List.map_congr_left fun i hi => ?_
    have hi' : i < n.getD t 0 := by rw [hn, counts_getD ht]; exact List.mem_range.mp hi
    exact ((stateOf_spec hy (hnl.symm ▸ ht) hi').1).symm
  refine ⟨_, by rw [unflattenY_eq h1 hs, if_neg (not_not.mpr hy.1)], ⟨?_, ?_⟩, ?_⟩
  · have e : n = (List.range m.nTypes).map (rowsOf x.nodeFeatures) := hn
    rw [List.map_map]
    conv_rhs => rw [e]
    refine List.map_congr_left fun t ht => ?_
    have := hle t (List.mem_range.mp ht)
    simp only [Function.comp]
    rw [List.length_map, slice_eq _ _ _ this, List.length_map, List.length_range]
  · intro t ht l hl
    rw [hnl] at ht
    rw [hget t ht] at hl
    obtain ⟨i, hi, rfl⟩ := List.mem_map.mp hl
    have := (stateOf_spec hy (hnl.symm ▸ ht) (List.mem_range.mp hi)).2.1
    omega
  · intro t ht i hi
    unfold labelAt
    rw [hget t ht, getD_map_range _ _ _ hi, Int.toNat_natCast]

/-- flattening labels by type gives a labelling with these states. -/
theorem flatten_states (hm : construct T S F rows cols Fe cw = .ok m) {x : Typed.X} (h1 : x.nodeFeatures.length = T)
    (hs : ∀ f ∈ x.nodeFeatures, f ≠ none) {ys : List (List ℤ)} (hy : LabelLists S (counts T x.nodeFeatures) ys) :
    ∃ y, flattenY m ys = .ok y ∧ LabelsFit S (counts T x.nodeFeatures) y ∧
      ∀ t < T, ∀ i < (counts T x.nodeFeatures).getD t 0, stateOf S (counts T x.nodeFeatures) y t i = labelAt ys t i := by
  have hl : ys.length = T := by rw [labelLists_length hy, counts_length]
  obtain ⟨y, a1, a2⟩ := C36_unflatten_flatten hm x h1 hs ys hy.1
  obtain ⟨y', b1, b2, -⟩ := C36_no_collision hm ys hl (fun t ht => hy.2 t (by rw [counts_length]; exact ht))
  rw [a1, Except.ok.injEq] at b1
  subst b1
  rw [hy.1] at b2
  obtain ⟨zs, c1, -, c3⟩ := unflatten_states hm h1 hs b2
  rw [a2, Except.ok.injEq] at c1
  subst c1
  exact ⟨y, a1, b2, fun t ht i hi => (c3 t ht i hi).symm⟩

/-- **C140 (prediction by type).** If node features are given for all types, `unflattenY` applied to the prediction gives one list of
labels per type, one label per node, counted from zero; `flattenY` gives the prediction back; and no other lists of labels, passed
through `flattenY`, have a larger score. -/
theorem C140_predicts_by_type (hm : construct T S F rows cols Fe cw = .ok m) (hpos : ∀ t < T, 0 < S.getD t 0) (solver : Typed.Solver)
    (hs : TypedExact solver) (x : Typed.X) (hx : TypedGood T F Fe x) (hgiven : ∀ f ∈ x.nodeFeatures, f ≠ none) (w : ℕ → ℚ) :
    ∃ z zs, (typedModel solver m).inference x w = .discrete z ∧ unflattenY m x z = .ok zs ∧ flattenY m zs = .ok z ∧
      LabelLists S (counts T x.nodeFeatures) zs ∧
      ∀ zs', LabelLists S (counts T x.nodeFeatures) zs' → ∃ z', flattenY m zs' = .ok z' ∧
        ∑ k ∈ range (typedModel solver m).dim, w k * (typedModel solver m).jointFeature x (.discrete z') k ≤
        ∑ k ∈ range (typedModel solver m).dim, w k * (typedModel solver m).jointFeature x (.discrete z) k := by
  obtain ⟨z, h1, h2, h3⟩ := C140_predicts hm hpos solver hs x hx w
  obtain ⟨zs, a1, a2, -⟩ := unflatten_states hm hx.1 hgiven h2
  refine ⟨z, zs, h1, a1, C36_flatten_unflatten hm x hx.1 z zs a1, a2, fun zs' hzs' => ?_⟩
  obtain ⟨z', b1, b2, -⟩ := flatten_states hm hx.1 hgiven hzs'
  exact ⟨z', b1, h3 z' b2⟩

/-! ### scores -/

theorem typed_maxLoss (hm : construct T S F rows cols Fe cw = .ok m) (solver : Typed.Solver) {n : List ℕ} (hn : n.length = T)
    {y : List ℤ} (hy : LabelsFit S n y) :
    (typedModel solver m).maxLoss (.discrete y) = ∑ t ∈ range T, ∑ i ∈ range (n.getD t 0), classWeightOf cw t (stateOf S n y t i) := by
  have hcw : ∀ t < T, ∀ s, _ := fun t ht s => construct_weights hm (t := t) ht s
  obtain ⟨hg, rfl, rfl, rfl, rfl⟩ := construct_good hm
  have hr := labels_range hy
  change okD 0 (Loss.maxLoss (some m.allWeights) (toLabels y)) = _
  unfold Loss.maxLoss
  simp only
  rw [if_pos (by
    intro i hi
    have hi' : i < y.length := hi
    have := hr _ (List.getElem_mem hi')
    change (y.getD i 0).toNat < _
    rw [List.getD_eq_getElem _ _ hi', allWeights_size hg]
    omega)]
  change ∑ i ∈ range y.length, m.allWeights.get (y.getD i 0).toNat = _
  rw [hy.1, sum_blocks, hn]
  refine sum_congr rfl fun t ht => sum_congr rfl fun i hi => ?_
  have ht' := mem_range.mp ht
  have hi' := mem_range.mp hi
  rw [LabelsFit.label hy (hn ▸ ht') hi', Int.toNat_natCast, allWeights_get hg ht' (stateOf_spec hy (hn ▸ ht') hi').2.1, hcw t ht']

theorem typedLoss_nonneg {n : List ℕ} {c : ℕ → ℕ → ℚ} {σ τ : ℕ → ℕ → ℕ} (hc : ∀ t < T, ∀ i < n.getD t 0, 0 ≤ c t (σ t i)) :
    0 ≤ typedLoss T n c σ τ := by
  unfold typedLoss
  refine sum_nonneg fun t ht => sum_nonneg fun i hi => ?_
  split
  · exact le_rfl
  · exact hc t (mem_range.mp ht) i (mem_range.mp hi)

/-- **C140 (score).** With an exact AD3 and positive class weights, `score` of labelled data with at least one node is one minus the
weight of the nodes with wrong labels as a share of the weight of all nodes. It lies between 0 and 1, and it is 1 exactly if the
predictions are the given labels. -/
theorem C140_score (hm : construct T S F rows cols Fe cw = .ok m) (hpos : ∀ t < T, 0 < S.getD t 0) (solver : Typed.Solver)
    (hs : TypedExact solver) (hcw : ∀ t < T, ∀ s < S.getD t 0, 0 < classWeightOf cw t s) (data : List (Typed.X × List ℤ))
    (hd : TypedData T S F Fe data) (hnode : ∃ d ∈ data, ∃ t < T, 0 < rowsOf d.1.nodeFeatures t) (w : ℕ → ℚ) :
    ∃ pred : List (List ℤ), predict (typedModel solver m) w (data.map Prod.fst) = pred.map .discrete ∧ pred.length = data.length ∧
      (∀ p ∈ data.zip pred, LabelsFit S (counts T p.1.1.nodeFeatures) p.2) ∧
      let s := Learner.score (typedModel solver m) (data.map fun d => .discrete d.2)
        (predict (typedModel solver m) w (data.map Prod.fst))
      s = 1 - ((data.zip pred).map fun p => typedLoss T (counts T p.1.1.nodeFeatures) (classWeightOf cw)
        (stateOf S (counts T p.1.1.nodeFeatures) p.1.2) (stateOf S (counts T p.1.1.nodeFeatures) p.2)).sum / typedTotal T S cw data ∧
      0 ≤ s ∧ s ≤ 1 ∧ (s = 1 ↔ pred = data.map Prod.snd) := by
  have hclen : ∀ x : Typed.X, (counts T x.nodeFeatures).length = T := fun x => counts_length _ _
  have hc : ∀ x : Typed.X, ∀ y, LabelsFit S (counts T x.nodeFeatures) y → ∀ t < T, ∀ i < (counts T x.nodeFeatures).getD t 0,
      0 < classWeightOf cw t (stateOf S (counts T x.nodeFeatures) y t i) := fun x y hy t ht i hi =>
    hcw t ht _ (stateOf_spec hy ((hclen x).symm ▸ ht) hi).2.1
  have hpred : ∃ pred : List (List ℤ), predict (typedModel solver m) w (data.map Prod.fst) = pred.map .discrete ∧
      pred.length = data.length ∧ ∀ p ∈ data.zip pred, LabelsFit S (counts T p.1.1.nodeFeatures) p.2 := by
    clear hnode
    induction data with
    | nil => exact ⟨[], rfl, rfl, by simp⟩
    | cons d data ih =>
      obtain ⟨pred, h1, h2, h3⟩ := ih fun d' hd' => hd d' (List.mem_cons_of_mem _ hd')
      obtain ⟨z, e1, e2, -⟩ := typed_predicts hm hpos hs (hd d List.mem_cons_self).1 w
      refine ⟨z :: pred, ?_, by simp [h2], ?_⟩
      · unfold predict at h1 ⊢
        rw [List.map_cons, List.map_cons, h1, e1, List.map_cons]
      · intro p hp'
        rw [List.zip_cons_cons, List.mem_cons] at hp'
        rcases hp' with rfl | hp'
        · exact e2
        · exact h3 p hp'
  obtain ⟨pred, h1, h2, h3⟩ := hpred
  refine ⟨pred, h1, h2, h3, ?_⟩
  have hmem : ∀ p ∈ data.zip pred, p.1 ∈ data := fun p hp' => (List.of_mem_zip hp').1
  set L : (Typed.X × List ℤ) × List ℤ → ℚ := fun p => typedLoss T (counts T p.1.1.nodeFeatures) (classWeightOf cw)
        (stateOf S (counts T p.1.1.nodeFeatures) p.1.2) (stateOf S (counts T p.1.1.nodeFeatures) p.2) with hL
  set V : Typed.X × List ℤ → ℚ := fun d => ∑ t ∈ range T, ∑ i ∈ range (rowsOf d.1.nodeFeatures t), typedNodeWeight T S cw d t i with hV
  have hVeq : ∀ d : Typed.X × List ℤ, ∑ t ∈ range T, ∑ i ∈ range ((counts T d.1.nodeFeatures).getD t 0),
      classWeightOf cw t (stateOf S (counts T d.1.nodeFeatures) d.2 t i) = V d := by
    intro d
    refine sum_congr rfl fun t ht => ?_
    rw [counts_getD (mem_range.mp ht)]
    rfl
  have hsc : Learner.score (typedModel solver m) (data.map fun d => .discrete d.2)
      (predict (typedModel solver m) w (data.map Prod.fst)) = 1 - ((data.zip pred).map L).sum / typedTotal T S cw data := by
    rw [h1]
    unfold Learner.score
    congr 2
    · rw [List.zip_map, List.map_map]
      congr 1
      refine List.map_congr_left fun p hp' => ?_
      change (typedModel solver m).lossOf (.discrete p.1.2) (.discrete p.2) = _
      exact typed_lossOf hm solver (hclen _) (hd _ (hmem p hp')).2 (h3 p hp')
    · rw [List.map_map]
      unfold typedTotal
      congr 1
      refine List.map_congr_left fun d hd' => ?_
      change (typedModel solver m).maxLoss (.discrete d.2) = _
      rw [typed_maxLoss hm solver (hclen d.1) (hd _ hd').2]
      exact hVeq d
  have hV0 : ∀ d ∈ data, 0 ≤ V d := fun d hd' => by
    rw [← hVeq]
    exact sum_nonneg fun t ht => sum_nonneg fun i hi => (hc d.1 d.2 (hd d hd').2 t (mem_range.mp ht) i (mem_range.mp hi)).le
  have hpos' : 0 < typedTotal T S cw data := by
    obtain ⟨d, hd', t, ht, hr⟩ := hnode
    have hVd : 0 < V d := by
      rw [← hVeq]
      refine sum_pos' (fun t ht => sum_nonneg fun i hi => (hc d.1 d.2 (hd d hd').2 t (mem_range.mp ht) i (mem_range.mp hi)).le)
        ⟨t, mem_range.mpr ht, sum_pos (fun i hi => hc d.1 d.2 (hd d hd').2 t ht i (mem_range.mp hi)) ⟨0, mem_range.mpr ?_⟩⟩
      rw [counts_getD ht]
      exact hr
    refine lt_of_lt_of_le hVd ?_
    change V d ≤ (data.map V).sum
    exact List.single_le_sum (fun a ha => by
      obtain ⟨d', hd'', rfl⟩ := List.mem_map.mp ha
      exact hV0 d' hd'') _ (List.mem_map.mpr ⟨d, hd', rfl⟩)
  have hL0 : ∀ p ∈ data.zip pred, 0 ≤ L p := fun p hp' =>
    typedLoss_nonneg fun t ht i hi => (hc p.1.1 p.1.2 (hd _ (hmem p hp')).2 t ht i hi).le
  have hL1 : ∀ p ∈ data.zip pred, L p ≤ V p.1 := fun p hp' => by
    rw [← hVeq]
    exact typedLoss_le fun t ht i hi => (hc p.1.1 p.1.2 (hd _ (hmem p hp')).2 t ht i hi).le
  have hsum0 := list_sum_nonneg (data.zip pred) L hL0
  have hsum1 := list_sum_le (data.zip pred) L (fun p => V p.1) hL1
  have hz : (data.zip pred).map (fun p => V p.1) = data.map V := by
    conv_rhs => rw [← List.map_fst_zip (l₁ := data) (l₂ := pred) (by omega)]
    rw [List.map_map]
    rfl
  rw [hz] at hsum1
  have hz0 := list_sum_eq_zero_iff (data.zip pred) L hL0
  have hsum1' : ((data.zip pred).map L).sum ≤ typedTotal T S cw data := hsum1
  simp only
  rw [hsc]
  have hd0 := div_nonneg hsum0 hpos'.le
  have hd1 := (div_le_one hpos').mpr hsum1'
  refine ⟨rfl, by linarith, by linarith, ?_⟩
  have hall : (∀ p ∈ data.zip pred, p.1.2 = p.2) ↔ pred = data.map Prod.snd := by
    constructor
    · intro h
      have e : (data.zip pred).map (fun p => p.1.2) = (data.zip pred).map Prod.snd := List.map_congr_left h
      rw [List.map_snd_zip (by omega)] at e
      rw [← e]
      conv_rhs => rw [← List.map_fst_zip (l₁ := data) (l₂ := pred) (by omega)]
      rw [List.map_map]
      rfl
    · intro h p hp'
      obtain ⟨k, hk, e⟩ := List.getElem_of_mem hp'
      rw [← e, List.getElem_zip]
      simp [h]
  rw [← hall]
  constructor
  · intro h p hp'
    have h' : ((data.zip pred).map L).sum / typedTotal T S cw data = 0 := by linarith
    rcases div_eq_zero_iff.mp h' with h' | h'
    · have := hz0.mp h' p hp'
      refine labels_ext (hd _ (hmem p hp')).2 (h3 p hp') ?_
      rw [hclen]
      exact typedLoss_zero (hc p.1.1 p.1.2 (hd _ (hmem p hp')).2) this.le
    · exact absurd h' hpos'.ne'
  · intro h
    rw [hz0.mpr fun p hp' => ?_]
    · simp
    · change typedLoss _ _ _ _ _ = 0
      rw [h p hp']
      unfold typedLoss
      simp

/-- **C140 (score by type).** Seen by type: with positive class weights and at least one node, data with labels by type are flattened for `score`, which is one minus the weight of the nodes
whose labels in the unflattened predictions are wrong, as a share of the weight of all nodes. -/
theorem C140_score_by_type (hm : construct T S F rows cols Fe cw = .ok m) (hpos : ∀ t < T, 0 < S.getD t 0) (solver : Typed.Solver)
    (hs : TypedExact solver) (hcw : ∀ t < T, ∀ s < S.getD t 0, 0 < classWeightOf cw t s)
    (data : List (Typed.X × List (List ℤ))) (hd : ∀ d ∈ data, TypedGood T F Fe d.1 ∧ (∀ f ∈ d.1.nodeFeatures, f ≠ none) ∧
      LabelLists S (counts T d.1.nodeFeatures) d.2) (hnode : ∃ d ∈ data, ∃ t < T, 0 < rowsOf d.1.nodeFeatures t) (w : ℕ → ℚ) :
    ∃ (flat : List (List ℤ)) (pred : List (List (List ℤ))),
      List.Forall₂ (fun d y => flattenY m d.2 = .ok y) data flat ∧
      List.Forall₂ (fun d zs => ∃ z, (typedModel solver m).inference d.1 w = .discrete z ∧ unflattenY m d.1 z = .ok zs) data pred ∧
      0 < (data.map fun d => listsWeight T (counts T d.1.nodeFeatures) (classWeightOf cw) d.2).sum ∧
      Learner.score (typedModel solver m) (flat.map .discrete) (predict (typedModel solver m) w (data.map Prod.fst)) =
        1 - ((data.zip pred).map fun p => listsWrong T (counts T p.1.1.nodeFeatures) (classWeightOf cw) p.1.2 p.2).sum /
          (data.map fun d => listsWeight T (counts T d.1.nodeFeatures) (classWeightOf cw) d.2).sum := by
  have hflat : ∃ flat : List (List ℤ), List.Forall₂ (fun d y => flattenY m d.2 = .ok y ∧ LabelsFit S (counts T d.1.nodeFeatures) y ∧
      ∀ t < T, ∀ i < (counts T d.1.nodeFeatures).getD t 0, stateOf S (counts T d.1.nodeFeatures) y t i = labelAt d.2 t i) data flat := by
    clear hnode
    induction data with
    | nil => exact ⟨[], .nil⟩
    | cons d data ih =>
      obtain ⟨flat, h⟩ := ih fun d' hd' => hd d' (List.mem_cons_of_mem _ hd')
      obtain ⟨g1, g2, g3⟩ := hd d List.mem_cons_self
      obtain ⟨y, a1, a2, a3⟩ := flatten_states hm g1.1 g2 g3
      exact ⟨y :: flat, .cons ⟨a1, a2, a3⟩ h⟩
  have hpred : ∃ pred : List (List (List ℤ)), List.Forall₂ (fun d zs => ∃ z, (typedModel solver m).inference d.1 w = .discrete z ∧
      unflattenY m d.1 z = .ok zs ∧ LabelsFit S (counts T d.1.nodeFeatures) z ∧
      ∀ t < T, ∀ i < (counts T d.1.nodeFeatures).getD t 0, labelAt zs t i = stateOf S (counts T d.1.nodeFeatures) z t i) data pred := by
    clear hnode hflat
    induction data with
    | nil => exact ⟨[], .nil⟩
    | cons d data ih =>
      obtain ⟨pred, h⟩ := ih fun d' hd' => hd d' (List.mem_cons_of_mem _ hd')
      obtain ⟨g1, g2, g3⟩ := hd d List.mem_cons_self
      obtain ⟨z, b1, b2, -⟩ := typed_predicts hm hpos hs g1 w
      obtain ⟨zs, a1, a2, a3⟩ := unflatten_states hm g1.1 g2 b2
      exact ⟨zs :: pred, .cons ⟨z, b1, a1, b2, a3⟩ h⟩
  obtain ⟨flat, hf⟩ := hflat
  obtain ⟨pred, hp⟩ := hpred
  refine ⟨flat, pred, hf.imp fun _ _ h => h.1, hp.imp fun _ _ ⟨z, h1, h2, _⟩ => ⟨z, h1, h2⟩, ?_, ?_⟩
  · have h0 : ∀ d ∈ data, ∀ t < T, ∀ i < (counts T d.1.nodeFeatures).getD t 0, 0 < classWeightOf cw t (labelAt d.2 t i) := by
      intro d hd' t ht i hi
      obtain ⟨-, -, g1, g2⟩ := hd d hd'
      refine hcw t ht _ ?_
      have hlen : (d.2.getD t []).length = (counts T d.1.nodeFeatures).getD t 0 := by
        rw [← g1, list_map_getD _ _ [] rfl]
      have hmem : (d.2.getD t []).getD i 0 ∈ d.2.getD t [] := by
        have hi' : i < (d.2.getD t []).length := hlen ▸ hi
        rw [List.getD_eq_getElem (d.2.getD t []) _ hi']
        exact List.getElem_mem hi'
      have := g2 t (by rw [counts_length]; exact ht) _ hmem
      unfold labelAt
      omega
    have h1 : ∀ d ∈ data, 0 ≤ listsWeight T (counts T d.1.nodeFeatures) (classWeightOf cw) d.2 := fun d hd' =>
      sum_nonneg fun t ht => sum_nonneg fun i hi => (h0 d hd' t (mem_range.mp ht) i (mem_range.mp hi)).le
    obtain ⟨d, hd', t, ht, hr⟩ := hnode
    have h2 : 0 < listsWeight T (counts T d.1.nodeFeatures) (classWeightOf cw) d.2 := by
      refine sum_pos' (fun t ht => sum_nonneg fun i hi => (h0 d hd' t (mem_range.mp ht) i (mem_range.mp hi)).le)
        ⟨t, mem_range.mpr ht, sum_pos (fun i hi => h0 d hd' t ht i (mem_range.mp hi)) ⟨0, mem_range.mpr ?_⟩⟩
      rw [counts_getD ht]
      exact hr
    exact lt_of_lt_of_le h2 (List.single_le_sum (fun a ha => by
      obtain ⟨d', hd'', rfl⟩ := List.mem_map.mp ha
      exact h1 d' hd'') _ (List.mem_map.mpr ⟨d, hd', rfl⟩))
  clear hnode hd
  have hclen : ∀ x : Typed.X, (counts T x.nodeFeatures).length = T := fun x => counts_length _ _
  unfold Learner.score
  congr 2
  · congr 1
    induction hf generalizing pred with
    | nil => cases hp; rfl
    | cons h hf ih =>
      cases hp with
      | cons g hp =>
        rename_i d y data flat zs pred
        obtain ⟨z, g1, g2, g3, g4⟩ := g
        unfold predict
        rw [List.map_cons, List.map_cons, List.map_cons, List.zip_cons_cons, List.map_cons, List.zip_cons_cons, List.map_cons]
        refine congrArg₂ List.cons ?_ (ih pred hp)
        simp only
        rw [g1]
        change (typedModel solver m).lossOf (.discrete y) (.discrete z) = _
        rw [typed_lossOf hm solver (hclen _) h.2.1 g3]
        unfold typedLoss listsWrong
        refine sum_congr rfl fun t ht => sum_congr rfl fun i hi => ?_
        have ht' := mem_range.mp ht
        have hi' := mem_range.mp hi
        rw [h.2.2 t ht' i hi', g4 t ht' i hi']
        simp only [eq_comm]
  · congr 1
    clear hp
    induction hf with
    | nil => rfl
    | cons h hf ih =>
      rename_i d y data flat
      rw [List.map_cons, List.map_cons, List.map_cons]
      refine congrArg₂ List.cons ?_ ih
      rw [typed_maxLoss hm solver (hclen d.1) h.2.1]
      unfold listsWeight
      refine sum_congr rfl fun t ht => sum_congr rfl fun i hi => ?_
      rw [h.2.2 t (mem_range.mp ht) i (mem_range.mp hi)]

end

/-! ### the hypotheses can be met -/

/-- Weights for both types on a graph with an edge between nodes of different types: predictions and score. -/
example : ∃ m solver, construct 2 [2, 3] [1, 1] 2 2 (fun _ _ => 1)
      (some [⟨2, fun s => if s = 0 then 5 else 7⟩, ⟨3, fun _ => 2⟩]) = .ok m ∧ TypedExact solver ∧
    (∃ z, (typedModel solver m).inference typedPair (fun k => k) = .discrete z) ∧
    0 ≤ Learner.score (typedModel solver m) [.discrete [1, 0, 4]] (predict (typedModel solver m) (fun k => k) [typedPair]) := by
  obtain ⟨solver, hs⟩ := exact_typed_exists
  have hm : construct 2 [2, 3] [1, 1] 2 2 (fun _ _ => 1) (some [⟨2, fun s => if s = 0 then 5 else 7⟩, ⟨3, fun _ => 2⟩]) = .ok _ := rfl
  obtain ⟨z, h1, -, -⟩ := C140_predicts hm (by decide) solver hs typedPair (typedPair_data _ (List.mem_singleton.mpr rfl)).1 (fun k => k)
  obtain ⟨pred, -, -, -, -, h2, -, -⟩ := C140_score hm (by decide) solver hs (by
    intro t ht s _
    interval_cases t
    · change (0 : ℚ) < if s = 0 then 5 else 7
      split <;> norm_num
    · change (0 : ℚ) < 2
      norm_num) [(typedPair, [1, 0, 4])] typedPair_data ⟨_, List.mem_singleton.mpr rfl, 0, by decide, by decide⟩ (fun k => k)
  exact ⟨_, solver, hm, hs, ⟨z, h1⟩, h2⟩

/-- The same with labels by type: the first type has labels 1 and 0, the second type label 1. -/
example : ∃ m solver, construct 2 [2, 3] [1, 1] 2 2 (fun _ _ => 1) none = .ok m ∧ TypedExact solver ∧
    (∀ f ∈ typedPair.nodeFeatures, f ≠ none) ∧ flattenY m [[1, 0], [1]] = .ok [1, 0, 3] ∧
    ∃ z zs, (typedModel solver m).inference typedPair (fun k => k) = .discrete z ∧ unflattenY m typedPair z = .ok zs ∧
      LabelLists [2, 3] [2, 1] zs := by
  obtain ⟨solver, hs⟩ := exact_typed_exists
  have hm : construct 2 [2, 3] [1, 1] 2 2 (fun _ _ => 1) none = .ok _ := rfl
  have hg : ∀ f ∈ typedPair.nodeFeatures, f ≠ none := by
    intro f hf
    simp [typedPair] at hf
    rcases hf with rfl | rfl <;> simp
  obtain ⟨z, zs, h1, h2, -, h3, -⟩ := C140_predicts_by_type hm (by decide) solver hs typedPair
    (typedPair_data _ (List.mem_singleton.mpr rfl)).1 hg (fun k => k)
  exact ⟨_, solver, hm, hs, hg, by decide +kernel, z, zs, h1, h2, h3⟩

end Verif.Props
