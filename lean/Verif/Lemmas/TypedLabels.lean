import Verif.Lemmas.TypedEnergy

/-!
# Typed CRFs: flat labels
-/

namespace Verif.Typed

open Finset Verif.Common Verif.GraphCRF Verif.Spec

theorem slice_eq (y : List ℤ) (i n : ℕ) (h : i + n ≤ y.length) :
    slice y i n = (List.range n).map fun j => y.getD (i + j) 0 := by
  unfold slice
  apply eq_map_range
  · rw [List.length_take, List.length_drop]; omega
  · intro t ht
    rw [List.getElem?_take_of_lt ht, List.getElem?_drop, List.getD_eq_getElem?_getD,
      List.getElem?_eq_getElem (by omega : i + t < y.length)]
    rfl

theorem mem_slice {y : List ℤ} {i n : ℕ} (h : i + n ≤ y.length) {z : ℤ} :
    z ∈ slice y i n ↔ ∃ j < n, y.getD (i + j) 0 = z := by
  rw [slice_eq y i n h, List.mem_map]
  simp

theorem forall_mem_range_map {α : Type} (T : ℕ) (f : ℕ → α) (P : α → Prop) :
    (∀ a ∈ (List.range T).map f, P a) ↔ ∀ t < T, P (f t) := by
  simp

theorem checkLabels_iff (y : List ℤ) (l : List (ℕ × ℕ × ℕ)) : ∀ i, checkLabels y i l = .ok () ↔
    ∀ Q ∈ scan (fun i (p : ℕ × ℕ × ℕ) => ∀ z ∈ slice y i p.1, (p.2.1 : ℤ) ≤ z ∧ z < p.2.2)
      (fun p => p.1) i l, Q := by
  induction l with
  | nil => intro i; simp [checkLabels, scan]
  | cons p l ih =>
    intro i
    obtain ⟨n, lo, hi⟩ := p
    simp only [scan, List.forall_mem_cons]
    rw [← ih (i + n)]
    conv_lhs => unfold checkLabels
    by_cases hn : n = 0
    · subst hn
      rw [if_pos rfl]
      simp [slice]
    · rw [if_neg hn]
      constructor
      · intro h
        split_ifs at h with c1 c2 c3
        refine ⟨fun z hz => ⟨?_, ?_⟩, h⟩
        · by_contra hc; exact c2 ⟨z, hz, by omega⟩
        · by_contra hc; exact c3 ⟨z, hz, by omega⟩
      · rintro ⟨h1, h2⟩
        rw [if_neg (by rintro ⟨z, hz, hc⟩; have := h1 z hz; omega),
          if_neg (by rintro ⟨z, hz, hc⟩; have := h1 z hz; omega),
          if_neg (by rintro ⟨z, hz, hc⟩; have := h1 z hz; omega)]
        exact h2

theorem counts_getD {T : ℕ} {nodes : List (Option Mat)} {t : ℕ} (ht : t < T) :
    (counts T nodes).getD t 0 = rowsOf nodes t := getD_map_range _ _ _ ht

theorem counts_length (T : ℕ) (nodes : List (Option Mat)) : (counts T nodes).length = T := by
  simp [counts]

theorem before_counts {T : ℕ} {nodes : List (Option Mat)} {t : ℕ} (ht : t ≤ T) :
    before (counts T nodes) t = ∑ k ∈ range t, rowsOf nodes k := by
  rw [before_eq_sum]
  apply sum_congr rfl
  intro k hk
  have := mem_range.mp hk
  exact counts_getD (by omega)

theorem before_succ (l : List ℕ) (t : ℕ) : before l (t + 1) = before l t + l.getD t 0 :=
  take_sum_succ l t

theorem before_le_sum (l : List ℕ) (t : ℕ) : before l t ≤ l.sum := take_sum_le l t

theorem layout_eq {m : Model} {x : X} (hm : Good m) (h1 : m.nTypes ≤ x.nodeFeatures.length) :
    layout m x = (List.range m.nTypes).map fun t =>
      (rowsOf x.nodeFeatures t, before m.nStates t, before m.nStates (t + 1)) := by
  unfold layout
  rw [rows_eq hm h1, starts_eq]
  apply eq_map_range
  · simp [counts]
  · intro t ht
    apply zip_some
    · unfold counts
      rw [List.getElem?_map, List.getElem?_range ht]; rfl
    · apply zip_some
      · rw [List.getElem?_map, List.getElem?_range (by omega)]; rfl
      · rw [List.getElem?_drop, List.getElem?_map, List.getElem?_range (by omega), Nat.add_comm 1 t]
        rfl

/-- The label check accepts exactly the labellings that fit. -/
theorem checkSizeXY_iff {m : Model} {x : X} (hm : Good m) (h1 : m.nTypes ≤ x.nodeFeatures.length)
    (y : List ℤ) : checkSizeXY m x y = .ok () ↔
      LabelsFit m.nStates (counts m.nTypes x.nodeFeatures) y := by
  unfold checkSizeXY LabelsFit
  rw [rows_eq hm h1]
  by_cases hl : y.length = (counts m.nTypes x.nodeFeatures).sum
  · rw [if_neg (not_not.mpr hl), checkLabels_iff, layout_eq hm h1, scan_range]
    rw [forall_mem_range_map m.nTypes _ fun Q => Q, counts_length]
    simp only [hl, true_and, zero_add]
    refine forall_congr' fun t => forall_congr' fun ht => ?_
    have hle : before (counts m.nTypes x.nodeFeatures) t + rowsOf x.nodeFeatures t ≤ y.length := by
      rw [hl, ← counts_getD ht, ← before_succ]
      exact before_le_sum _ _
    rw [← before_counts ht.le, counts_getD ht]
    constructor
    · intro h i hi
      exact h _ ((mem_slice hle).mpr ⟨i, hi, rfl⟩)
    · intro h z hz
      obtain ⟨i, hi, rfl⟩ := (mem_slice hle).mp hz
      exact h i hi
  · rw [if_pos hl]
    simp [hl]

theorem oneHotLoop_ok (y : List ℤ) (l : List (ℕ × ℕ × ℕ)) : ∀ i,
    (∀ Q ∈ scan (fun i (p : ℕ × ℕ × ℕ) => i + p.1 ≤ y.length ∧
      ∀ z ∈ slice y i p.1, 0 ≤ z - (p.2.2 : ℤ) ∧ z - (p.2.2 : ℤ) < p.2.1) (fun p => p.1) i l, Q) →
    oneHotLoop y i l = .ok (scan (fun i (p : ℕ × ℕ × ℕ) => (⟨p.1, p.2.1, fun a k =>
      if (k : ℤ) = ((slice y i p.1).map fun l => l - (p.2.2 : ℤ)).getD a 0 then 1 else 0⟩ : Mat))
      (fun p => p.1) i l) := by
  induction l with
  | nil => intro i _; rfl
  | cons p l ih =>
    intro i h
    obtain ⟨n, s, start⟩ := p
    simp only [scan, List.forall_mem_cons] at h
    unfold oneHotLoop oneHot
    rw [if_neg (by
      rw [not_not, List.length_map, slice_eq y i n h.1.1]; simp), if_neg (by
      rw [not_not]
      intro z hz
      obtain ⟨z', hz', rfl⟩ := List.mem_map.mp hz
      exact h.1.2 z' hz')]
    simp only [bind, Except.bind]
    rw [ih _ h.2]
    rfl

theorem pairLoop_ok (m : Model) (x : X) (y : List ℤ) (l : List ((ℕ × ℕ) × RawEdges))
    (g : (ℕ × ℕ) × RawEdges → Mat)
    (h : ∀ p ∈ l, pairIndicators y (m.states p.1.1) (m.states p.1.2) (nodeOffset x p.1.1)
      (nodeOffset x p.1.2) (m.starts.getD p.1.1 0) (m.starts.getD p.1.2 0) p.2 = .ok (g p)) :
    pairLoop m x y l = .ok (l.map g) := by
  induction l with
  | nil => rfl
  | cons p l ih =>
    obtain ⟨q, es⟩ := p
    unfold pairLoop
    rw [h (q, es) (by simp)]
    simp only [bind, Except.bind]
    rw [ih fun p hp => h p (by simp [hp])]
    rfl

theorem nodeOffset_eq {x : X} {T t : ℕ} (h1 : T ≤ x.nodeFeatures.length) (ht : t ≤ T) :
    nodeOffset x t = before (counts T x.nodeFeatures) t := by
  unfold nodeOffset
  rw [before_counts ht, ← sum_map_range]
  congr 1
  apply eq_map_range
  · rw [List.length_take, List.length_map]; omega
  · intro k hk
    rw [List.getElem?_take_of_lt hk, List.getElem?_map,
      List.getElem?_eq_getElem (by omega : k < x.nodeFeatures.length)]
    unfold rowsOf
    rw [List.getD_eq_getElem?_getD, List.getElem?_eq_getElem (by omega : k < x.nodeFeatures.length)]
    rfl

theorem starts_getD {m : Model} {t : ℕ} (ht : t ≤ m.nTypes) :
    m.starts.getD t 0 = before m.nStates t := by
  rw [starts_eq]
  exact getD_map_range _ _ _ (by omega)

/-- the state of a node is a state of its type. -/
theorem stateOf_spec {S n : List ℕ} {y : List ℤ} (hy : LabelsFit S n y) {t i : ℕ} (ht : t < n.length)
    (hi : i < n.getD t 0) : (stateOf S n y t i : ℤ) = y.getD (before n t + i) 0 - before S t ∧
      stateOf S n y t i < S.getD t 0 ∧ before n t + i < y.length := by
  have h := hy.2 t ht i hi
  rw [before_succ] at h
  unfold stateOf
  have hl : before n t + n.getD t 0 ≤ y.length := by
    rw [hy.1, ← before_succ]; exact before_le_sum _ _
  push_cast at h
  refine ⟨?_, ?_, by omega⟩
  · rw [Int.toNat_of_nonneg (by omega)]
  · have : (((y.getD (before n t + i) 0 - (before S t : ℤ)).toNat : ℕ) : ℤ) < (S.getD t 0 : ℤ) := by
      rw [Int.toNat_of_nonneg (by omega)]; omega
    exact_mod_cast this

section
variable {m : Model} {x : X} (hm : Good m) (h1 : m.nTypes ≤ x.nodeFeatures.length)
  (hf : TypedFits m.nTypes m.nFeatures m.nEdgeFeatures x.nodeFeatures x.edges x.edgeFeatures)
  {y : List ℤ} (hy : LabelsFit m.nStates (counts m.nTypes x.nodeFeatures) y)
include hm h1 hf hy

/-- The marginals of a labelling that fits are its indicators. -/
theorem marginals_discrete : ∃ μ ν : ℕ → ℕ → ℕ → ℚ, marginals m x (.discrete y) = .ok
      ((List.range m.nTypes).map fun t => ⟨rowsOf x.nodeFeatures t, m.nStates.getD t 0, μ t⟩,
       (List.range (m.nTypes * m.nTypes)).map fun k => ⟨(edgesOf x.edges k).length,
          m.nStates.getD (k / m.nTypes) 0 * m.nStates.getD (k % m.nTypes) 0, ν k⟩) ∧
      (∀ t < m.nTypes, ∀ i < rowsOf x.nodeFeatures t, ∀ s, μ t i s =
        if s = stateOf m.nStates (counts m.nTypes x.nodeFeatures) y t i then 1 else 0) ∧
      (∀ a < m.nTypes, ∀ b < m.nTypes, ∀ e < (edgesOf x.edges (a * m.nTypes + b)).length,
        ∀ r < m.nStates.getD a 0, ∀ s < m.nStates.getD b 0,
        ν (a * m.nTypes + b) e (r * m.nStates.getD b 0 + s) =
        if r = stateOf m.nStates (counts m.nTypes x.nodeFeatures) y a
            ((edgesOf x.edges (a * m.nTypes + b)).getD e (0, 0)).1.toNat ∧
          s = stateOf m.nStates (counts m.nTypes x.nodeFeatures) y b
            ((edgesOf x.edges (a * m.nTypes + b)).getD e (0, 0)).2.toNat then 1 else 0) := by
  set n := counts m.nTypes x.nodeFeatures with hn
  have hnlen : n.length = m.nTypes := counts_length _ _
  have hnget : ∀ t < m.nTypes, n.getD t 0 = rowsOf x.nodeFeatures t := fun t ht => counts_getD ht
  have hbound : ∀ t < m.nTypes, before n t + rowsOf x.nodeFeatures t ≤ y.length := by
    intro t ht
    rw [hy.1, ← hnget t ht, ← before_succ]
    exact before_le_sum _ _
  -- states of the ends of an edge
  have hend : ∀ a < m.nTypes, ∀ b < m.nTypes, ∀ e ∈ edgesOf x.edges (a * m.nTypes + b),
      e.1.toNat < n.getD a 0 ∧ e.2.toNat < n.getD b 0 := by
    intro a ha b hb e he
    have := hf.edges_in a ha b hb e he
    rw [hnget a ha, hnget b hb]
    omega
  have hloc : ∀ t < m.nTypes, ∀ z : ℤ, z.toNat < n.getD t 0 →
      localLabel y (before n t) (before m.nStates t) z = stateOf m.nStates n y t z.toNat := by
    intro t ht z hz
    rw [(stateOf_spec hy (by omega) hz).1]
    rfl
  have hz1 : ((nodeMats m x).map Mat.rows).zip (m.nStates.zip m.starts) =
      (List.range m.nTypes).map fun t =>
        (rowsOf x.nodeFeatures t, m.nStates.getD t 0, before m.nStates t) := by
    rw [rows_eq hm h1]
    apply eq_map_range
    · rw [List.length_zip, List.length_zip, counts_length, hm.states, starts_eq, List.length_map,
        List.length_range]
      omega
    · intro t ht
      apply zip_some
      · unfold counts
        rw [List.getElem?_map, List.getElem?_range ht]; rfl
      · apply zip_some
        · rw [List.getD_eq_getElem?_getD, List.getElem?_eq_getElem (by rw [hm.states]; exact ht)]
          rfl
        · rw [starts_eq, List.getElem?_map, List.getElem?_range (by omega)]; rfl
  have hz2 : (typePairs m.nTypes).zip (edgeLists x) = (List.range (m.nTypes * m.nTypes)).map fun k =>
      ((k / m.nTypes, k % m.nTypes), edgesOf x.edges k) := by
    rw [typePairs_eq, edgeLists_eq hf.edges_length, zip_map_range]
  -- the one-hot encodings
  have hU : oneHotLoop y 0 (((nodeMats m x).map Mat.rows).zip (m.nStates.zip m.starts)) =
      .ok ((List.range m.nTypes).map fun t => ⟨rowsOf x.nodeFeatures t, m.nStates.getD t 0,
        fun a k => if (k : ℤ) = ((slice y (before n t) (rowsOf x.nodeFeatures t)).map
          fun l => l - (before m.nStates t : ℤ)).getD a 0 then 1 else 0⟩) := by
    rw [hz1, oneHotLoop_ok]
    · rw [scan_range]
      congr 1
      apply List.map_congr_left
      intro t ht
      simp only [zero_add]
      rw [← before_counts (List.mem_range.mp ht).le]
    · rw [scan_range, forall_mem_range_map m.nTypes _ fun Q => Q]
      intro t ht
      simp only [zero_add]
      rw [← before_counts ht.le]
      refine ⟨hbound t ht, ?_⟩
      intro z hz
      obtain ⟨i, hi, rfl⟩ := (mem_slice (hbound t ht)).mp hz
      have := stateOf_spec hy (by omega : t < n.length) (by rw [hnget t ht]; exact hi)
      omega
  have hPpos : ∀ a < m.nTypes, ∀ b < m.nTypes,
      pairIndicators y (m.states a) (m.states b) (nodeOffset x a)
        (nodeOffset x b) (m.starts.getD a 0) (m.starts.getD b 0) (edgesOf x.edges (a * m.nTypes + b)) =
      .ok ⟨(edgesOf x.edges (a * m.nTypes + b)).length, m.nStates.getD a 0 * m.nStates.getD b 0,
        fun e k => if (k : ℤ) = localLabel y (before n b) (before m.nStates b)
            ((edgesOf x.edges (a * m.nTypes + b)).getD e (0, 0)).2 +
          m.nStates.getD b 0 * localLabel y (before n a) (before m.nStates a)
            ((edgesOf x.edges (a * m.nTypes + b)).getD e (0, 0)).1 then 1 else 0⟩ := by
    intro a ha b hb
    unfold pairIndicators
    rw [nodeOffset_eq h1 ha.le, nodeOffset_eq h1 hb.le, starts_getD ha.le, starts_getD hb.le, ← hn]
    rw [if_neg (by
      rw [not_not]
      intro e he
      have := hend a ha b hb e he
      exact ⟨(stateOf_spec hy (by omega) this.1).2.2, (stateOf_spec hy (by omega) this.2).2.2⟩)]
    rw [if_neg (by
      rw [not_not]
      intro e he
      have := hend a ha b hb e he
      rw [hloc a ha _ this.1, hloc b hb _ this.2]
      have q1 := (stateOf_spec hy (by omega) this.1).2.1
      have q2 := (stateOf_spec hy (by omega) this.2).2.1
      unfold Model.states
      refine ⟨by omega, by omega, by omega, by omega⟩)]
    rw [if_neg (by
      rw [not_not]
      intro e he
      have := hend a ha b hb e he
      rw [hloc a ha _ this.1, hloc b hb _ this.2]
      have q1 := (stateOf_spec hy (by omega) this.1).2.1
      have q2 := (stateOf_spec hy (by omega) this.2).2.1
      have := flat_lt q1 q2
      unfold Model.states
      rw [mul_comm (stateOf _ _ _ _ _)] at this
      exact_mod_cast (by omega))]
    rfl
  refine ⟨fun t a k => if (k : ℤ) = ((slice y (before n t) (rowsOf x.nodeFeatures t)).map
          fun l => l - (before m.nStates t : ℤ)).getD a 0 then 1 else 0,
    fun q e k => if (k : ℤ) = localLabel y (before n (q % m.nTypes)) (before m.nStates (q % m.nTypes))
            ((edgesOf x.edges q).getD e (0, 0)).2 +
          m.nStates.getD (q % m.nTypes) 0 *
            localLabel y (before n (q / m.nTypes)) (before m.nStates (q / m.nTypes))
            ((edgesOf x.edges q).getD e (0, 0)).1 then 1 else 0, ?_, ?_, ?_⟩
  · unfold marginals
    simp only
    rw [(checkSizeXY_iff hm h1 y).mpr hy]
    simp only [bind, Except.bind]
    rw [hU]
    simp only
    rw [hz2, pairLoop_ok m x y _ (fun p => ⟨p.2.length,
      m.nStates.getD p.1.1 0 * m.nStates.getD p.1.2 0,
        fun e k => if (k : ℤ) = localLabel y (before n p.1.2) (before m.nStates p.1.2)
            (p.2.getD e (0, 0)).2 +
          m.nStates.getD p.1.2 0 * localLabel y (before n p.1.1) (before m.nStates p.1.1)
            (p.2.getD e (0, 0)).1 then 1 else 0⟩)]
    · simp only [pure, Except.pure]
      rw [List.map_map]
      rfl
    · rw [forall_mem_range_map, forall_pairs]
      intro a ha b hb
      simp only
      rw [flat_div hb, flat_mod hb]
      exact hPpos a ha b hb
  · intro t ht i hi s
    simp only
    have hs := stateOf_spec hy (by omega : t < n.length) (by rw [hnget t ht]; exact hi)
    have hg : ((slice y (before n t) (rowsOf x.nodeFeatures t)).map
          fun l => l - (before m.nStates t : ℤ)).getD i 0 = stateOf m.nStates n y t i := by
      rw [slice_eq _ _ _ (hbound t ht), List.map_map, getD_map_range _ _ _ hi, hs.1]
      rfl
    rw [hg]
    simp only [Nat.cast_inj]
  · intro a ha b hb e he r hr s hs
    simp only
    rw [flat_div hb, flat_mod hb]
    have hmem : (edgesOf x.edges (a * m.nTypes + b)).getD e (0, 0) ∈
        edgesOf x.edges (a * m.nTypes + b) := by
      rw [List.getD_eq_getElem?_getD, List.getElem?_eq_getElem he]
      exact List.getElem_mem he
    have := hend a ha b hb _ hmem
    rw [hloc a ha _ this.1, hloc b hb _ this.2]
    have q1 := (stateOf_spec hy (by omega) this.1).2.1
    have q2 := (stateOf_spec hy (by omega) this.2).2.1
    set α := stateOf m.nStates n y a ((edgesOf x.edges (a * m.nTypes + b)).getD e (0, 0)).1.toNat
    set β := stateOf m.nStates n y b ((edgesOf x.edges (a * m.nTypes + b)).getD e (0, 0)).2.toNat
    have hiff : ((r * m.nStates.getD b 0 + s : ℕ) : ℤ) = (β : ℤ) + m.nStates.getD b 0 * α ↔
        r = α ∧ s = β := by
      have e1 : ((r * m.nStates.getD b 0 + s : ℕ) : ℤ) = (β : ℤ) + m.nStates.getD b 0 * α ↔
          r * m.nStates.getD b 0 + s = α * m.nStates.getD b 0 + β := by
        rw [mul_comm α, add_comm _ β]
        exact_mod_cast Iff.rfl
      rw [e1]
      constructor
      · intro h
        have d1 := congrArg (· / m.nStates.getD b 0) h
        have d2 := congrArg (· % m.nStates.getD b 0) h
        simp only [flat_div hs, flat_div q2, flat_mod hs, flat_mod q2] at d1 d2
        exact ⟨d1, d2⟩
      · rintro ⟨rfl, rfl⟩; rfl
    simp only [hiff]

end

end Verif.Typed
