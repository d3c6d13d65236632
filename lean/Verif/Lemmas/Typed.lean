import Verif.Model.Typed
import Verif.Spec.Typed
import Verif.Lemmas.LatentNode
import Verif.Lemmas.Blocks

/-!
# Lemmas on typed CRFs: loops with running offsets, lists of blocks
-/

namespace Verif.Typed

open Finset Verif.Common Verif.GraphCRF Verif.Spec

/-! ### loops with a running offset -/

/-- `[g(offset, a) for a in l]` with the offset growing by `sz a`. -/
def scan {M α β : Type} [AddCommMonoid M] (g : M → α → β) (sz : α → M) : M → List α → List β
  | _, [] => []
  | i, a :: l => g i a :: scan g sz (i + sz a) l

theorem scan_append {M α β : Type} [AddCommMonoid M] (g : M → α → β) (sz : α → M) (l l' : List α) :
    ∀ i, scan g sz i (l ++ l') = scan g sz i l ++ scan g sz (i + (l.map sz).sum) l' := by
  induction l with
  | nil => intro i; simp [scan]
  | cons a l ih => intro i; simp [scan, ih, add_assoc]

theorem sum_map_range {M : Type} [AddCommMonoid M] (f : ℕ → M) (T : ℕ) :
    ((List.range T).map f).sum = ∑ t ∈ range T, f t := by
  induction T with
  | zero => rfl
  | succ T ih => rw [List.range_succ, List.map_append, List.sum_append, ih, sum_range_succ]; simp

theorem scan_range {M α β : Type} [AddCommMonoid M] (g : M → α → β) (sz : α → M) (f : ℕ → α) (i : M)
    (T : ℕ) : scan g sz i ((List.range T).map f) =
      (List.range T).map fun t => g (i + ∑ k ∈ range t, sz (f k)) (f t) := by
  induction T with
  | zero => rfl
  | succ T ih =>
    rw [List.range_succ, List.map_append, scan_append, ih, List.map_append, List.map_map,
      sum_map_range]
    rfl

/-! ### lists as functions of the type -/

theorem eq_map_range {α : Type} (l : List α) (T : ℕ) (f : ℕ → α) (hl : l.length = T)
    (hf : ∀ t < T, l[t]? = some (f t)) : l = (List.range T).map f := by
  apply List.ext_getElem?
  intro t
  by_cases h : t < T
  · rw [hf t h, List.getElem?_map, List.getElem?_range h]; rfl
  · rw [List.getElem?_eq_none (by omega), List.getElem?_eq_none (by simp; omega)]

theorem getD_map_range {α : Type} (T : ℕ) (f : ℕ → α) (d : α) {t : ℕ} (h : t < T) :
    ((List.range T).map f).getD t d = f t := by
  rw [List.getD_eq_getElem?_getD, List.getElem?_map, List.getElem?_range h]; rfl

theorem map_range_getD (l : List ℕ) : (List.range l.length).map (fun t => l.getD t 0) = l := by
  refine (eq_map_range l l.length _ rfl fun t ht => ?_).symm
  rw [List.getD_eq_getElem?_getD, List.getElem?_eq_getElem ht]; rfl

theorem zip_map_range {α β : Type} (T : ℕ) (f : ℕ → α) (g : ℕ → β) :
    ((List.range T).map f).zip ((List.range T).map g) = (List.range T).map fun t => (f t, g t) := by
  rw [List.zip_map']

theorem flatMap_range {α : Type} (a n : ℕ) (f : ℕ → ℕ → α) :
    ((List.range a).flatMap fun i => (List.range n).map fun j => f i j) =
      (List.range (a * n)).map fun k => f (k / n) (k % n) := by
  induction a with
  | zero => simp
  | succ a ih =>
    rw [List.range_succ, List.flatMap_append, ih, Nat.succ_mul, List.range_add, List.map_append,
      List.map_map]
    congr 1
    simp only [List.flatMap_cons, List.flatMap_nil, List.append_nil]
    apply List.map_congr_left
    intro j hj
    have := List.mem_range.mp hj
    simp only [Function.comp]
    rw [flat_div this, flat_mod this]

theorem typePairs_eq (n : ℕ) :
    typePairs n = (List.range (n * n)).map fun k => (k / n, k % n) := flatMap_range n n _

theorem zip_some {α β : Type} {l : List α} {l' : List β} {t : ℕ} {a : α} {b : β} (h : l[t]? = some a)
    (h' : l'[t]? = some b) : (l.zip l')[t]? = some (a, b) :=
  List.getElem?_zip_eq_some.mpr ⟨h, h'⟩

/-! ### the parts of an instance -/

theorem before_eq_sum (l : List ℕ) (t : ℕ) : before l t = ∑ k ∈ range t, l.getD k 0 := by
  induction t with
  | zero => simp [before]
  | succ t ih =>
    unfold before at ih ⊢
    rw [take_sum_succ, ih, sum_range_succ]

theorem before_all (l : List ℕ) : before l l.length = l.sum := by
  unfold before; rw [List.take_length]

/-- What the constructor guarantees. -/
structure Good (m : Model) : Prop where
  pos : 0 < m.nTypes
  states : m.nStates.length = m.nTypes
  features : m.nFeatures.length = m.nTypes
  sym : ∀ a < m.nTypes, ∀ b < m.nTypes, m.nEdgeFeatures a b = m.nEdgeFeatures b a
  weights : m.classWeight.map Vec.size = m.nStates

theorem construct_good {T : ℕ} {S F : List ℕ} {r c : ℕ} {Fe : ℕ → ℕ → ℕ} {cw : Option (List Vec)}
    {m : Model} (h : construct T S F r c Fe cw = .ok m) :
    Good m ∧ m.nTypes = T ∧ m.nStates = S ∧ m.nFeatures = F ∧ m.nEdgeFeatures = Fe := by
  unfold construct at h
  split_ifs at h with h1 h2 h3 h4 h5 h6 h7
  · cases h
    refine ⟨⟨Nat.pos_of_ne_zero h6, not_not.mp h3, not_not.mp h4, h2, ?_⟩, rfl, rfl, rfl, rfl⟩
    simp only [List.map_map]
    exact List.map_id'' (fun _ => rfl) S
  · cases h
    refine ⟨⟨Nat.pos_of_ne_zero h6, not_not.mp h3, not_not.mp h4, h2, ?_⟩, rfl, rfl, rfl, rfl⟩
    simp only
    by_contra hc
    exact h5 ⟨h7, hc⟩

/-- The node features of a type. -/
def nodeM (m : Model) (x : X) (t : ℕ) : Mat :=
  (x.nodeFeatures.getD t none).getD ⟨0, m.nFeatures.getD t 0, fun _ _ => 0⟩

/-- The edge features of a pair of types. -/
def edgeM (m : Model) (x : X) (k : ℕ) : Mat :=
  (x.edgeFeatures.getD k none).getD
    ⟨0, m.nEdgeFeatures (k / m.nTypes) (k % m.nTypes), fun _ _ => 0⟩

theorem nodeMats_eq {m : Model} {x : X} (hm : Good m) (hx : m.nTypes ≤ x.nodeFeatures.length) :
    nodeMats m x = (List.range m.nTypes).map (nodeM m x) := by
  unfold nodeMats
  apply eq_map_range
  · rw [List.length_map, List.length_zip, hm.features]; omega
  · intro t ht
    have h1 : t < x.nodeFeatures.length := by omega
    have h2 : t < m.nFeatures.length := by rw [hm.features]; exact ht
    rw [List.getElem?_map, zip_some (List.getElem?_eq_getElem h1) (List.getElem?_eq_getElem h2)]
    unfold nodeM
    rw [List.getD_eq_getElem?_getD, List.getD_eq_getElem?_getD, List.getElem?_eq_getElem h1,
      List.getElem?_eq_getElem h2]
    rfl

theorem edgeMats_eq {m : Model} {x : X} (hx : m.nTypes * m.nTypes ≤ x.edgeFeatures.length) :
    edgeMats m x = (List.range (m.nTypes * m.nTypes)).map (edgeM m x) := by
  unfold edgeMats
  rw [typePairs_eq]
  apply eq_map_range
  · rw [List.length_map, List.length_zip, List.length_map, List.length_range]; omega
  · intro t ht
    have h1 : t < x.edgeFeatures.length := by omega
    rw [List.getElem?_map, zip_some (b := (t / m.nTypes, t % m.nTypes))
      (List.getElem?_eq_getElem h1) (by rw [List.getElem?_map, List.getElem?_range ht]; rfl)]
    unfold edgeM
    rw [List.getD_eq_getElem?_getD, List.getElem?_eq_getElem h1]
    rfl

theorem edgeLists_eq {x : X} {T : ℕ} (hx : x.edges.length = T) :
    edgeLists x = (List.range T).map (edgesOf x.edges) := by
  unfold edgeLists
  apply eq_map_range
  · rw [List.length_map, hx]
  · intro t ht
    have h1 : t < x.edges.length := by omega
    unfold edgesOf
    rw [List.getElem?_map, List.getElem?_eq_getElem h1, List.getD_eq_getElem?_getD,
      List.getElem?_eq_getElem h1]
    rfl

theorem starts_eq (m : Model) : m.starts = (List.range (m.nTypes + 1)).map (before m.nStates) := rfl

theorem nodeM_rows (m : Model) (x : X) (t : ℕ) : (nodeM m x t).rows = rowsOf x.nodeFeatures t := by
  unfold nodeM rowsOf
  cases x.nodeFeatures.getD t none <;> rfl

theorem nodeM_get (m : Model) (x : X) (t i f : ℕ) :
    (nodeM m x t).get i f = entryOf x.nodeFeatures t i f := by
  unfold nodeM entryOf
  cases x.nodeFeatures.getD t none <;> rfl

theorem edgeM_rows (m : Model) (x : X) (t : ℕ) : (edgeM m x t).rows = rowsOf x.edgeFeatures t := by
  unfold edgeM rowsOf
  cases x.edgeFeatures.getD t none <;> rfl

theorem edgeM_get (m : Model) (x : X) (t i f : ℕ) :
    (edgeM m x t).get i f = entryOf x.edgeFeatures t i f := by
  unfold edgeM entryOf
  cases x.edgeFeatures.getD t none <;> rfl

theorem rows_eq {m : Model} {x : X} (hm : Good m) (hx : m.nTypes ≤ x.nodeFeatures.length) :
    (nodeMats m x).map Mat.rows = counts m.nTypes x.nodeFeatures := by
  rw [nodeMats_eq hm hx, List.map_map]
  unfold counts
  exact List.map_congr_left fun t _ => nodeM_rows m x t

theorem nodeCount_eq {m : Model} {x : X} (hm : Good m) (hx : m.nTypes ≤ x.nodeFeatures.length) {t : ℕ}
    (ht : t < m.nTypes) : nodeCount m x t = rowsOf x.nodeFeatures t := by
  unfold nodeCount
  rw [rows_eq hm hx]
  exact getD_map_range _ _ _ ht

theorem forall_pairs (T : ℕ) (Q : ℕ → Prop) :
    (∀ k < T * T, Q k) ↔ ∀ a < T, ∀ b < T, Q (a * T + b) := by
  constructor
  · intro h a ha b hb
    exact h _ (flat_lt ha hb)
  · intro h k hk
    have hT : 0 < T := by
      rcases Nat.eq_zero_or_pos T with rfl | h'
      · simp at hk
      · exact h'
    have := h (k / T) (Nat.div_lt_of_lt_mul hk) (k % T) (Nat.mod_lt _ hT)
    rwa [Nat.div_add_mod' k T] at this

/-- The instance check accepts exactly the instances that fit, apart from surplus arrays of features. -/
theorem checkSizeX_iff {m : Model} (hm : Good m) (x : X) :
    checkSizeX m x = .ok () ↔ m.nTypes ≤ x.nodeFeatures.length ∧
      m.nTypes * m.nTypes ≤ x.edgeFeatures.length ∧
      TypedFits m.nTypes m.nFeatures m.nEdgeFeatures x.nodeFeatures x.edges x.edgeFeatures := by
  have hn : (nodeMats m x).length = m.nTypes ↔ m.nTypes ≤ x.nodeFeatures.length := by
    unfold nodeMats
    rw [List.length_map, List.length_zip, hm.features]; omega
  have he : (edgeMats m x).length = m.nTypes ^ 2 ↔ m.nTypes * m.nTypes ≤ x.edgeFeatures.length := by
    unfold edgeMats
    rw [List.length_map, List.length_zip, typePairs_eq, List.length_map, List.length_range, sq]; omega
  have hl : (edgeLists x).length = m.nTypes ^ 2 ↔ x.edges.length = m.nTypes * m.nTypes := by
    unfold edgeLists
    rw [List.length_map, sq]
  have key : m.nTypes ≤ x.nodeFeatures.length → m.nTypes * m.nTypes ≤ x.edgeFeatures.length →
      x.edges.length = m.nTypes * m.nTypes →
      ((∀ p ∈ (nodeMats m x).zip m.nFeatures, p.1.cols = p.2) ∧
       (∀ p ∈ (typePairs m.nTypes).zip (edgeLists x),
          EdgesInside (nodeCount m x p.1.1) (nodeCount m x p.1.2) p.2) ∧
       (∀ p ∈ (edgeLists x).zip (edgeMats m x), p.1.length = p.2.rows) ∧
       (∀ p ∈ (typePairs m.nTypes).zip (edgeMats m x), p.2.cols = m.nEdgeFeatures p.1.1 p.1.2) ↔
       TypedFits m.nTypes m.nFeatures m.nEdgeFeatures x.nodeFeatures x.edges x.edgeFeatures) := by
    intro h1 h2 h3
    have hF : m.nFeatures = (List.range m.nTypes).map fun t => m.nFeatures.getD t 0 := by
      have := map_range_getD m.nFeatures
      rw [hm.features] at this
      exact this.symm
    have e1 : (∀ p ∈ (nodeMats m x).zip m.nFeatures, p.1.cols = p.2) ↔
        ∀ t < m.nTypes, (nodeM m x t).cols = m.nFeatures.getD t 0 := by
      conv_lhs => rw [nodeMats_eq hm h1, hF, zip_map_range]
      simp
    have e2 : (∀ p ∈ (typePairs m.nTypes).zip (edgeLists x),
          EdgesInside (nodeCount m x p.1.1) (nodeCount m x p.1.2) p.2) ↔
        ∀ k < m.nTypes * m.nTypes, EdgesInside (nodeCount m x (k / m.nTypes))
          (nodeCount m x (k % m.nTypes)) (edgesOf x.edges k) := by
      rw [typePairs_eq, edgeLists_eq h3, zip_map_range]
      simp
    have e3 : (∀ p ∈ (edgeLists x).zip (edgeMats m x), p.1.length = p.2.rows) ↔
        ∀ k < m.nTypes * m.nTypes, (edgesOf x.edges k).length = (edgeM m x k).rows := by
      rw [edgeMats_eq h2, edgeLists_eq h3, zip_map_range]
      simp
    have e4 : (∀ p ∈ (typePairs m.nTypes).zip (edgeMats m x),
          p.2.cols = m.nEdgeFeatures p.1.1 p.1.2) ↔
        ∀ k < m.nTypes * m.nTypes,
          (edgeM m x k).cols = m.nEdgeFeatures (k / m.nTypes) (k % m.nTypes) := by
      rw [edgeMats_eq h2, typePairs_eq, zip_map_range]
      simp
    rw [e1, e2, e3, e4, forall_pairs, forall_pairs, forall_pairs]
    constructor
    · rintro ⟨a1, a2, a3, a4⟩
      refine ⟨h3, ?_, ?_, ?_, ?_⟩
      · intro t ht M hM
        have := a1 t ht
        unfold nodeM at this
        rwa [hM] at this
      · intro a ha b hb e hee
        have := a2 a ha b hb e hee
        rw [flat_div hb, flat_mod hb, nodeCount_eq hm h1 ha, nodeCount_eq hm h1 hb] at this
        exact ⟨this.1, this.2.2.1, this.2.1, this.2.2.2⟩
      · intro a ha b hb
        rw [a3 a ha b hb, edgeM_rows]
      · intro a ha b hb M hM
        have := a4 a ha b hb
        unfold edgeM at this
        rw [hM, flat_div hb, flat_mod hb] at this
        exact this
    · intro hf
      refine ⟨?_, ?_, ?_, ?_⟩
      · intro t ht
        unfold nodeM
        rcases hM : x.nodeFeatures.getD t none with _ | M
        · rfl
        · exact hf.node_cols t ht M hM
      · intro a ha b hb e hee
        rw [flat_div hb, flat_mod hb, nodeCount_eq hm h1 ha, nodeCount_eq hm h1 hb]
        have := hf.edges_in a ha b hb e hee
        exact ⟨this.1, this.2.2.1, this.2.1, this.2.2.2⟩
      · intro a ha b hb
        rw [edgeM_rows]
        exact (hf.efeat_rows a ha b hb).symm
      · intro a ha b hb
        rw [flat_div hb, flat_mod hb]
        unfold edgeM
        rcases hM : x.edgeFeatures.getD (a * m.nTypes + b) none with _ | M
        · simp only [Option.getD_none]
          rw [flat_div hb, flat_mod hb]
        · exact hf.efeat_cols a ha b hb M hM
  unfold checkSizeX
  constructor
  · intro h
    split_ifs at h with c1 c2 c3 c4 c5 c6 c7
    have h1 := hn.mp (not_not.mp c3)
    have h2 := he.mp (not_not.mp c2)
    exact ⟨h1, h2, (key h1 h2 (hl.mp (not_not.mp c1))).mp ⟨c4, c5, c6, c7⟩⟩
  · rintro ⟨h1, h2, hf⟩
    obtain ⟨c4, c5, c6, c7⟩ := (key h1 h2 hf.edges_length).mpr hf
    rw [if_neg (not_not.mpr (hl.mpr hf.edges_length)), if_neg (not_not.mpr (he.mpr h2)),
      if_neg (not_not.mpr (hn.mpr h1)), if_neg (not_not.mpr c4), if_neg (not_not.mpr c5),
      if_neg (not_not.mpr c6), if_neg (not_not.mpr c7)]

end Verif.Typed
