import Verif.Lemmas.TypedSwap
import Verif.Props.C21
import Verif.Props.C162

/-!
# C165: typed snake data and swapping node types
-/

namespace Verif.Props

open Finset Verif.Common Verif.Spec Verif.Typed Verif.TypedSnakes

/-! ### `swap_node_types` -/

/-- The instance has all arrays a model for `T` types needs: node features for every type and one entry per pair of types. -/
structure AllArrays (T : ℕ) (x : Typed.X) : Prop where
  nodes : x.nodeFeatures.length = T
  present : ∀ f ∈ x.nodeFeatures, f ≠ none
  edges : x.edges.length = T * T
  efeat : x.edgeFeatures.length = T * T

theorem state_lt {S n : List ℕ} {y : List ℤ} (hy : LabelsFit S n y) {t i : ℕ} (ht : t < n.length) (hi : i < n.getD t 0) :
    stateOf S n y t i < S.getD t 0 ∧ y.getD (before n t + i) 0 = (before S t : ℤ) + stateOf S n y t i := by
  have h6 := hy.2 t ht i hi
  have h7 := before_succ S t
  unfold stateOf
  omega

/-- **C165, swapping.** If the permutation of the types is its own inverse, `swap_node_types` gives every array to the type with the new
name, and every node keeps its state within its type. -/
theorem C165_swap {T : ℕ} {p : List ℕ} (hp : Involution T p) {S : List ℕ} (hS : S.length = T) (x : Typed.X) (hx : AllArrays T x)
    (y : List ℤ) (hy : LabelsFit S (counts T x.nodeFeatures) y) :
    ∃ x' y', swapOne p S (x, y) = .ok (x', y') ∧ AllArrays T x' ∧ RenamedList T p x.nodeFeatures x'.nodeFeatures ∧
      RenamedTable T p x.edges x'.edges ∧ RenamedTable T p x.edgeFeatures x'.edgeFeatures ∧
      counts T x'.nodeFeatures = renamed p (counts T x.nodeFeatures) ∧
      LabelsFit (renamed p S) (counts T x'.nodeFeatures) y' ∧
      ∀ t < T, ∀ i < (counts T x'.nodeFeatures).getD t 0,
        stateOf (renamed p S) (counts T x'.nodeFeatures) y' t i = stateOf S (counts T x.nodeFeatures) y (p.getD t 0) i := by
  obtain ⟨x', y', h1, h2, h3, h4, h5, h6, h7⟩ := swapOne_ok hp hS x y hx.nodes hx.present hx.edges hx.efeat hy
  set n := counts T x.nodeFeatures with hn
  have hnl : n.length = T := counts_length _ _
  have key : ∀ t < T, ∀ i < (renamed p n).getD t 0,
      y'.getD (before (renamed p n) t + i) 0 = (before (renamed p S) t : ℤ) + stateOf S n y (p.getD t 0) i := by
    intro t ht i hi
    have := h7 (p.getD t 0) (hp.lt t ht) i (by rwa [renamed_getD hp _ ht] at hi)
    rwa [hp.back t ht] at this
  refine ⟨x', y', h1, ⟨h2.1, ?_, h3.1, h4.1⟩, h2, h3, h4, h5, ?_, ?_⟩
  · intro f hf
    obtain ⟨t, ht, rfl⟩ := List.getElem_of_mem hf
    have ht' : t < T := h2.1 ▸ ht
    have := h2.2 t ht'
    rw [List.getD_eq_getElem _ _ ht, List.getD_eq_getElem _ _ (by rw [hx.nodes]; exact hp.lt t ht')] at this
    rw [this]
    exact hx.present _ (List.getElem_mem _)
  · rw [h5]
    refine ⟨by rw [h6, hy.1, renamed_sum hp hnl], fun t ht i hi => ?_⟩
    rw [renamed_length hp] at ht
    rw [key t ht i hi, before_succ, renamed_getD hp _ ht]
    have := (state_lt hy (by rw [hnl]; exact hp.lt t ht) (by rwa [renamed_getD hp _ ht] at hi)).1
    omega
  · rw [h5]
    intro t ht i hi
    conv_lhs => unfold stateOf
    rw [key t ht i hi]
    omega

theorem renamed_list_twice {α : Type} {T : ℕ} {p : List ℕ} (hp : Involution T p) {l l' l'' : List (Option α)} (hl : l.length = T)
    (h : RenamedList T p l l') (h' : RenamedList T p l' l'') : l'' = l := by
  apply List.ext_getElem (h'.1.trans hl.symm)
  intro t h1 h2
  have ht : t < T := h'.1 ▸ h1
  rw [← List.getD_eq_getElem _ none h1, ← List.getD_eq_getElem _ none h2, h'.2 t ht, h.2 _ (hp.lt t ht), hp.back t ht]

theorem renamed_table_twice {α : Type} {T : ℕ} {p : List ℕ} (hp : Involution T p) {l l' l'' : List (Option α)} (hl : l.length = T * T)
    (h : RenamedTable T p l l') (h' : RenamedTable T p l' l'') : l'' = l := by
  apply List.ext_getElem (h'.1.trans hl.symm)
  intro k h1 h2
  have hk : k < T * T := h'.1 ▸ h1
  have hT : 0 < T := Nat.pos_of_ne_zero (by rintro rfl; simp at hk)
  have ha : k / T < T := Nat.div_lt_of_lt_mul hk
  have hb : k % T < T := Nat.mod_lt _ hT
  have := h'.2 _ ha _ hb
  rw [h.2 _ (hp.lt _ ha) _ (hp.lt _ hb), hp.back _ ha, hp.back _ hb] at this
  rw [show k / T * T + k % T = k by rw [mul_comm]; exact Nat.div_add_mod k T] at this
  rw [← List.getD_eq_getElem _ none h1, ← List.getD_eq_getElem _ none h2, this]

theorem table_back {α : Type} {T : ℕ} {p : List ℕ} (hp : Involution T p) {l l' : List (Option α)} (hl : l.length = T * T)
    (h : RenamedTable T p l l') : RenamedTable T p l' l :=
  ⟨hl, fun a ha b hb => by rw [h.2 _ (hp.lt a ha) _ (hp.lt b hb), hp.back a ha, hp.back b hb]⟩

/-- **C165, swapping back.** Swapping twice gives back the instance and its labels. -/
theorem C165_swap_back {T : ℕ} {p : List ℕ} (hp : Involution T p) {S : List ℕ} (hS : S.length = T) (x : Typed.X) (hx : AllArrays T x)
    (y : List ℤ) (hy : LabelsFit S (counts T x.nodeFeatures) y) (x' : Typed.X) (y' : List ℤ) (h : swapOne p S (x, y) = .ok (x', y')) :
    swapOne p (renamed p S) (x', y') = .ok (x, y) := by
  obtain ⟨x1, y1, e, h1, h2, h3, h4, h5, h6, h7⟩ := C165_swap hp hS x hx y hy
  rw [h] at e
  cases e
  obtain ⟨x'', y'', e', k1, k2, k3, k4, k5, k6, k7⟩ := C165_swap hp (renamed_length hp S) x' h1 y' h6
  have hnl : (counts T x.nodeFeatures).length = T := counts_length _ _
  have e1 := renamed_list_twice hp hx.nodes h2 k2
  have e2 := renamed_table_twice hp hx.edges h3 k3
  have e3 := renamed_table_twice hp hx.efeat h4 k4
  have ex : x'' = x := by
    cases x
    cases x''
    simp only at e1 e2 e3
    rw [e1, e2, e3]
  subst ex
  rw [renamed_twice hp hS] at k6 k7
  rw [e']
  congr 2
  refine labels_ext k6.1 hy.1 fun t ht i hi => ?_
  have htT : t < T := hnl ▸ ht
  rw [(state_lt k6 ht hi).2, (state_lt hy ht hi).2, k7 t htT i hi, h7 _ (hp.lt t htT) i, hp.back t htT]
  rw [h5, renamed_getD hp _ (hp.lt t htT), hp.back t htT]
  exact hi

/-- **C165, data sets.** `swap_node_types` without constraints treats every sample by itself. -/
theorem C165_swap_all {T : ℕ} {p : List ℕ} (hp : Involution T p) {S : List ℕ} (hS : S.length = T) (l : List (Typed.X × List ℤ))
    (hl : ∀ d ∈ l, AllArrays T d.1 ∧ LabelsFit S (counts T d.1.nodeFeatures) d.2) :
    ∃ l', swapNodeTypes p S l = .ok l' ∧ List.Forall₂ (fun d d' => swapOne p S d = .ok d') l l' ∧
      swapNodeTypes p (renamed p S) l' = .ok l := by
  induction l with
  | nil => exact ⟨[], rfl, .nil, rfl⟩
  | cons d l ih =>
    obtain ⟨l', h1, h2, h3⟩ := ih fun d hd => hl d (List.mem_cons_of_mem _ hd)
    obtain ⟨hx, hy⟩ := hl d List.mem_cons_self
    obtain ⟨x', y', e, -⟩ := C165_swap hp hS d.1 hx d.2 hy
    have e' := C165_swap_back hp hS d.1 hx d.2 hy x' y' e
    unfold swapNodeTypes at h1 h3 ⊢
    refine ⟨(x', y') :: l', ?_, .cons e h2, ?_⟩
    · rw [List.mapM_cons, h1, e]
      rfl
    · rw [List.mapM_cons, h3, e']
      rfl

/-! ### scores -/

theorem entry_renamed {T : ℕ} {p : List ℕ} {l l' : List (Option Mat)} (h : RenamedList T p l l') {t : ℕ} (ht : t < T) (i f : ℕ) :
    entryOf l' t i f = entryOf l (p.getD t 0) i f := by
  unfold entryOf
  rw [h.2 t ht]

theorem entry_renamedTable {T : ℕ} {p : List ℕ} {l l' : List (Option Mat)} (h : RenamedTable T p l l') {a b : ℕ} (ha : a < T) (hb : b < T)
    (i f : ℕ) : entryOf l' (a * T + b) i f = entryOf l (p.getD a 0 * T + p.getD b 0) i f := by
  unfold entryOf
  rw [h.2 a ha b hb]

theorem edges_renamed {T : ℕ} {p : List ℕ} {l l' : List (Option (List (ℤ × ℤ)))} (h : RenamedTable T p l l') {a b : ℕ} (ha : a < T)
    (hb : b < T) : edgesOf l' (a * T + b) = edgesOf l (p.getD a 0 * T + p.getD b 0) := by
  unfold edgesOf
  rw [h.2 a ha b hb]

theorem rows_renamed {T : ℕ} {p : List ℕ} {l l' : List (Option Mat)} (h : RenamedList T p l l') {t : ℕ} (ht : t < T) :
    rowsOf l' t = rowsOf l (p.getD t 0) := by
  unfold rowsOf
  rw [h.2 t ht]

/-- arrays that fit still fit under the new names. -/
theorem fits_renamed {T : ℕ} {p : List ℕ} (hp : Involution T p) {F : List ℕ} {Fe : ℕ → ℕ → ℕ} {x x' : Typed.X}
    (hf : TypedFits T F Fe x.nodeFeatures x.edges x.edgeFeatures) (h1 : RenamedList T p x.nodeFeatures x'.nodeFeatures)
    (h2 : RenamedTable T p x.edges x'.edges) (h3 : RenamedTable T p x.edgeFeatures x'.edgeFeatures) :
    TypedFits T (renamed p F) (renamedPairs p Fe) x'.nodeFeatures x'.edges x'.edgeFeatures := by
  refine ⟨h2.1, fun t ht M hM => ?_, fun a ha b hb e he => ?_, fun a ha b hb => ?_, fun a ha b hb M hM => ?_⟩
  · rw [renamed_getD hp _ ht]
    exact hf.node_cols _ (hp.lt t ht) M (by rw [← h1.2 t ht]; exact hM)
  · rw [edges_renamed h2 ha hb] at he
    rw [rows_renamed h1 ha, rows_renamed h1 hb]
    exact hf.edges_in _ (hp.lt a ha) _ (hp.lt b hb) e he
  · rw [edges_renamed h2 ha hb, ← hf.efeat_rows _ (hp.lt a ha) _ (hp.lt b hb)]
    unfold rowsOf
    rw [h3.2 a ha b hb]
  · exact hf.efeat_cols _ (hp.lt a ha) _ (hp.lt b hb) M (by rw [← h3.2 a ha b hb]; exact hM)

/-- the energy does not depend on the names of the types. -/
theorem energy_renamed {T : ℕ} {p : List ℕ} (hp : Involution T p) {S F : List ℕ} {Fe : ℕ → ℕ → ℕ} {x x' : Typed.X} {w w' : ℕ → ℚ}
    (hf : TypedFits T F Fe x.nodeFeatures x.edges x.edgeFeatures) (h1 : RenamedList T p x.nodeFeatures x'.nodeFeatures)
    (h2 : RenamedTable T p x.edges x'.edges) (h3 : RenamedTable T p x.edgeFeatures x'.edgeFeatures)
    (hw : RenamedWeights T p S F Fe w w') {n n' : List ℕ} (hn : n = counts T x.nodeFeatures) (hn' : n' = renamed p n) (σ σ' : ℕ → ℕ → ℕ)
    (hσ : ∀ t < T, ∀ i < n.getD t 0, σ t i < S.getD t 0) (hσ' : ∀ t < T, ∀ i < n'.getD t 0, σ' t i = σ (p.getD t 0) i) :
    typedEnergy T n' x'.edges (typedUnary (renamed p S) (renamed p F) x'.nodeFeatures w')
        (typedPairwise T (renamed p S) (renamed p F) (renamedPairs p Fe) x'.edgeFeatures w') σ' =
      typedEnergy T n x.edges (typedUnary S F x.nodeFeatures w) (typedPairwise T S F Fe x.edgeFeatures w) σ := by
  subst hn'
  unfold typedEnergy
  have hnode : ∑ t ∈ range T, ∑ i ∈ range ((renamed p n).getD t 0),
      typedUnary (renamed p S) (renamed p F) x'.nodeFeatures w' t i (σ' t i) =
      ∑ t ∈ range T, ∑ i ∈ range (n.getD t 0), typedUnary S F x.nodeFeatures w t i (σ t i) := by
    rw [← sum_perm hp fun t => ∑ i ∈ range (n.getD t 0), typedUnary S F x.nodeFeatures w t i (σ t i)]
    refine sum_congr rfl fun t ht => ?_
    have ht' := mem_range.mp ht
    refine sum_congr (by rw [renamed_getD hp _ ht']) fun i hi => ?_
    have hi' : i < n.getD (p.getD t 0) 0 := mem_range.mp hi
    rw [hσ' t ht' i (by rw [renamed_getD hp _ ht']; exact hi')]
    unfold typedUnary
    refine sum_congr (by rw [renamed_getD hp _ ht']) fun f hf => ?_
    rw [renamed_getD hp F ht', hw.node t ht' _ (hσ _ (hp.lt t ht') i hi') f (mem_range.mp hf), entry_renamed h1 ht']
  have hedge : ∑ a ∈ range T, ∑ b ∈ range T, ∑ e ∈ range (edgesOf x'.edges (a * T + b)).length,
      typedPairwise T (renamed p S) (renamed p F) (renamedPairs p Fe) x'.edgeFeatures w' a b e
        (σ' a ((edgesOf x'.edges (a * T + b)).getD e (0, 0)).1.toNat) (σ' b ((edgesOf x'.edges (a * T + b)).getD e (0, 0)).2.toNat) =
      ∑ a ∈ range T, ∑ b ∈ range T, ∑ e ∈ range (edgesOf x.edges (a * T + b)).length,
      typedPairwise T S F Fe x.edgeFeatures w a b e
        (σ a ((edgesOf x.edges (a * T + b)).getD e (0, 0)).1.toNat) (σ b ((edgesOf x.edges (a * T + b)).getD e (0, 0)).2.toNat) := by
    rw [← sum_perm hp fun a => ∑ b ∈ range T, ∑ e ∈ range (edgesOf x.edges (a * T + b)).length,
      typedPairwise T S F Fe x.edgeFeatures w a b e
        (σ a ((edgesOf x.edges (a * T + b)).getD e (0, 0)).1.toNat) (σ b ((edgesOf x.edges (a * T + b)).getD e (0, 0)).2.toNat)]
    refine sum_congr rfl fun a ha => ?_
    rw [← sum_perm hp fun b => ∑ e ∈ range (edgesOf x.edges (p.getD a 0 * T + b)).length,
      typedPairwise T S F Fe x.edgeFeatures w (p.getD a 0) b e
        (σ (p.getD a 0) ((edgesOf x.edges (p.getD a 0 * T + b)).getD e (0, 0)).1.toNat)
        (σ b ((edgesOf x.edges (p.getD a 0 * T + b)).getD e (0, 0)).2.toNat)]
    refine sum_congr rfl fun b hb => ?_
    have ha' := mem_range.mp ha
    have hb' := mem_range.mp hb
    rw [edges_renamed h2 ha' hb']
    refine sum_congr rfl fun e he => ?_
    have he' := mem_range.mp he
    have hin := hf.edges_in _ (hp.lt a ha') _ (hp.lt b hb')
      ((edgesOf x.edges (p.getD a 0 * T + p.getD b 0)).getD e (0, 0)) (by rw [List.getD_eq_getElem _ _ he']; exact List.getElem_mem _)
    set E := (edgesOf x.edges (p.getD a 0 * T + p.getD b 0)).getD e (0, 0)
    have hr : E.1.toNat < n.getD (p.getD a 0) 0 := by rw [hn, counts_getD (hp.lt a ha')]; omega
    have hs : E.2.toNat < n.getD (p.getD b 0) 0 := by rw [hn, counts_getD (hp.lt b hb')]; omega
    rw [hσ' a ha' _ (by rw [renamed_getD hp _ ha']; exact hr), hσ' b hb' _ (by rw [renamed_getD hp _ hb']; exact hs)]
    unfold typedPairwise
    refine sum_congr rfl fun f hf => ?_
    rw [renamed_getD hp S ha', renamed_getD hp S hb', entry_renamedTable h3 ha' hb',
      hw.edge a ha' b hb' f (mem_range.mp hf) _ (hσ _ (hp.lt a ha') _ hr) _ (hσ _ (hp.lt b hb') _ hs)]
  rw [hnode, hedge]

/-! ### weights under the new names -/

theorem prefix_unique {N c : ℕ → ℕ} (h : ∀ t, N (t + 1) = N t + c t) {t t' r r' : ℕ} (hr : r < c t) (hr' : r' < c t')
    (he : N t + r = N t' + r') : t = t' ∧ r = r' := by
  have mono : Monotone N := monotone_nat_of_le_succ fun t => by rw [h]; omega
  have htt : t = t' := by
    rcases lt_trichotomy t t' with hlt | hlt | hlt
    · have h1 := mono hlt
      rw [Nat.succ_eq_add_one, h] at h1
      omega
    · exact hlt
    · have h1 := mono hlt
      rw [Nat.succ_eq_add_one, h] at h1
      omega
  subst htt
  exact ⟨rfl, by omega⟩

theorem digits_unique {B q q' r r' : ℕ} (hr : r < B) (hr' : r' < B) (h : q * B + r = q' * B + r') : q = q' ∧ r = r' := by
  have h1 := congrArg (· / B) h
  have h2 := congrArg (· % B) h
  have hB : 0 < B := by omega
  simp only [Nat.mul_comm _ B, Nat.mul_add_div hB, Nat.div_eq_of_lt hr, Nat.div_eq_of_lt hr', Nat.mul_add_mod, Nat.mod_eq_of_lt hr,
    Nat.mod_eq_of_lt hr', Nat.add_zero] at h1 h2
  exact ⟨h1, h2⟩

theorem digit_lt {A B q r : ℕ} (hq : q < A) (hr : r < B) : q * B + r < A * B := by
  have : (q + 1) * B ≤ A * B := Nat.mul_le_mul_right _ hq
  rw [Nat.add_mul] at this
  omega

/-- **C165, weights.** For all weights there are weights for the new names, given to the same states and features. -/
theorem C165_weights {T : ℕ} {p : List ℕ} (hp : Involution T p) (S F : List ℕ) (Fe : ℕ → ℕ → ℕ) (w : ℕ → ℚ) :
    ∃ w', RenamedWeights T p S F Fe w w' := by
  classical
  let S' := renamed p S
  let F' := renamed p F
  let Fe' := renamedPairs p Fe
  let nodeAt : ℕ × ℕ × ℕ → ℕ := fun q => nodeWeights S' F' q.1 + q.2.1 * F.getD (p.getD q.1 0) 0 + q.2.2
  let nodeOk : ℕ × ℕ × ℕ → Prop := fun q => q.1 < T ∧ q.2.1 < S.getD (p.getD q.1 0) 0 ∧ q.2.2 < F.getD (p.getD q.1 0) 0
  let nodeVal : ℕ × ℕ × ℕ → ℚ := fun q => w (nodeWeights S F (p.getD q.1 0) + q.2.1 * F.getD (p.getD q.1 0) 0 + q.2.2)
  let edgeAt : ℕ × ℕ × ℕ × ℕ × ℕ → ℕ := fun q => nodeWeights S' F' T + edgeWeights T S' Fe' (q.1 * T + q.2.1) +
    q.2.2.1 * (S.getD (p.getD q.1 0) 0 * S.getD (p.getD q.2.1 0) 0) + q.2.2.2.1 * S.getD (p.getD q.2.1 0) 0 + q.2.2.2.2
  let edgeOk : ℕ × ℕ × ℕ × ℕ × ℕ → Prop := fun q => q.1 < T ∧ q.2.1 < T ∧ q.2.2.1 < Fe (p.getD q.1 0) (p.getD q.2.1 0) ∧
    q.2.2.2.1 < S.getD (p.getD q.1 0) 0 ∧ q.2.2.2.2 < S.getD (p.getD q.2.1 0) 0
  let edgeVal : ℕ × ℕ × ℕ × ℕ × ℕ → ℚ := fun q => w (nodeWeights S F T + edgeWeights T S Fe (p.getD q.1 0 * T + p.getD q.2.1 0) +
    q.2.2.1 * (S.getD (p.getD q.1 0) 0 * S.getD (p.getD q.2.1 0) 0) + q.2.2.2.1 * S.getD (p.getD q.2.1 0) 0 + q.2.2.2.2)
  have nsucc : ∀ t, nodeWeights S' F' (t + 1) = nodeWeights S' F' t + S'.getD t 0 * F'.getD t 0 := fun t => by
    unfold nodeWeights; rw [sum_range_succ]
  have esucc : ∀ k, edgeWeights T S' Fe' (k + 1) =
      edgeWeights T S' Fe' k + Fe' (k / T) (k % T) * S'.getD (k / T) 0 * S'.getD (k % T) 0 := fun t => by
    unfold edgeWeights; rw [sum_range_succ]
  have nrest : ∀ q, nodeOk q → q.2.1 * F.getD (p.getD q.1 0) 0 + q.2.2 < S'.getD q.1 0 * F'.getD q.1 0 := by
    rintro ⟨t, s, f⟩ ⟨ht, hs, hf⟩
    simp only at ht hs hf ⊢
    rw [renamed_getD hp _ ht, renamed_getD hp _ ht]
    exact digit_lt hs hf
  have ninj : ∀ q q', nodeOk q → nodeOk q' → nodeAt q = nodeAt q' → q = q' := by
    rintro ⟨t, s, f⟩ ⟨t', s', f'⟩ h h' he
    obtain ⟨e1, e2⟩ := prefix_unique nsucc (nrest _ h) (nrest _ h') (by simp only [nodeAt] at he ⊢; omega)
    simp only at e1 e2
    subst e1
    obtain ⟨rfl, rfl⟩ := digits_unique h.2.2 h'.2.2 e2
    rfl
  have nlt : ∀ q, nodeOk q → nodeAt q < nodeWeights S' F' T := by
    intro q hq
    have h1 := nrest q hq
    have h2 : nodeWeights S' F' (q.1 + 1) ≤ nodeWeights S' F' T :=
      (monotone_nat_of_le_succ fun t => by rw [nsucc]; omega : Monotone (nodeWeights S' F')) hq.1
    rw [nsucc] at h2
    simp only [nodeAt]
    omega
  have erest : ∀ q, edgeOk q → q.2.2.1 * (S.getD (p.getD q.1 0) 0 * S.getD (p.getD q.2.1 0) 0) +
      (q.2.2.2.1 * S.getD (p.getD q.2.1 0) 0 + q.2.2.2.2) <
      Fe' ((q.1 * T + q.2.1) / T) ((q.1 * T + q.2.1) % T) * S'.getD ((q.1 * T + q.2.1) / T) 0 * S'.getD ((q.1 * T + q.2.1) % T) 0 := by
    rintro ⟨a, b, f, r, s⟩ ⟨ha, hb, hf, hr, hs⟩
    simp only at ha hb hf hr hs ⊢
    rw [flat_div hb, flat_mod hb, renamed_getD hp _ ha, renamed_getD hp _ hb, mul_assoc]
    exact digit_lt hf (digit_lt hr hs)
  have einj : ∀ q q', edgeOk q → edgeOk q' → edgeAt q = edgeAt q' → q = q' := by
    rintro ⟨a, b, f, r, s⟩ ⟨a', b', f', r', s'⟩ h h' he
    obtain ⟨e1, e2⟩ := prefix_unique esucc (erest _ h) (erest _ h') (by simp only [edgeAt] at he ⊢; omega)
    obtain ⟨rfl, rfl⟩ := digits_unique h.2.1 h'.2.1 e1
    simp only at e2
    obtain ⟨rfl, e3⟩ := digits_unique (digit_lt h.2.2.2.1 h.2.2.2.2) (digit_lt h'.2.2.2.1 h'.2.2.2.2) e2
    obtain ⟨rfl, rfl⟩ := digits_unique h.2.2.2.2 h'.2.2.2.2 e3
    rfl
  refine ⟨fun k => if h : ∃ q, nodeOk q ∧ nodeAt q = k then nodeVal h.choose
    else if h : ∃ q, edgeOk q ∧ edgeAt q = k then edgeVal h.choose else 0, ?_, ?_⟩
  · intro t ht s hs f hf
    have hq : nodeOk (t, s, f) := ⟨ht, hs, hf⟩
    have hex : ∃ q, nodeOk q ∧ nodeAt q = nodeAt (t, s, f) := ⟨_, hq, rfl⟩
    change (if h : ∃ q, nodeOk q ∧ nodeAt q = nodeAt (t, s, f) then nodeVal h.choose else _) = nodeVal (t, s, f)
    rw [dif_pos hex, ninj _ _ hex.choose_spec.1 hq hex.choose_spec.2]
  · intro a ha b hb f hf r hr s hs
    have hq : edgeOk (a, b, f, r, s) := ⟨ha, hb, hf, hr, hs⟩
    have hno : ¬ ∃ q, nodeOk q ∧ nodeAt q = edgeAt (a, b, f, r, s) := by
      rintro ⟨q, h1, h2⟩
      have h3 := nlt q h1
      simp only [edgeAt] at h2
      omega
    have hex : ∃ q, edgeOk q ∧ edgeAt q = edgeAt (a, b, f, r, s) := ⟨_, hq, rfl⟩
    change (if h : ∃ q, nodeOk q ∧ nodeAt q = edgeAt (a, b, f, r, s) then nodeVal h.choose else
      if h : ∃ q, edgeOk q ∧ edgeAt q = edgeAt (a, b, f, r, s) then edgeVal h.choose else 0) = edgeVal (a, b, f, r, s)
    rw [dif_neg hno, dif_pos hex, einj _ _ hex.choose_spec.1 hq hex.choose_spec.2]

/-! ### models for the new names -/

theorem typedSize_renamed {T : ℕ} {p : List ℕ} (hp : Involution T p) (S F : List ℕ) (Fe : ℕ → ℕ → ℕ) :
    typedSize T (renamed p S) (renamed p F) (renamedPairs p Fe) = typedSize T S F Fe := by
  unfold typedSize nodeWeights edgeWeights
  rw [sum_range_mul T T fun a b => Fe a b * S.getD a 0 * S.getD b 0,
    sum_range_mul T T fun a b => renamedPairs p Fe a b * (renamed p S).getD a 0 * (renamed p S).getD b 0]
  congr 1
  · rw [← sum_perm hp fun t => S.getD t 0 * F.getD t 0]
    refine sum_congr rfl fun t ht => ?_
    rw [renamed_getD hp _ (mem_range.mp ht), renamed_getD hp _ (mem_range.mp ht)]
  · rw [← sum_perm hp fun a => ∑ b ∈ range T, Fe a b * S.getD a 0 * S.getD b 0]
    refine sum_congr rfl fun a ha => ?_
    rw [← sum_perm hp fun b => Fe (p.getD a 0) b * S.getD (p.getD a 0) 0 * S.getD b 0]
    refine sum_congr rfl fun b hb => ?_
    rw [renamed_getD hp _ (mem_range.mp ha), renamed_getD hp _ (mem_range.mp hb)]
    rfl

/-- **C165, models.** If a model for the old names can be built, so can one for the new names; it has as many weights. -/
theorem C165_model {T : ℕ} {p : List ℕ} (hp : Involution T p) {S F : List ℕ} {Fe : ℕ → ℕ → ℕ} {m : Typed.Model}
    (hm : construct T S F T T Fe none = .ok m) :
    ∃ m', construct T (renamed p S) (renamed p F) T T (renamedPairs p Fe) none = .ok m' ∧ m'.size = m.size := by
  have hg := construct_good hm
  have hsym : ∀ a < T, ∀ b < T, renamedPairs p Fe a b = renamedPairs p Fe b a := by
    unfold construct at hm
    split_ifs at hm with h1 h2
    all_goals exact fun a ha b hb => h2 _ (hp.lt a ha) _ (hp.lt b hb)
  have hT : T ≠ 0 := by
    unfold construct at hm
    split_ifs at hm <;> assumption
  have hm' : construct T (renamed p S) (renamed p F) T T (renamedPairs p Fe) none =
      .ok ⟨T, renamed p S, renamed p F, renamedPairs p Fe, (renamed p S).map ones⟩ := by
    unfold construct
    rw [if_neg (by simp), if_neg (not_not.mpr hsym), if_neg (by rw [renamed_length hp]; simp), if_neg (by rw [renamed_length hp]; simp),
      if_neg (by simp), if_neg hT]
    rfl
  refine ⟨_, hm', ?_⟩
  have hg' := construct_good hm'
  rw [size_eq hg'.1, size_eq hg.1, hg'.2.1, hg'.2.2.1, hg'.2.2.2.1, hg'.2.2.2.2, hg.2.1, hg.2.2.1, hg.2.2.2.1, hg.2.2.2.2]
  exact typedSize_renamed hp S F Fe

/-- **C165, scores.** With the weights renamed like the types, an instance with labels and its swapped version have the same score. -/
theorem C165_same_score {T : ℕ} {p : List ℕ} (hp : Involution T p) {S F : List ℕ} {rows cols rows' cols' : ℕ} {Fe : ℕ → ℕ → ℕ}
    {cw cw' : Option (List Vec)} {m m' : Typed.Model} (hm : construct T S F rows cols Fe cw = .ok m)
    (hm' : construct T (renamed p S) (renamed p F) rows' cols' (renamedPairs p Fe) cw' = .ok m')
    (x : Typed.X) (hx : AllArrays T x) (hf : TypedFits T F Fe x.nodeFeatures x.edges x.edgeFeatures)
    (w w' : Vec) (hw : w.size = m.size) (hw' : w'.size = m.size) (hww : RenamedWeights T p S F Fe w.get w'.get)
    (y : List ℤ) (hy : LabelsFit S (counts T x.nodeFeatures) y) (x' : Typed.X) (y' : List ℤ) (h : swapOne p S (x, y) = .ok (x', y')) :
    ∃ ψ ψ' e, Typed.jointFeature m x (.discrete y) = .ok ψ ∧ Typed.jointFeature m' x' (.discrete y') = .ok ψ' ∧
      w.dot ψ = .ok e ∧ w'.dot ψ' = .ok e := by
  have hg := construct_good hm
  have hS : S.length = T := by rw [← hg.2.2.1, hg.1.states, hg.2.1]
  have hsize : m.size = typedSize T S F Fe := by
    rw [size_eq hg.1, hg.2.1, hg.2.2.1, hg.2.2.2.1, hg.2.2.2.2]
  obtain ⟨x1, y1, e, h1, h2, h3, h4, h5, h6, h7⟩ := C165_swap hp hS x hx y hy
  rw [h] at e
  cases e
  obtain ⟨us, ps, ψ, -, -, a1, a2, a3, -, a4⟩ := C21_typed_energy hm x hx.nodes hx.efeat hf w (by rw [hw, hsize]) y hy
  obtain ⟨us', ps', ψ', -, -, b1, b2, b3, -, b4⟩ := C21_typed_energy hm' x' h1.nodes h1.efeat (fits_renamed hp hf h2 h3 h4) w'
    (by rw [hw', hsize, typedSize_renamed hp]) y' h6
  refine ⟨ψ, ψ', _, a1, b1, a4, ?_⟩
  rw [b4]
  congr 1
  refine energy_renamed hp hf h2 h3 h4 hww rfl h5 _ _ (fun t ht i hi => ?_) h7
  exact (state_lt hy (by rw [counts_length]; exact ht) hi).1

/-- **C165, losses.** With the class weights renamed like the types, the loss between two labellings is that between their swapped
versions. -/
theorem C165_same_loss {T : ℕ} {p : List ℕ} (hp : Involution T p) {S F : List ℕ} {rows cols rows' cols' : ℕ} {Fe : ℕ → ℕ → ℕ}
    {cw cw' : Option (List Vec)} {m m' : Typed.Model} (hm : construct T S F rows cols Fe cw = .ok m)
    (hm' : construct T (renamed p S) (renamed p F) rows' cols' (renamedPairs p Fe) cw' = .ok m')
    (hc : ∀ t < T, ∀ s < S.getD (p.getD t 0) 0, classWeightOf cw' t s = classWeightOf cw (p.getD t 0) s)
    (x : Typed.X) (hx : AllArrays T x) (y z : List ℤ) (hy : LabelsFit S (counts T x.nodeFeatures) y)
    (hz : LabelsFit S (counts T x.nodeFeatures) z) (x' x'' : Typed.X) (y' z' : List ℤ) (h : swapOne p S (x, y) = .ok (x', y'))
    (k : swapOne p S (x, z) = .ok (x'', z')) :
    ∃ l, Typed.loss m y z = .ok l ∧ Typed.loss m' y' z' = .ok l := by
  have hS : S.length = T := by rw [← (construct_good hm).2.2.1, (construct_good hm).1.states, (construct_good hm).2.1]
  obtain ⟨x1, y1, e, -, -, -, -, h5, h6, h7⟩ := C165_swap hp hS x hx y hy
  rw [h] at e
  cases e
  obtain ⟨x2, y2, e, -, -, -, -, k5, k6, k7⟩ := C165_swap hp hS x hx z hz
  rw [k] at e
  cases e
  rw [h5] at h6 h7
  rw [k5] at k6 k7
  have hcw : ∀ t < T, ∀ s, _ := fun t ht s => construct_weights hm (t := t) ht s
  have hcw' : ∀ t < T, ∀ s, _ := fun t ht s => construct_weights hm' (t := t) ht s
  obtain ⟨hg, g1, g2, -, -⟩ := construct_good hm
  obtain ⟨hg', g1', g2', -, -⟩ := construct_good hm'
  set n := counts T x.nodeFeatures with hn
  have hnl : n.length = T := counts_length _ _
  have e1 := typedLoss_ok hg (by rw [g1]; exact hnl) (by rw [g2]; exact hy) (by rw [g2]; exact hz)
  have e2 := typedLoss_ok hg' (by rw [g1']; exact renamed_length hp n) (by rw [g2']; exact h6) (by rw [g2']; exact k6)
  refine ⟨_, e1, e2.trans ?_⟩
  congr 1
  unfold typedLoss
  rw [g1, g1', g2, g2']
  conv_rhs => rw [← sum_perm hp]
  refine sum_congr rfl fun t ht => ?_
  have ht' := mem_range.mp ht
  refine sum_congr (by rw [renamed_getD hp _ ht']) fun i hi => ?_
  have hi' : i < (renamed p n).getD t 0 := by rw [renamed_getD hp _ ht']; exact mem_range.mp hi
  simp only [h7 t ht' i hi', k7 t ht' i hi', hcw' t ht', hcw _ (hp.lt t ht')]
  rw [hc t ht']
  exact (state_lt hy (by rw [hnl]; exact hp.lt t ht') (mem_range.mp hi)).1

/-- `y` labels the instance and no labelling has a higher score. -/
def BestLabelling (m : Typed.Model) (T : ℕ) (S : List ℕ) (x : Typed.X) (w : Vec) (y : List ℤ) : Prop :=
  LabelsFit S (counts T x.nodeFeatures) y ∧ ∀ z, LabelsFit S (counts T x.nodeFeatures) z →
    ∃ ψ ψz e ez, Typed.jointFeature m x (.discrete y) = .ok ψ ∧ Typed.jointFeature m x (.discrete z) = .ok ψz ∧
      w.dot ψ = .ok e ∧ w.dot ψz = .ok ez ∧ ez ≤ e

/-- **C165, best labellings.** A labelling is best if and only if its swapped version is best for the swapped instance. -/
theorem C165_best {T : ℕ} {p : List ℕ} (hp : Involution T p) {S F : List ℕ} {rows cols rows' cols' : ℕ} {Fe : ℕ → ℕ → ℕ}
    {cw cw' : Option (List Vec)} {m m' : Typed.Model} (hm : construct T S F rows cols Fe cw = .ok m)
    (hm' : construct T (renamed p S) (renamed p F) rows' cols' (renamedPairs p Fe) cw' = .ok m')
    (x : Typed.X) (hx : AllArrays T x) (hf : TypedFits T F Fe x.nodeFeatures x.edges x.edgeFeatures)
    (w w' : Vec) (hw : w.size = m.size) (hw' : w'.size = m.size) (hww : RenamedWeights T p S F Fe w.get w'.get)
    (y : List ℤ) (hy : LabelsFit S (counts T x.nodeFeatures) y) (x' : Typed.X) (y' : List ℤ) (h : swapOne p S (x, y) = .ok (x', y')) :
    BestLabelling m T S x w y ↔ BestLabelling m' T (renamed p S) x' w' y' := by
  have hS : S.length = T := by rw [← (construct_good hm).2.2.1, (construct_good hm).1.states, (construct_good hm).2.1]
  obtain ⟨x1, y1, e, h1, h2, h3, h4, h5, h6, h7⟩ := C165_swap hp hS x hx y hy
  rw [h] at e
  cases e
  obtain ⟨ψ, ψ', e, a1, a2, a3, a4⟩ := C165_same_score hp hm hm' x hx hf w w' hw hw' hww y hy x' y' h
  constructor
  · rintro ⟨-, hbest⟩
    refine ⟨h6, fun z' hz' => ?_⟩
    obtain ⟨x2, z, e2, k1, k2, k3, k4, k5, k6, k7⟩ := C165_swap hp (renamed_length hp S) x' h1 z' hz'
    have ex : x2 = x := by
      have e1 := renamed_list_twice hp hx.nodes h2 k2
      have e2 := renamed_table_twice hp hx.edges h3 k3
      have e3 := renamed_table_twice hp hx.efeat h4 k4
      cases x
      cases x2
      simp only at e1 e2 e3
      rw [e1, e2, e3]
    subst ex
    have e3 := C165_swap_back hp (renamed_length hp S) x' h1 z' hz' _ _ e2
    rw [renamed_twice hp hS] at e3 k6
    obtain ⟨φ, φ', ez, b1, b2, b3, b4⟩ := C165_same_score hp hm hm' x2 hx hf w w' hw hw' hww z k6 x' z' e3
    obtain ⟨ψ1, φ1, e1, ez1, c1, c2, c3, c4, c5⟩ := hbest z k6
    rw [a1] at c1
    cases c1
    rw [b1] at c2
    cases c2
    rw [a3] at c3
    cases c3
    rw [b3] at c4
    cases c4
    exact ⟨ψ', φ', _, _, a2, b2, a4, b4, c5⟩
  · rintro ⟨-, hbest⟩
    refine ⟨hy, fun z hz => ?_⟩
    obtain ⟨x2, z', e2, k1, k2, k3, k4, k5, k6, k7⟩ := C165_swap hp hS x hx z hz
    have ex : x2 = x' := by
      have g1 : x2.nodeFeatures = x'.nodeFeatures := List.ext_getElem (k2.1.trans h2.1.symm) fun t i1 i2 => by
        rw [← List.getD_eq_getElem _ none i1, ← List.getD_eq_getElem _ none i2, k2.2 t (k2.1 ▸ i1), h2.2 t (k2.1 ▸ i1)]
      have g2 : x2.edges = x'.edges := renamed_table_twice hp h3.1 (table_back hp hx.edges h3) k3
      have g3 : x2.edgeFeatures = x'.edgeFeatures := renamed_table_twice hp h4.1 (table_back hp hx.efeat h4) k4
      cases x2
      cases x'
      simp only at g1 g2 g3
      rw [g1, g2, g3]
    subst ex
    obtain ⟨φ, φ', ez, b1, b2, b3, b4⟩ := C165_same_score hp hm hm' x hx hf w w' hw hw' hww z hz x2 z' e2
    obtain ⟨ψ1, φ1, e1, ez1, c1, c2, c3, c4, c5⟩ := hbest z' k6
    rw [a2] at c1
    cases c1
    rw [b2] at c2
    cases c2
    rw [a4] at c3
    cases c3
    rw [b4] at c4
    cases c4
    exact ⟨ψ, φ, _, _, a1, b1, a3, b3, c5⟩

/-- Two nodes of one type and one of another, an edge from each of the former to the latter. -/
def linkedInstance : Typed.X :=
  ⟨[some ⟨2, 1, fun i _ => i⟩, some ⟨1, 2, fun _ f => f⟩], [none, some [(0, 0), (1, 0)], none, none],
    [none, some ⟨2, 1, fun _ _ => 1⟩, none, none]⟩

theorem linked_arrays : AllArrays 2 linkedInstance :=
  ⟨rfl, by intro f hf; simp [linkedInstance] at hf; rcases hf with h | h <;> rw [h] <;> simp, rfl, rfl⟩

/-- The hypotheses hold for the swap of two types; the labels are those expected. -/
example : Involution 2 [1, 0] ∧ AllArrays 2 linkedInstance ∧ LabelsFit [2, 3] (counts 2 linkedInstance.nodeFeatures) [1, 0, 4] ∧
    TypedFits 2 [1, 2] (fun _ _ => 1) linkedInstance.nodeFeatures linkedInstance.edges linkedInstance.edgeFeatures ∧
    (∃ m, construct 2 [2, 3] [1, 2] 2 2 (fun _ _ => 1) none = .ok m) ∧
    (swapOne [1, 0] [2, 3] (linkedInstance, [1, 0, 4])).map Prod.snd = .ok [2, 4, 3] := by
  refine ⟨⟨rfl, by decide, by decide⟩, linked_arrays, by unfold LabelsFit; decide, ⟨rfl, ?_, ?_, ?_, ?_⟩, ⟨_, rfl⟩, rfl⟩
  · intro t ht M hM
    interval_cases t <;> cases hM <;> rfl
  · intro a ha b hb e he
    interval_cases a <;> interval_cases b
    · cases he
    · have he' : e ∈ [((0 : ℤ), (0 : ℤ)), (1, 0)] := he
      simp only [List.mem_cons, List.not_mem_nil, or_false] at he'
      rcases he' with rfl | rfl <;> decide
    · cases he
    · cases he
  · intro a ha b hb
    interval_cases a <;> interval_cases b <;> rfl
  · intro a ha b hb M hM
    interval_cases a <;> interval_cases b <;> cases hM
    rfl

/-! ### three types in a circle, constraints -/

/-- An instance without edges whose node features have no columns. -/
def bareInstance (rows : List ℕ) : Typed.X :=
  ⟨rows.map fun r => some ⟨r, 0, fun _ _ => 0⟩, List.replicate (rows.length * rows.length) none,
    List.replicate (rows.length * rows.length) none⟩

/-- **C165 is violated** by permutations that are not their own inverse: with three types renamed in a circle, the node of the second new
type does not get the state it had before. -/
theorem C165_violated_circle :
    ∃ (p S : List ℕ) (x x' : Typed.X) (y y' : List ℤ), p.Perm [0, 1, 2] ∧ AllArrays 3 x ∧ LabelsFit S (counts 3 x.nodeFeatures) y ∧
      swapOne p S (x, y) = .ok (x', y') ∧ RenamedList 3 p x.nodeFeatures x'.nodeFeatures ∧
      stateOf (renamed p S) (counts 3 x'.nodeFeatures) y' 1 0 ≠ stateOf S (counts 3 x.nodeFeatures) y (p.getD 1 0) 0 := by
  refine ⟨[1, 2, 0], [2, 2, 2], bareInstance [1, 1, 1], bareInstance [1, 1, 1], [1, 2, 4], [0, 3, 4], by decide,
    ⟨rfl, by intro f hf; simp [bareInstance] at hf; rw [hf]; simp, rfl, rfl⟩, by unfold LabelsFit; decide, rfl, ⟨rfl, ?_⟩, by decide⟩
  intro t ht
  interval_cases t <;> rfl

/-- **C165 is violated**: with different numbers of nodes, the same permutation raises `ValueError`. -/
theorem C165_violated_sizes :
    ∃ (p S : List ℕ) (x : Typed.X) (y : List ℤ), p.Perm [0, 1, 2] ∧ AllArrays 3 x ∧ LabelsFit S (counts 3 x.nodeFeatures) y ∧
      swapOne p S (x, y) = .error .valueError :=
  ⟨[1, 2, 0], [1, 1, 1], bareInstance [2, 1, 3], [0, 0, 1, 2, 2, 2], by decide,
    ⟨rfl, by intro f hf; simp [bareInstance] at hf; rcases hf with h | h | h <;> rw [h] <;> simp, rfl, rfl⟩, by unfold LabelsFit; decide, rfl⟩

/-- The constraint has one entry per type in each of its lists. -/
def PerType {α β γ : Type} (T : ℕ) (c : Constraint α β γ) : Prop := c.unary.length = T ∧ c.state.length = T ∧ c.negated.length = T

theorem pick_length {α : Type} {T : ℕ} {p : List ℕ} (hp : Involution T p) {l : List α} (hl : l.length = T) :
    ∃ r, pick l p = .ok r ∧ r.length = T := by
  cases l with
  | nil =>
    have : p = [] := List.length_eq_zero_iff.mp (hp.length.trans hl.symm)
    subst this
    exact ⟨[], rfl, hl⟩
  | cons a l => exact ⟨_, pick_ok hp hl a, by rw [List.length_map, hp.length]⟩

theorem constraintLoop_grows {α β γ : Type} {T : ℕ} {p : List ℕ} (hp : Involution T p) (fuel : ℕ) :
    ∀ (k : ℕ) (l : List (Constraint α β γ)), k < l.length → (∀ c ∈ l, PerType T c) → constraintLoop p fuel k l = none := by
  induction fuel with
  | zero => intros; rfl
  | succ fuel ih =>
    intro k l hk hl
    have hc := hl _ (List.getElem_mem hk)
    obtain ⟨u, h1, h1'⟩ := pick_length hp hc.1
    obtain ⟨s, h2, h2'⟩ := pick_length hp hc.2.1
    obtain ⟨n, h3, h3'⟩ := pick_length hp hc.2.2
    have hs : swapConstraint p l[k] = .ok ⟨l[k].op, u, s, n⟩ := by
      unfold swapConstraint
      rw [h1, h2, h3]
      rfl
    unfold constraintLoop
    rw [List.getElem?_eq_getElem hk]
    simp only [hs]
    refine ih (k + 1) _ (by rw [List.length_append, List.length_singleton]; omega) fun c hcm => ?_
    rcases List.mem_append.mp hcm with h | h
    · exact hl c h
    · rw [List.mem_singleton.mp h]
      exact ⟨h1', h2', h3'⟩

/-- **C165 is violated** with constraints: the loop over a list of constraints appends to the list it runs over, so it never ends if one
of the lists has an element; no number of rounds is enough. -/
theorem C165_violated_constraints {α β γ : Type} {T : ℕ} {p : List ℕ} (hp : Involution T p) (fuel : ℕ) (L : List (List (Constraint α β γ)))
    (hL : ∀ l ∈ L, ∀ c ∈ l, PerType T c) (hne : ∃ l ∈ L, l ≠ []) : swapConstraints p fuel L = none := by
  have key : ∀ (L : List (List (Constraint α β γ))) (last : List (Constraint α β γ)), (∀ l ∈ L, ∀ c ∈ l, PerType T c) → (∃ l ∈ L, l ≠ []) →
      constraintLists p fuel L last = none := by
    intro L
    induction L with
    | nil => rintro _ _ ⟨l, hl, -⟩; simp at hl
    | cons c cs ih =>
      rintro last h1 ⟨l, hl, hne⟩
      unfold constraintLists
      by_cases hc : c = []
      · subst hc
        have hl' : l ∈ cs := by
          rcases List.mem_cons.mp hl with h | h
          · exact absurd h hne
          · exact h
        cases fuel with
        | zero => rfl
        | succ fuel =>
          have : constraintLoop p (fuel + 1) 0 ([] : List (Constraint α β γ)) = some (.ok []) := rfl
          rw [this]
          exact ih [] (fun l hl => h1 l (List.mem_cons_of_mem _ hl)) ⟨l, hl', hne⟩
      · rw [constraintLoop_grows hp fuel 0 c (List.length_pos_iff.mpr hc) (h1 c List.mem_cons_self)]
  unfold swapConstraints
  obtain ⟨l, hl, hl'⟩ := hne
  rw [if_neg (by cases L with | nil => simp at hl | cons => simp), key L [] hL ⟨l, hl, hl'⟩]
  rfl

/-- One list with one constraint for two types. -/
example (fuel : ℕ) : swapConstraints [1, 0] fuel [[⟨"ATMOSTONE", [[0], []], [[2], []], [[1], []]⟩]] = none :=
  C165_violated_constraints (T := 2) ⟨rfl, by decide, by decide⟩ fuel _
    (by
      intro l hl c hc
      rw [List.mem_singleton.mp hl] at hc
      rw [List.mem_singleton.mp hc]
      exact ⟨rfl, rfl, rfl⟩) ⟨_, List.mem_cons_self, by simp⟩

/-- **C165, without constraints.** With no list of constraints the result is `None`. With a list for every sample that has no element, the
result is one list, whatever the number of samples. -/
theorem C165_no_constraints {α β γ : Type} (p : List ℕ) (fuel : ℕ) (L : List (List (Constraint α β γ))) (hL : ∀ l ∈ L, l = []) :
    swapConstraints p (fuel + 1) L = some (.ok (if L = [] then none else some [[]])) := by
  have key : ∀ (L : List (List (Constraint α β γ))), (∀ l ∈ L, l = []) → constraintLists p (fuel + 1) L [] = some (.ok []) := by
    intro L
    induction L with
    | nil => intro _; rfl
    | cons c cs ih =>
      intro h
      obtain rfl := h c List.mem_cons_self
      exact ih fun l hl => h l (List.mem_cons_of_mem _ hl)
  unfold swapConstraints
  cases L with
  | nil => rfl
  | cons c cs =>
    rw [key _ hL]
    rfl

/-- Three samples without constraints. -/
example : swapConstraints [1, 0] 1 [([] : List (Constraint ℕ ℕ ℕ)), [], []] = some (.ok (some [[]])) :=
  (C165_no_constraints [1, 0] 0 _ (by simp)).trans (by simp)

/-! ### typed data from snake images -/

/-- Numbers of edge features for pixels (type 0) and images (type 1). -/
def snakeEdgeFeatures (a b : ℕ) : ℕ := if a = 0 ∧ b = 0 then 180 else if a = 1 ∧ b = 1 then 0 else 45

/-- **C165, conversion.** For an image with at least two pixels, `convertToTwoType` gives an instance for two types of nodes, the pixels
and the image. Pixels have 45 features and the image has 7; every pixel is linked to the image by one edge with the features of the pixel;
pixels and image keep their labels as states. -/
theorem C165_convert (nCell : ℕ) (x : Snakes.Pict) (hx : 2 ≤ x.h * x.w) (d e : EdgeFeature.X) (he : Snakes.prepareOne x = .ok (d, e))
    (labels : ℕ → ℕ → ℤ) (hlab : ∀ i < x.h, ∀ j < x.w, 0 ≤ labels i j ∧ labels i j ≤ nCell) (features : Mat) (hr : features.rows = 1)
    (hc : features.cols = 7) (label : ℤ) (hl : label = 0 ∨ label = 1) :
    ∃ X Y, convertOne nCell ⟨x, e, labels, features, label⟩ = .ok (X, Y) ∧ AllArrays 2 X ∧
      TypedFits 2 [45, 7] snakeEdgeFeatures X.nodeFeatures X.edges X.edgeFeatures ∧
      counts 2 X.nodeFeatures = [x.h * x.w, 1] ∧ LabelsFit [nCell + 1, 2] (counts 2 X.nodeFeatures) Y ∧
      (∀ i < x.h, ∀ j < x.w, (stateOf [nCell + 1, 2] [x.h * x.w, 1] Y 0 (i * x.w + j) : ℤ) = labels i j) ∧
      (stateOf [nCell + 1, 2] [x.h * x.w, 1] Y 1 0 : ℤ) = label ∧
      edgesOf X.edges (0 * 2 + 0) = e.edges.map (fun q => ((q.1 : ℤ), (q.2 : ℤ))) ∧
      edgesOf X.edges (0 * 2 + 1) = (List.range (x.h * x.w)).map (fun i : ℕ => ((i : ℤ), (0 : ℤ))) ∧
      edgesOf X.edges (1 * 2 + 0) = [] ∧ edgesOf X.edges (1 * 2 + 1) = [] ∧
      ∀ i < x.h, ∀ j < x.w, ∀ c < 5, ∀ k < 9, entryOf X.edgeFeatures (0 * 2 + 1) (i * x.w + j) (c * 9 + k) =
        windowValue x.h x.w x.get i j c k := by
  obtain ⟨M, h1, h2, h3, h4⟩ := C162_window x (by omega)
  obtain ⟨M', d', e', h1', he', -, hfit, -, hfeat, -⟩ := C162_prepare x hx 0
  rw [h1] at h1'
  cases h1'
  rw [he] at he'
  cases he'
  obtain ⟨-, -, hin, herows, hecols⟩ := hfit
  have hrows : e.features.rows = x.h * x.w := by rw [hfeat, h2]
  have hw : 0 < x.w := Nat.pos_of_ne_zero (by rintro h; rw [h] at hx; omega)
  have hb0 : before [nCell + 1, 2] 0 = 0 := rfl
  have hb1 : before [nCell + 1, 2] 1 = nCell + 1 := rfl
  have hb2 : before [nCell + 1, 2] 2 = nCell + 3 := rfl
  have hn0 : before [x.h * x.w, 1] 0 = 0 := rfl
  have hn1 : before [x.h * x.w, 1] 1 = x.h * x.w := rfl
  have hpix : ∀ i < x.h * x.w, (flatLabels nCell ⟨x, e, labels, features, label⟩).getD i 0 = labels (i / x.w) (i % x.w) := by
    intro i hi
    unfold flatLabels
    rw [List.getD_append _ _ _ _ (by simpa using hi), getD_map_range _ _ _ hi]
  have himg : (flatLabels nCell ⟨x, e, labels, features, label⟩).getD (x.h * x.w) 0 = label + nCell + 1 := by
    unfold flatLabels
    rw [List.getD_append_right _ _ _ _ (by simp)]
    simp
  have hcounts : counts 2 [some e.features, some features] = [x.h * x.w, 1] := by
    change [e.features.rows, features.rows] = _
    rw [hrows, hr]
  refine ⟨⟨[some e.features, some features], [some (rawEdges e.edges), some (pixelPictEdges e.features.rows), none, none],
    [some e.edgeFeatures, some M, none, none]⟩, flatLabels nCell ⟨x, e, labels, features, label⟩, ?_, ⟨rfl, ?_, rfl, rfl⟩, ⟨rfl, ?_, ?_, ?_, ?_⟩, hcounts, ?_, ?_, ?_, rfl, ?_,
    rfl, rfl, ?_⟩
  rotate_left
  · intro f hf
    simp only [List.mem_cons, List.not_mem_nil, or_false] at hf
    rcases hf with rfl | rfl <;> simp
  · intro t ht N hN
    interval_cases t
    · cases hN
      rw [hfeat, h3]
      rfl
    · cases hN
      rw [hc]
      rfl
  · intro a ha b hb q hq
    interval_cases a <;> interval_cases b
    · obtain ⟨q0, hq0, rfl⟩ := List.mem_map.mp hq
      have := hin q0 hq0
      change _ ∧ _ < ((e.features.rows : ℕ) : ℤ) ∧ _ ∧ _ < ((e.features.rows : ℕ) : ℤ)
      simp only
      omega
    · obtain ⟨i, hi, rfl⟩ := List.mem_map.mp hq
      have := List.mem_range.mp hi
      change _ ∧ _ < ((e.features.rows : ℕ) : ℤ) ∧ _ ∧ _ < ((features.rows : ℕ) : ℤ)
      simp only
      omega
    · cases hq
    · cases hq
  · intro a ha b hb
    interval_cases a <;> interval_cases b
    · change e.edgeFeatures.rows = (rawEdges e.edges).length
      rw [herows]
      unfold rawEdges
      rw [List.length_map]
    · change M.rows = (pixelPictEdges e.features.rows).length
      unfold pixelPictEdges
      rw [List.length_map, List.length_range, h2, hrows]
    · rfl
    · rfl
  · intro a ha b hb N hN
    interval_cases a <;> interval_cases b
    · cases hN
      exact hecols
    · cases hN
      exact h3
    · cases hN
    · cases hN
  · change LabelsFit _ (counts 2 [some e.features, some features]) _
    rw [hcounts]
    refine ⟨?_, fun t ht i hi => ?_⟩
    · unfold flatLabels
      simp
    · have ht2 : t < 2 := ht
      interval_cases t
      · have hi' : i < x.h * x.w := hi
        rw [hn0, Nat.zero_add, hb0, hb1, hpix i hi']
        have := hlab _ (Nat.div_lt_of_lt_mul (by rw [mul_comm]; exact hi')) _ (Nat.mod_lt i hw)
        push_cast
        omega
      · have hi' : i < 1 := hi
        have : i = 0 := by omega
        subst this
        rw [hn1, hb1, hb2, Nat.add_zero (x.h * x.w), himg]
        push_cast
        omega
  · intro i hi j hj
    have hk : i * x.w + j < x.h * x.w := digit_lt hi hj
    unfold stateOf
    rw [hn0, Nat.zero_add, hpix _ hk, hb0, flat_div hj, flat_mod hj]
    have := hlab i hi j hj
    omega
  · unfold stateOf
    rw [hn1, Nat.add_zero, himg, hb1]
    omega
  · change pixelPictEdges e.features.rows = _
    rw [hrows]
    rfl
  · intro i hi j hj c hc k hk
    exact h4 i hi j hj c hc k hk
  · unfold convertOne
    rw [h1]
    rfl

/-- An image with two pixels of different colours. -/
def twoPixels : Snakes.Pict := ⟨1, 2, fun _ j k => if k = 3 * j then 1 else 0⟩

example : 2 ≤ twoPixels.h * twoPixels.w ∧ (∃ d e, Snakes.prepareOne twoPixels = .ok (d, e)) ∧
    (∃ i < twoPixels.h, ∃ j < twoPixels.w, twoPixels.get i j 3 ≠ 1) := by
  refine ⟨by decide, ?_, 0, by decide, 0, by decide, by decide⟩
  obtain ⟨_, d, e, _, h, _⟩ := C162_prepare twoPixels (by decide) 2
  exact ⟨d, e, h⟩

theorem mapM_aligned {α β : Type} (f : α → Except PyErr β) : ∀ l : List α, (∀ a ∈ l, ∃ b, f a = .ok b) →
    ∃ r, l.mapM f = .ok r ∧ r.length = l.length ∧ ∀ k, (hk : k < l.length) → ∃ b, r[k]? = some b ∧ f l[k] = .ok b := by
  intro l
  induction l with
  | nil => intro _; exact ⟨[], rfl, rfl, fun k hk => absurd hk (by simp)⟩
  | cons a l ih =>
    intro h
    obtain ⟨b, hb⟩ := h a List.mem_cons_self
    obtain ⟨r, h1, h2, h3⟩ := ih fun x hx => h x (List.mem_cons_of_mem _ hx)
    refine ⟨b :: r, ?_, by simp [h2], ?_⟩
    · rw [List.mapM_cons, hb, h1]
      rfl
    · intro k hk
      cases k with
      | zero => exact ⟨b, rfl, hb⟩
      | succ k => simpa using h3 k (by simpa using hk)

/-- **C165, conversion of data sets.** `convertToTwoType` gives as many instances and label arrays as there are images, in the same
order, each that of its own image. -/
theorem C165_convert_all (nCell : ℕ) (l : List Sample) (hl : ∀ s ∈ l, 2 ≤ s.pict.h * s.pict.w ∧
      (∃ d, Snakes.prepareOne s.pict = .ok (d, s.pixels)) ∧
      (∀ i < s.pict.h, ∀ j < s.pict.w, 0 ≤ s.labels i j ∧ s.labels i j ≤ nCell) ∧ s.features.rows = 1 ∧ s.features.cols = 7 ∧
      (s.label = 0 ∨ s.label = 1)) :
    ∃ Xs Ys, convertToTwoType nCell l = .ok (Xs, Ys) ∧ Xs.length = l.length ∧ Ys.length = l.length ∧
      ∀ k, (hk : k < l.length) → ∃ X Y, Xs[k]? = some X ∧ Ys[k]? = some Y ∧ convertOne nCell l[k] = .ok (X, Y) := by
  obtain ⟨r, h1, h2, h3⟩ := mapM_aligned (convertOne nCell) l fun s hs => by
    obtain ⟨a, ⟨d, b⟩, c, e, f, g⟩ := hl s hs
    obtain ⟨X, Y, h, -⟩ := C165_convert nCell s.pict a d s.pixels b s.labels c s.features e f s.label g
    exact ⟨_, h⟩
  refine ⟨r.map Prod.fst, r.map Prod.snd, ?_, by simpa using h2, by simpa using h2, fun k hk => ?_⟩
  · unfold convertToTwoType
    rw [h1]
    rfl
  · obtain ⟨b, e1, e2⟩ := h3 k hk
    exact ⟨b.1, b.2, by simp [e1], by simp [e1], e2⟩

example : ∃ s : Sample, 2 ≤ s.pict.h * s.pict.w ∧ (∃ d, Snakes.prepareOne s.pict = .ok (d, s.pixels)) ∧
    (∀ i < s.pict.h, ∀ j < s.pict.w, 0 ≤ s.labels i j ∧ s.labels i j ≤ (10 : ℕ)) ∧ s.features.rows = 1 ∧ s.features.cols = 7 ∧
    (s.label = 0 ∨ s.label = 1) := by
  obtain ⟨_, d, e, _, h, _⟩ := C162_prepare twoPixels (by decide) 2
  exact ⟨⟨twoPixels, e, fun _ j => (j : ℤ), ⟨1, 7, fun _ _ => 1⟩, 1⟩, le_refl 2, ⟨d, h⟩,
    fun i _ j hj => ⟨by positivity, by have : j < 2 := hj; push_cast; omega⟩, rfl, rfl, Or.inr rfl⟩

/-- **C165, trainable data.** The model of the example accepts the converted image. -/
theorem C165_accepted (nCell : ℕ) (x : Snakes.Pict) (hx : 2 ≤ x.h * x.w) (d e : EdgeFeature.X) (he : Snakes.prepareOne x = .ok (d, e))
    (labels : ℕ → ℕ → ℤ) (hlab : ∀ i < x.h, ∀ j < x.w, 0 ≤ labels i j ∧ labels i j ≤ nCell) (features : Mat)
    (hr : features.rows = 1) (hc : features.cols = 7) (label : ℤ) (hl : label = 0 ∨ label = 1) :
    ∃ m X Y, construct 2 [nCell + 1, 2] [45, 7] 2 2 snakeEdgeFeatures none = .ok m ∧
      convertOne nCell ⟨x, e, labels, features, label⟩ = .ok (X, Y) ∧ initializeX m (.one X (some Y)) = .ok () := by
  obtain ⟨X, Y, h1, h2, h3, -, h4, -⟩ := C165_convert nCell x hx d e he labels hlab features hr hc label hl
  have hm : construct 2 [nCell + 1, 2] [45, 7] 2 2 snakeEdgeFeatures none =
      .ok ⟨2, [nCell + 1, 2], [45, 7], snakeEdgeFeatures, [nCell + 1, 2].map ones⟩ := by
    unfold construct
    rw [if_neg (by simp), if_neg (by decide), if_neg (by simp), if_neg (by simp), if_neg (by simp), if_neg (by simp)]
    rfl
  exact ⟨_, X, Y, hm, h1, (C37_initialize_one hm X h2.nodes h2.efeat Y).mpr ⟨h3, h4⟩⟩

theorem mem_whereIn {x : Snakes.Pict} {q : ℕ → ℕ → Bool} {i j : ℕ} : (i, j) ∈ whereIn x q ↔ i < x.h ∧ j < x.w ∧ q i j = true := by
  unfold whereIn
  simp only [List.mem_flatMap, List.mem_range, List.mem_filterMap]
  constructor
  · rintro ⟨a, ha, b, hb, h⟩
    split at h
    · cases h
      exact ⟨ha, hb, by assumption⟩
    · cases h
  · rintro ⟨h1, h2, h3⟩
    exact ⟨i, h1, j, h2, by rw [if_pos h3]⟩

theorem whereIn_length (x : Snakes.Pict) (q : ℕ → ℕ → Bool) :
    (whereIn x q).length = ∑ i ∈ range x.h, ∑ j ∈ range x.w, if q i j = true then 1 else 0 := by
  have hrow : ∀ i W, ((List.range W).filterMap fun j => if q i j then some (i, j) else none).length =
      ∑ j ∈ range W, if q i j = true then 1 else 0 := by
    intro i W
    induction W with
    | zero => rfl
    | succ W ih =>
      rw [List.range_succ, List.filterMap_append, List.length_append, ih, sum_range_succ]
      congr 1
      by_cases h : q i W = true <;> simp [h]
  unfold whereIn
  generalize x.h = H
  induction H with
  | zero => rfl
  | succ H ih =>
    rw [List.range_succ, List.flatMap_append, List.length_append, ih, sum_range_succ]
    congr 1
    rw [List.flatMap_cons, List.flatMap_nil, List.append_nil, hrow]

theorem extent_ok {a : List ℕ} (h : a ≠ []) : ∃ M ∈ a, ∃ k ∈ a, extent a = .ok ((M : ℚ) - k) ∧ ∀ b ∈ a, k ≤ b ∧ b ≤ M := by
  unfold extent
  cases hM : a.max? with
  | none => exact absurd (List.max?_eq_none_iff.mp hM) h
  | some M =>
    cases hm : a.min? with
    | none => exact absurd (List.min?_eq_none_iff.mp hm) h
    | some k =>
      have h1 := List.max?_eq_some_iff.mp hM
      have h2 := List.min?_eq_some_iff.mp hm
      exact ⟨M, h1.1, k, h2.1, rfl, fun b hb => ⟨h2.2 b hb, h1.2 b hb⟩⟩

/-- **C165, features of images.** For an image with a pixel that is not background, the features are the numbers of pixels of the five
colours and the height and the width of the foreground; an image without such a pixel raises `ValueError`. -/
theorem C165_picture (x : Snakes.Pict) :
    ((∃ i < x.h, ∃ j < x.w, x.get i j 3 ≠ 1) → ∃ M, pictureFeature x = .ok M ∧ M.rows = 1 ∧ M.cols = 7 ∧
      (∀ k < 5, M.get 0 k = ∑ i ∈ range x.h, ∑ j ∈ range x.w, if x.get i j k = 1 then 1 else 0) ∧
      (∃ top bottom : ℕ, M.get 0 5 = bottom - top ∧ (∃ j < x.w, top < x.h ∧ x.get top j 3 ≠ 1) ∧
        (∃ j < x.w, bottom < x.h ∧ x.get bottom j 3 ≠ 1) ∧ ∀ i < x.h, ∀ j < x.w, x.get i j 3 ≠ 1 → top ≤ i ∧ i ≤ bottom) ∧
      (∃ left right : ℕ, M.get 0 6 = right - left ∧ (∃ i < x.h, left < x.w ∧ x.get i left 3 ≠ 1) ∧
        (∃ i < x.h, right < x.w ∧ x.get i right 3 ≠ 1) ∧ ∀ i < x.h, ∀ j < x.w, x.get i j 3 ≠ 1 → left ≤ j ∧ j ≤ right)) ∧
    ((∀ i < x.h, ∀ j < x.w, x.get i j 3 = 1) → pictureFeature x = .error .valueError) := by
  have hfg : ∀ i j, (i, j) ∈ foreground x ↔ i < x.h ∧ j < x.w ∧ x.get i j 3 ≠ 1 := by
    intro i j
    unfold foreground
    rw [mem_whereIn, decide_eq_true_iff]
  constructor
  · rintro ⟨i, hi, j, hj, hij⟩
    have hmem := (hfg i j).mpr ⟨hi, hj, hij⟩
    obtain ⟨b, hb, t, ht, e1, a1⟩ := extent_ok (a := (foreground x).map Prod.fst) (List.ne_nil_of_mem (List.mem_map_of_mem hmem))
    obtain ⟨r, hr, l, hl, e2, a2⟩ := extent_ok (a := (foreground x).map Prod.snd) (List.ne_nil_of_mem (List.mem_map_of_mem hmem))
    unfold pictureFeature
    rw [e1, e2]
    have row : ∀ {a}, a ∈ (foreground x).map Prod.fst → ∃ j < x.w, a < x.h ∧ x.get a j 3 ≠ 1 := by
      intro a ha
      obtain ⟨⟨i, j⟩, h, rfl⟩ := List.mem_map.mp ha
      obtain ⟨h1, h2, h3⟩ := (hfg i j).mp h
      exact ⟨j, h2, h1, h3⟩
    have col : ∀ {a}, a ∈ (foreground x).map Prod.snd → ∃ i < x.h, a < x.w ∧ x.get i a 3 ≠ 1 := by
      intro a ha
      obtain ⟨⟨i, j⟩, h, rfl⟩ := List.mem_map.mp ha
      obtain ⟨h1, h2, h3⟩ := (hfg i j).mp h
      exact ⟨i, h1, h2, h3⟩
    refine ⟨_, rfl, rfl, rfl, fun k hk => ?_, ⟨t, b, rfl, row ht, row hb, fun i hi j hj h => ?_⟩,
      ⟨l, r, rfl, col hl, col hr, fun i hi j hj h => ?_⟩⟩
    · simp only [hk, if_true]
      unfold coloured
      rw [whereIn_length]
      push_cast
      simp only [decide_eq_true_iff]
    · exact a1 i (List.mem_map.mpr ⟨(i, j), (hfg i j).mpr ⟨hi, hj, h⟩, rfl⟩)
    · exact a2 j (List.mem_map.mpr ⟨(i, j), (hfg i j).mpr ⟨hi, hj, h⟩, rfl⟩)
  · intro h
    have : foreground x = [] := by
      apply List.eq_nil_iff_forall_not_mem.mpr
      rintro ⟨i, j⟩ hm
      obtain ⟨h1, h2, h3⟩ := (hfg i j).mp hm
      exact h3 (h i h1 j h2)
    unfold pictureFeature
    rw [this]
    rfl

theorem mapM_first_error {α β : Type} (f : α → Except PyErr β) (e : PyErr) : ∀ l : List α, (∀ a ∈ l, (∃ b, f a = .ok b) ∨ f a = .error e) →
    (∃ a ∈ l, f a = .error e) → l.mapM f = .error e := by
  intro l
  induction l with
  | nil => rintro _ ⟨a, ha, -⟩; simp at ha
  | cons a l ih =>
    rintro h ⟨x, hx, hxe⟩
    rw [List.mapM_cons]
    rcases h a List.mem_cons_self with ⟨b, hb⟩ | hb
    · rw [hb]
      rcases List.mem_cons.mp hx with rfl | hx
      · rw [hxe] at hb; cases hb
      · simp only [bind, Except.bind]
        rw [ih (fun y hy => h y (List.mem_cons_of_mem _ hy)) ⟨x, hx, hxe⟩]
    · rw [hb]
      rfl

/-- **C165, pictures.** `prepare_picture_data` gives one matrix per image, in the same order; one image of background only makes it
raise `ValueError`. -/
theorem C165_pictures (X : List Snakes.Pict) :
    ((∀ x ∈ X, ∃ i < x.h, ∃ j < x.w, x.get i j 3 ≠ 1) → ∃ Ms, preparePictureData X = .ok Ms ∧ Ms.length = X.length ∧
      ∀ k, (hk : k < X.length) → ∃ M, Ms[k]? = some M ∧ pictureFeature X[k] = .ok M) ∧
    ((∃ x ∈ X, ∀ i < x.h, ∀ j < x.w, x.get i j 3 = 1) → preparePictureData X = .error .valueError) := by
  constructor
  · intro h
    refine mapM_aligned pictureFeature X fun x hx => ?_
    obtain ⟨M, hM, -⟩ := (C165_picture x).1 (h x hx)
    exact ⟨M, hM⟩
  · rintro ⟨x, hx, h⟩
    refine mapM_first_error pictureFeature .valueError X (fun y _ => ?_) ⟨x, hx, (C165_picture x).2 h⟩
    by_cases hy : ∃ i < y.h, ∃ j < y.w, y.get i j 3 ≠ 1
    · obtain ⟨M, hM, -⟩ := (C165_picture y).1 hy
      exact Or.inl ⟨M, hM⟩
    · right
      refine (C165_picture y).2 fun i hi j hj => ?_
      by_contra hne
      exact hy ⟨i, hi, j, hj, hne⟩

example : (∀ x ∈ [twoPixels], ∃ i < x.h, ∃ j < x.w, x.get i j 3 ≠ 1) ∧
    ∃ x ∈ [twoPixels, ⟨1, 1, fun _ _ _ => 1⟩], ∀ i < x.h, ∀ j < x.w, x.get i j 3 = 1 := by
  refine ⟨fun x hx => ?_, ⟨1, 1, fun _ _ _ => 1⟩, by simp, fun _ _ _ _ => rfl⟩
  rw [List.mem_singleton.mp hx]
  exact ⟨0, by decide, 0, by decide, by decide⟩

end Verif.Props
