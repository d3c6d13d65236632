import Verif.Props.C36

/-!
# C74: loss augmentation and losses of typed CRFs
-/

namespace Verif.Props

open Finset Verif.Common Verif.GraphCRF Verif.Spec Verif.Typed

theorem sum_before (n : List ℕ) (f : ℕ → ℚ) : ∀ t,
    ∑ k ∈ range (before n t), f k = ∑ u ∈ range t, ∑ i ∈ range (n.getD u 0), f (before n u + i) := by
  intro t
  induction t with
  | zero => simp [before]
  | succ t ih => rw [sum_range_succ, before_succ, Finset.sum_range_add, ih]

theorem sum_blocks (n : List ℕ) (f : ℕ → ℚ) :
    ∑ k ∈ range n.sum, f k =
      ∑ u ∈ range n.length, ∑ i ∈ range (n.getD u 0), f (before n u + i) := by
  rw [← sum_before, before_all]

theorem foldl_append (l : List Vec) : ∀ v : Vec,
    (l.foldl Vec.append v).size = v.size + (l.map Vec.size).sum ∧
    (∀ k < v.size, (l.foldl Vec.append v).get k = v.get k) ∧
    ∀ t < l.length, ∀ s < (l.getD t ⟨0, fun _ => 0⟩).size,
      (l.foldl Vec.append v).get (v.size + (before (l.map Vec.size) t + s)) =
        (l.getD t ⟨0, fun _ => 0⟩).get s := by
  induction l with
  | nil => intro v; exact ⟨by simp, fun _ _ => rfl, fun t ht => by simp at ht⟩
  | cons a l ih =>
    intro v
    obtain ⟨h1, h2, h3⟩ := ih (v.append a)
    refine ⟨?_, ?_, ?_⟩
    · rw [List.foldl_cons, h1, List.map_cons, List.sum_cons, ← add_assoc]; rfl
    · intro k hk
      rw [List.foldl_cons, h2 k (by unfold Vec.append; simp only; omega)]
      unfold Vec.append
      simp only
      rw [if_pos hk]
    · intro t ht s hs
      rw [List.foldl_cons]
      cases t with
      | zero =>
        simp only [before, List.take_zero, List.sum_nil, zero_add, List.getD_cons_zero] at hs ⊢
        rw [h2 _ (by unfold Vec.append; simp only; omega)]
        unfold Vec.append
        simp only
        rw [if_neg (by omega), Nat.add_sub_cancel_left]
      | succ t =>
        simp only [List.getD_cons_succ, List.length_cons] at hs ht ⊢
        rw [← h3 t (by omega) s hs]
        congr 1
        simp only [before, List.map_cons, List.take_succ_cons, List.sum_cons, Vec.append]
        omega

/-- class weights of the constructed model. -/
theorem construct_weights {T : ℕ} {S F : List ℕ} {r c : ℕ} {Fe : ℕ → ℕ → ℕ} {cw : Option (List Vec)}
    {m : Typed.Model} (h : construct T S F r c Fe cw = .ok m) {t : ℕ} (ht : t < T) (s : ℕ) :
    (m.classWeight.getD t ⟨0, fun _ => 0⟩).get s = classWeightOf cw t s := by
  have hg := (construct_good h).1
  unfold construct at h
  split_ifs at h with h1 h2 h3 h4 h5 h6 h7
  · cases h
    have hl : S.length = T := hg.states
    have : ((S.map ones).getD t ⟨0, fun _ => 0⟩) = ones (S.getD t 0) := by
      rw [List.getD_eq_getElem?_getD, List.getElem?_map, getElem?_getD (by omega) 0]
      rfl
    rw [this]
    cases cw with
    | none => rfl
    | some l =>
      cases l with
      | nil => rfl
      | cons a l => simp at h7
  · cases h
    cases cw with
    | none => simp at h7
    | some l =>
      cases l with
      | nil => simp at h7
      | cons a l => rfl

theorem allWeights_size {m : Typed.Model} (hm : Good m) : m.allWeights.size = m.nStates.sum := by
  unfold Typed.Model.allWeights
  rw [(foldl_append _ _).1, hm.weights, zero_add]

theorem weights_size {m : Typed.Model} (hm : Good m) {t : ℕ} (ht : t < m.nTypes) :
    (m.classWeight.getD t ⟨0, fun _ => 0⟩).size = m.nStates.getD t 0 := by
  have hl : m.classWeight.length = m.nTypes := by
    rw [← hm.states, ← hm.weights, List.length_map]
  rw [← hm.weights, List.getD_eq_getElem?_getD (l := m.classWeight.map Vec.size), List.getElem?_map,
    getElem?_getD (by omega) (⟨0, fun _ => 0⟩ : Vec)]
  rfl

theorem allWeights_get {m : Typed.Model} (hm : Good m) {t s : ℕ} (ht : t < m.nTypes)
    (hs : s < m.nStates.getD t 0) : m.allWeights.get (before m.nStates t + s) =
      (m.classWeight.getD t ⟨0, fun _ => 0⟩).get s := by
  have hl : m.classWeight.length = m.nTypes := by
    rw [← hm.states, ← hm.weights, List.length_map]
  have := (foldl_append m.classWeight ⟨0, fun _ => 0⟩).2.2 t (by omega) s (by
    rw [weights_size hm ht]; exact hs)
  rw [hm.weights, zero_add] at this
  exact this

theorem LabelsFit.label {S n : List ℕ} {y : List ℤ} (hy : LabelsFit S n y) {t i : ℕ} (ht : t < n.length)
    (hi : i < n.getD t 0) :
    y.getD (before n t + i) 0 = ((before S t + stateOf S n y t i : ℕ) : ℤ) := by
  have := (stateOf_spec hy ht hi).1
  push_cast
  omega

/-- every position of a labelling belongs to a node. -/
theorem exists_node (n : List ℕ) {k : ℕ} (hk : k < n.sum) :
    ∃ t < n.length, ∃ i < n.getD t 0, k = before n t + i := by
  induction n generalizing k with
  | nil => simp at hk
  | cons a n ih =>
    by_cases h : k < a
    · exact ⟨0, by simp, k, h, by simp [before]⟩
    · rw [List.sum_cons] at hk
      obtain ⟨t, ht, i, hi, hki⟩ := ih (k := k - a) (by omega)
      refine ⟨t + 1, by simpa using ht, i, by simpa using hi, ?_⟩
      simp only [before, List.take_succ_cons, List.sum_cons] at hki ⊢
      omega

theorem labels_range {S n : List ℕ} {y : List ℤ} (hy : LabelsFit S n y) :
    ∀ l ∈ y, 0 ≤ l ∧ l < (S.sum : ℤ) := by
  intro l hl
  obtain ⟨k, hk, rfl⟩ := List.getElem_of_mem hl
  obtain ⟨t, ht, i, hi, rfl⟩ := exists_node n (hy.1 ▸ hk)
  have := hy.2 t ht i hi
  rw [List.getD_eq_getElem _ _ hk] at this
  have h2 := before_le_sum S (t + 1)
  omega

/-- The loss of labellings that fit. -/
theorem typedLoss_ok {m : Typed.Model} (hm : Good m) {n : List ℕ} (hn : n.length = m.nTypes) {y yhat : List ℤ}
    (hy : LabelsFit m.nStates n y) (hyhat : LabelsFit m.nStates n yhat) :
    Typed.loss m y yhat = .ok (typedLoss m.nTypes n
      (fun t s => (m.classWeight.getD t ⟨0, fun _ => 0⟩).get s)
      (stateOf m.nStates n y) (stateOf m.nStates n yhat)) := by
  have hr := labels_range hy
  unfold Typed.loss
  rw [if_neg (by rintro ⟨l, hl, h⟩; have := hr l hl; omega),
    if_neg (by rw [hy.1, hyhat.1]; simp),
    if_neg (by rintro ⟨l, hl, h⟩; have := hr l hl; rw [allWeights_size hm] at h; omega)]
  congr 1
  rw [hy.1, sum_blocks, hn]
  unfold typedLoss
  refine sum_congr rfl fun t ht => sum_congr rfl fun i hi => ?_
  have ht' := mem_range.mp ht
  have hi' := mem_range.mp hi
  rw [LabelsFit.label hy (hn ▸ ht') hi', LabelsFit.label hyhat (hn ▸ ht') hi', Int.toNat_natCast,
    allWeights_get hm ht' (stateOf_spec hy (hn ▸ ht') hi').2.1]
  by_cases h : stateOf m.nStates n y t i = stateOf m.nStates n yhat t i
  · rw [if_pos h, h, if_neg (by simp), mul_zero]
  · rw [if_neg h, if_pos (by push_cast; omega), mul_one]

theorem augmentLoop_ok (y : List ℤ) (l : List (Mat × Vec × ℕ)) : ∀ i,
    (∀ Q ∈ scan (fun i (p : Mat × Vec × ℕ) => i + p.1.rows ≤ y.length ∧
      ∀ a < p.1.rows, 0 ≤ y.getD (i + a) 0 - (p.2.2 : ℤ) ∧
        (y.getD (i + a) 0 - (p.2.2 : ℤ)).toNat < p.2.1.size) (fun p => p.1.rows) i l, Q) →
    augmentLoop y i l = .ok (scan (fun i (p : Mat × Vec × ℕ) => (⟨p.1.rows, p.1.cols, fun a s =>
      if s = (((List.range p.1.rows).map fun j => y.getD (i + j) 0 - (p.2.2 : ℤ)).getD a 0).toNat
      then p.1.get a s else p.1.get a s + p.2.1.get
        (((List.range p.1.rows).map fun j => y.getD (i + j) 0 - (p.2.2 : ℤ)).getD a 0).toNat⟩ : Mat))
      (fun p => p.1.rows) i l) := by
  induction l with
  | nil => intro i _; rfl
  | cons p l ih =>
    intro i h
    obtain ⟨u, cw, start⟩ := p
    simp only [scan, List.forall_mem_cons] at h
    obtain ⟨⟨hle, hin⟩, hrest⟩ := h
    unfold augmentLoop
    have hsl : (slice y i u.rows).map (fun l => l - (start : ℤ)) =
        (List.range u.rows).map fun j => y.getD (i + j) 0 - (start : ℤ) := by
      rw [slice_eq y i u.rows hle, List.map_map]; rfl
    have hlg : ∀ a < u.rows, (toLabels ((List.range u.rows).map fun j =>
        y.getD (i + j) 0 - (start : ℤ))).get a = (y.getD (i + a) 0 - (start : ℤ)).toNat := by
      intro a ha
      unfold toLabels
      simp only
      rw [getD_map_range _ _ _ ha]
    have hla : Loss.lossAugmentUnaries u (toLabels ((List.range u.rows).map fun j =>
        y.getD (i + j) 0 - (start : ℤ))) cw = .ok ⟨u.rows, u.cols, fun a s =>
      if s = (((List.range u.rows).map fun j => y.getD (i + j) 0 - (start : ℤ)).getD a 0).toNat
      then u.get a s else u.get a s + cw.get
        (((List.range u.rows).map fun j => y.getD (i + j) 0 - (start : ℤ)).getD a 0).toNat⟩ := by
      unfold Loss.lossAugmentUnaries
      rw [if_neg (by simp [toLabels]), if_neg (by
        rw [not_not]
        intro a ha
        rw [hlg a ha]
        exact (hin a ha).2)]
      rfl
    simp only [hsl]
    rw [if_neg (by
      rintro ⟨l, hl, hneg⟩
      obtain ⟨a, ha, rfl⟩ := List.mem_map.mp hl
      have := (hin a (List.mem_range.mp ha)).1
      omega), hla, ih _ hrest]
    rfl

/-- Loss-augmented unary potentials: the weight of the true state is added to all other states. -/
theorem typedAugment_ok {m : Typed.Model} (hm : Good m) {n : List ℕ} (hn : n.length = m.nTypes)
    {us : List Mat} (hl : us.length = m.nTypes) (hrows : us.map Mat.rows = n) {y : List ℤ}
    (hy : LabelsFit m.nStates n y) :
    ∃ us', augment m us y = .ok us' ∧ us'.length = m.nTypes ∧
      us'.map Mat.rows = n ∧ us'.map Mat.cols = us.map Mat.cols ∧
      ∀ t < m.nTypes, ∀ i < n.getD t 0, ∀ s, unaryAt us' t i s = unaryAt us t i s +
        if stateOf m.nStates n y t i = s then 0
        else (m.classWeight.getD t ⟨0, fun _ => 0⟩).get (stateOf m.nStates n y t i) := by
  set U : ℕ → Mat := fun t => us.getD t ⟨0, 0, fun _ _ => 0⟩ with hU
  have hus : us = (List.range m.nTypes).map U := eq_map_range us _ U hl fun t ht =>
    getElem?_getD (by omega) _
  have hrow : ∀ t < m.nTypes, (U t).rows = n.getD t 0 := by
    intro t ht
    rw [← hrows, List.getD_eq_getElem?_getD, List.getElem?_map,
      getElem?_getD (by omega) (⟨0, 0, fun _ _ => 0⟩ : Mat)]
    rfl
  have hwl : m.classWeight.length = m.nTypes := by
    rw [← hm.states, ← hm.weights, List.length_map]
  have hzip : us.zip (m.classWeight.zip m.starts) = (List.range m.nTypes).map fun t =>
      (U t, m.classWeight.getD t ⟨0, fun _ => 0⟩, before m.nStates t) := by
    apply eq_map_range
    · rw [List.length_zip, List.length_zip, starts_eq, List.length_map, List.length_range]; omega
    · intro t ht
      apply zip_some
      · exact getElem?_getD (by omega) _
      · apply zip_some
        · exact getElem?_getD (by omega) _
        · rw [starts_eq, List.getElem?_map, List.getElem?_range (by omega)]; rfl
  have hoff : ∀ t < m.nTypes, 0 + ∑ k ∈ range t, (U k).rows = before n t := by
    intro t ht
    rw [zero_add, before_eq_sum]
    refine sum_congr rfl fun k hk => ?_
    have := mem_range.mp hk
    exact hrow k (by omega)
  have hst : ∀ t < m.nTypes, ∀ a < n.getD t 0,
      y.getD (before n t + a) 0 - (before m.nStates t : ℤ) = (stateOf m.nStates n y t a : ℤ) := by
    intro t ht a ha
    exact ((stateOf_spec hy (hn ▸ ht) ha).1).symm
  set lab : ℕ → ℕ → ℕ := fun t a => (((List.range (U t).rows).map fun j =>
    y.getD (0 + ∑ k ∈ range t, (U k).rows + j) 0 - (before m.nStates t : ℤ)).getD a 0).toNat with hlab
  set A : ℕ → Mat := fun t => ⟨(U t).rows, (U t).cols, fun a s => if s = lab t a then (U t).get a s
    else (U t).get a s + (m.classWeight.getD t ⟨0, fun _ => 0⟩).get (lab t a)⟩ with hA
  have hlabs : ∀ t < m.nTypes, ∀ i < n.getD t 0, lab t i = stateOf m.nStates n y t i := by
    intro t ht i hi
    simp only [hlab]
    rw [getD_map_range _ _ _ (by rw [hrow t ht]; exact hi), hoff t ht, hst t ht i hi, Int.toNat_natCast]
  refine ⟨(List.range m.nTypes).map A, ?_, by simp, ?_, ?_, ?_⟩
  · unfold augment
    rw [hzip, augmentLoop_ok, scan_range]
    rw [scan_range, forall_mem_range_map m.nTypes _ fun Q => Q]
    intro t ht
    simp only
    rw [hoff t ht, hrow t ht]
    refine ⟨?_, fun a ha => ?_⟩
    · rw [hy.1, ← before_succ]; exact before_le_sum _ _
    · rw [hst t ht a ha, Int.toNat_natCast, weights_size hm ht]
      exact ⟨by omega, (stateOf_spec hy (hn ▸ ht) ha).2.1⟩
  · rw [← hrows, hus, List.map_map, List.map_map]; rfl
  · rw [hus, List.map_map, List.map_map]; rfl
  · intro t ht i hi s
    have e1 : unaryAt ((List.range m.nTypes).map A) t i s = (A t).get i s := by
      unfold unaryAt
      rw [getD_map_range _ _ _ ht]
    have e2 : unaryAt us t i s = (U t).get i s := rfl
    rw [e1, e2]
    simp only [hA]
    rw [hlabs t ht i hi]
    by_cases h : s = stateOf m.nStates n y t i
    · rw [if_pos h, if_pos h.symm, add_zero]
    · rw [if_neg h, if_neg (Ne.symm h)]

/-- **C74 (1).** With the potentials used by `loss_augmented_inference` every labelling gets its energy
plus its loss, whatever the class weights. -/
theorem C74_augmented_energy {T : ℕ} {S F : List ℕ} {rows cols : ℕ} {Fe : ℕ → ℕ → ℕ}
    {cw : Option (List Vec)} {m : Typed.Model} (hm : construct T S F rows cols Fe cw = .ok m)
    (x : Typed.X) (h1 : x.nodeFeatures.length = T) (h2 : x.edgeFeatures.length = T * T)
    (hf : TypedFits T F Fe x.nodeFeatures x.edges x.edgeFeatures)
    (w : Vec) (hw : w.size = typedSize T S F Fe)
    (y : List ℤ) (hy : LabelsFit S (counts T x.nodeFeatures) y) :
    ∃ us ps us', Typed.unaryPotentials m x w = .ok us ∧ Typed.pairwisePotentials m x w = .ok ps ∧
      augment m us y = .ok us' ∧ us'.map Mat.rows = counts T x.nodeFeatures ∧ us'.map Mat.cols = S ∧
      ∀ yhat, LabelsFit S (counts T x.nodeFeatures) yhat →
        ∃ ψ E L, Typed.jointFeature m x (.discrete yhat) = .ok ψ ∧ w.dot ψ = .ok E ∧
          Typed.loss m y yhat = .ok L ∧
          L = typedLoss T (counts T x.nodeFeatures) (classWeightOf cw)
            (stateOf S (counts T x.nodeFeatures) y) (stateOf S (counts T x.nodeFeatures) yhat) ∧
          typedEnergy T (counts T x.nodeFeatures) x.edges (unaryAt us')
            (fun a b => tenAt ps (a * T + b)) (stateOf S (counts T x.nodeFeatures) yhat) = E + L := by
  have hcw : ∀ t < T, ∀ s, _ := fun t ht s => construct_weights hm (t := t) ht s
  have hen := C21_typed_energy hm x h1 h2 hf w hw
  obtain ⟨hg, rfl, rfl, rfl, rfl⟩ := construct_good hm
  have hw' : w.size = m.size := by rw [hw, size_eq hg]
  obtain ⟨us, ps, hus, hps, hl, _, hrows, hcols, _, _⟩ := potentials_ok hg h1.ge h2.ge hf hw'
  obtain ⟨us', ha, _, hrows', hcols', hget⟩ := typedAugment_ok hg (counts_length _ _) hl hrows hy
  refine ⟨us, ps, us', hus, hps, ha, hrows', hcols'.trans hcols, fun yhat hyhat => ?_⟩
  obtain ⟨us2, ps2, ψ, e1, e2, e3, _, _, e4, _⟩ := hen yhat hyhat
  rw [hus, Except.ok.injEq] at e1
  rw [hps, Except.ok.injEq] at e2
  subst e1 e2
  have hloss : typedLoss m.nTypes (counts m.nTypes x.nodeFeatures)
      (fun t s => (m.classWeight.getD t ⟨0, fun _ => 0⟩).get s)
      (stateOf m.nStates (counts m.nTypes x.nodeFeatures) y)
      (stateOf m.nStates (counts m.nTypes x.nodeFeatures) yhat) =
      typedLoss m.nTypes (counts m.nTypes x.nodeFeatures) (classWeightOf cw)
      (stateOf m.nStates (counts m.nTypes x.nodeFeatures) y)
      (stateOf m.nStates (counts m.nTypes x.nodeFeatures) yhat) := by
    unfold typedLoss
    refine sum_congr rfl fun t ht => sum_congr rfl fun i _ => ?_
    simp only [hcw t (mem_range.mp ht)]
  refine ⟨ψ, _, _, e3, e4, typedLoss_ok hg (counts_length _ _) hy hyhat, hloss, ?_⟩
  unfold typedEnergy typedLoss
  rw [add_right_comm]
  congr 1
  rw [← sum_add_distrib]
  refine sum_congr rfl fun t ht => ?_
  rw [← sum_add_distrib]
  refine sum_congr rfl fun i hi => ?_
  rw [hget t (mem_range.mp ht) i (mem_range.mp hi)]

/-- The labelling returned by the solver and decoded is a best one for the potentials it is given. -/
def DecodesBest (solver : Typed.Solver) : Prop :=
  ∀ us ps es relaxed y e, inferenceMulti solver us ps es relaxed false = .ok (.discrete y, e) →
    LabelsFit (us.map Mat.cols) (us.map Mat.rows) y ∧
    ∀ y', LabelsFit (us.map Mat.cols) (us.map Mat.rows) y' →
      typedEnergy us.length (us.map Mat.rows) (es.map some) (unaryAt us)
        (fun a b => tenAt ps (a * us.length + b)) (stateOf (us.map Mat.cols) (us.map Mat.rows) y') ≤
      typedEnergy us.length (us.map Mat.rows) (es.map some) (unaryAt us)
        (fun a b => tenAt ps (a * us.length + b)) (stateOf (us.map Mat.cols) (us.map Mat.rows) y)

theorem edgesOf_lists (x : Typed.X) (k : ℕ) : edgesOf ((edgeLists x).map some) k = edgesOf x.edges k := by
  unfold edgesOf edgeLists
  simp only [List.getD_eq_getElem?_getD, List.getElem?_map]
  cases h : x.edges[k]? with
  | none => rfl
  | some e => rfl

theorem typedEnergy_edges {T : ℕ} {n : List ℕ} {es es' : List (Option (List (ℤ × ℤ)))}
    (h : ∀ k, edgesOf es k = edgesOf es' k) (U : ℕ → ℕ → ℕ → ℚ) (P : ℕ → ℕ → ℕ → ℕ → ℕ → ℚ)
    (σ : ℕ → ℕ → ℕ) : typedEnergy T n es U P σ = typedEnergy T n es' U P σ := by
  unfold typedEnergy
  simp only [h]

/-- **C74 (2).** With an exact solver, `loss_augmented_inference` of a typed CRF returns a labelling that
maximises weights times features plus loss over all labellings that fit. -/
theorem C74_loss_augmented {T : ℕ} {S F : List ℕ} {rows cols : ℕ} {Fe : ℕ → ℕ → ℕ}
    {cw : Option (List Vec)} {m : Typed.Model} (hm : construct T S F rows cols Fe cw = .ok m)
    (x : Typed.X) (h1 : x.nodeFeatures.length = T) (h2 : x.edgeFeatures.length = T * T)
    (hf : TypedFits T F Fe x.nodeFeatures x.edges x.edgeFeatures)
    (w : Vec) (hw : w.size = typedSize T S F Fe)
    (y : List ℤ) (hy : LabelsFit S (counts T x.nodeFeatures) y)
    (solver : Typed.Solver) (hs : DecodesBest solver) (relaxed : Bool) (yhat : List ℤ) (e : ℚ)
    (hr : Typed.lossAugmentedInference solver m x y w relaxed = .ok (.discrete yhat, e)) :
    LabelsFit S (counts T x.nodeFeatures) yhat ∧
    ∃ ψ E L, Typed.jointFeature m x (.discrete yhat) = .ok ψ ∧ w.dot ψ = .ok E ∧
      Typed.loss m y yhat = .ok L ∧
      ∀ y', LabelsFit S (counts T x.nodeFeatures) y' →
        ∃ ψ' E' L', Typed.jointFeature m x (.discrete y') = .ok ψ' ∧ w.dot ψ' = .ok E' ∧
          Typed.loss m y y' = .ok L' ∧ E' + L' ≤ E + L := by
  obtain ⟨us, ps, us', hus, hps, ha, hrows, hcols, hen⟩ :=
    C74_augmented_energy hm x h1 h2 hf w hw y hy
  obtain ⟨hg, rfl, rfl, rfl, rfl⟩ := construct_good hm
  have hw' : w.size = m.size := by rw [hw, size_eq hg]
  unfold Typed.lossAugmentedInference at hr
  rw [checkSizeW_ok hw', hus, hps] at hr
  simp only [bind, Except.bind] at hr
  rw [ha] at hr
  obtain ⟨hfit, hbest⟩ := hs _ _ _ _ _ _ hr
  have hlen : us'.length = m.nTypes := by
    rw [← List.length_map Mat.rows, hrows, counts_length]
  rw [hrows, hcols] at hfit
  rw [hrows, hcols, hlen] at hbest
  obtain ⟨ψ, E, L, a1, a2, a3, _, a5⟩ := hen yhat hfit
  refine ⟨hfit, ψ, E, L, a1, a2, a3, fun y' hy' => ?_⟩
  obtain ⟨ψ', E', L', b1, b2, b3, _, b5⟩ := hen y' hy'
  refine ⟨ψ', E', L', b1, b2, b3, ?_⟩
  have := hbest y' hy'
  rw [typedEnergy_edges (edgesOf_lists x), typedEnergy_edges (edgesOf_lists x), a5, b5] at this
  exact this

/-- The same for `inference`: it maximises weights times features. -/
theorem C74_inference {T : ℕ} {S F : List ℕ} {rows cols : ℕ} {Fe : ℕ → ℕ → ℕ}
    {cw : Option (List Vec)} {m : Typed.Model} (hm : construct T S F rows cols Fe cw = .ok m)
    (x : Typed.X) (h1 : x.nodeFeatures.length = T) (h2 : x.edgeFeatures.length = T * T)
    (hf : TypedFits T F Fe x.nodeFeatures x.edges x.edgeFeatures)
    (w : Vec) (hw : w.size = typedSize T S F Fe)
    (solver : Typed.Solver) (hs : DecodesBest solver) (exc relaxed : Bool) (yhat : List ℤ) (e : ℚ)
    (hr : Typed.inference solver m exc x w relaxed = .ok (.discrete yhat, e)) :
    LabelsFit S (counts T x.nodeFeatures) yhat ∧
    ∃ ψ E, Typed.jointFeature m x (.discrete yhat) = .ok ψ ∧ w.dot ψ = .ok E ∧
      ∀ y', LabelsFit S (counts T x.nodeFeatures) y' →
        ∃ ψ' E', Typed.jointFeature m x (.discrete y') = .ok ψ' ∧ w.dot ψ' = .ok E' ∧ E' ≤ E := by
  have hen := C21_typed_energy hm x h1 h2 hf w hw
  obtain ⟨hg, rfl, rfl, rfl, rfl⟩ := construct_good hm
  have hw' : w.size = m.size := by rw [hw, size_eq hg]
  obtain ⟨us, ps, hus, hps, hl, _, hrows, hcols, _, _⟩ := potentials_ok hg h1.ge h2.ge hf hw'
  unfold Typed.inference at hr
  rw [checkSizeW_ok hw', hus, hps] at hr
  simp only [bind, Except.bind] at hr
  obtain ⟨hfit, hbest⟩ := hs _ _ _ _ _ _ hr
  rw [hrows, hcols] at hfit
  rw [hrows, hcols, hl] at hbest
  have hen' : ∀ y', LabelsFit m.nStates (counts m.nTypes x.nodeFeatures) y' →
      ∃ ψ', Typed.jointFeature m x (.discrete y') = .ok ψ' ∧ w.dot ψ' = .ok (typedEnergy m.nTypes
        (counts m.nTypes x.nodeFeatures) x.edges (unaryAt us)
        (fun a b => tenAt ps (a * m.nTypes + b))
        (stateOf m.nStates (counts m.nTypes x.nodeFeatures) y')) := by
    intro y' hy'
    obtain ⟨us2, ps2, ψ, e1, e2, e3, _, _, e4, _⟩ := hen y' hy'
    rw [hus, Except.ok.injEq] at e1
    rw [hps, Except.ok.injEq] at e2
    subst e1 e2
    exact ⟨ψ, e3, e4⟩
  obtain ⟨ψ, a1, a2⟩ := hen' yhat hfit
  refine ⟨hfit, ψ, _, a1, a2, fun y' hy' => ?_⟩
  obtain ⟨ψ', b1, b2⟩ := hen' y' hy'
  refine ⟨ψ', _, b1, b2, ?_⟩
  have := hbest y' hy'
  rw [typedEnergy_edges (edgesOf_lists x), typedEnergy_edges (edgesOf_lists x)] at this
  exact this

theorem lossLoop_ok (y : List ℤ) (l : List Mat) : ∀ i j,
    (∀ Q ∈ scan (fun (o : ℕ × ℕ) (u : Mat) => o.1 + u.rows ≤ y.length ∧
      ∀ a < u.rows, 0 ≤ y.getD (o.1 + a) 0 - (o.2 : ℤ) ∧ y.getD (o.1 + a) 0 - (o.2 : ℤ) < u.cols)
      (fun u => (u.rows, u.cols)) (i, j) l, Q) →
    lossLoop y i j l = .ok (scan (fun (o : ℕ × ℕ) (u : Mat) => (List.range u.rows).map fun k =>
      1 - u.get k (y.getD (o.1 + k) 0 - (o.2 : ℤ)).toNat) (fun u => (u.rows, u.cols)) (i, j) l).flatten := by
  induction l with
  | nil => intro i j _; rfl
  | cons u l ih =>
    intro i j h
    simp only [scan, List.forall_mem_cons] at h
    obtain ⟨⟨hle, hin⟩, hrest⟩ := h
    unfold lossLoop
    have hsl : (slice y i u.rows).map (fun l => l - (j : ℤ)) =
        (List.range u.rows).map fun k => y.getD (i + k) 0 - (j : ℤ) := by
      rw [slice_eq y i u.rows hle, List.map_map]; rfl
    simp only [hsl]
    rw [if_neg (by
      rw [not_not]
      intro l hl
      obtain ⟨a, ha, rfl⟩ := List.mem_map.mp hl
      exact hin a (List.mem_range.mp ha)), ih _ _ hrest]
    simp only [bind, Except.bind, pure, Except.pure, scan, List.flatten_cons, List.length_map,
      List.length_range]
    congr 2
    apply List.map_congr_left
    intro k hk
    rw [getD_map_range _ _ _ (List.mem_range.mp hk)]

theorem getD_flattenQ (l : List (List ℚ)) : ∀ (t i : ℕ), t < l.length → i < (l.getD t []).length →
    l.flatten.getD (before (l.map List.length) t + i) 0 = (l.getD t []).getD i 0 := by
  induction l with
  | nil => intro t i ht; simp at ht
  | cons a l ih =>
    intro t i ht hi
    cases t with
    | zero =>
      simp only [before, List.take_zero, List.sum_nil, zero_add, List.flatten_cons, List.getD_cons_zero]
        at hi ⊢
      exact List.getD_append _ _ _ _ hi
    | succ t =>
      simp only [List.getD_cons_succ, List.length_cons] at hi ht ⊢
      simp only [before, List.map_cons, List.take_succ_cons, List.sum_cons, List.flatten_cons]
      rw [List.getD_append_right _ _ _ _ (by omega)]
      rw [← ih t i (by omega) hi]
      congr 1
      simp only [before]
      omega

/-- **C74 (3).** The continuous loss of marginals is the weighted mass off the true states. -/
theorem C74_continuous_loss {T : ℕ} {S F : List ℕ} {rows cols : ℕ} {Fe : ℕ → ℕ → ℕ}
    {cw : Option (List Vec)} {m : Typed.Model} (hm : construct T S F rows cols Fe cw = .ok m)
    (n : List ℕ) (hn : n.length = T) (y : List ℤ) (hy : LabelsFit S n y) (μ : ℕ → ℕ → ℕ → ℚ) :
    continuousLoss m y ((List.range T).map fun t => ⟨n.getD t 0, S.getD t 0, μ t⟩) =
      .ok (∑ t ∈ range T, ∑ i ∈ range (n.getD t 0),
        classWeightOf cw t (stateOf S n y t i) * (1 - μ t i (stateOf S n y t i))) := by
  have hcw : ∀ t < T, ∀ s, _ := fun t ht s => construct_weights hm (t := t) ht s
  obtain ⟨hg, rfl, rfl, rfl, rfl⟩ := construct_good hm
  have hr := labels_range hy
  have hoff : ∀ t, (0, 0) + ∑ k ∈ range t, (n.getD k 0, m.nStates.getD k 0) =
      (before n t, before m.nStates t) := by
    intro t
    rw [sum_typed_pair, before_eq_sum, before_eq_sum]
    simp
  set L : List (List ℚ) := (List.range m.nTypes).map fun t => (List.range (n.getD t 0)).map fun i =>
    1 - μ t i (stateOf m.nStates n y t i) with hL
  have hloop : lossLoop y 0 0 ((List.range m.nTypes).map fun t =>
      ⟨n.getD t 0, m.nStates.getD t 0, μ t⟩) = .ok L.flatten := by
    rw [lossLoop_ok, scan_range]
    · congr 2
      apply List.map_congr_left
      intro t ht
      apply List.map_congr_left
      intro i hi
      simp only
      rw [hoff t]
      rfl
    · rw [scan_range, forall_mem_range_map m.nTypes _ fun Q => Q]
      intro t ht
      simp only
      rw [hoff t]
      refine ⟨?_, fun a ha => ?_⟩
      · rw [hy.1, ← before_succ]; exact before_le_sum _ _
      · have := stateOf_spec hy (hn ▸ ht) ha
        simp only
        omega
  have hlens : L.map List.length = n := by
    rw [hL, List.map_map]
    refine (eq_map_range n _ _ hn fun t ht => ?_).symm
    rw [getElem?_getD (by omega) 0]
    simp
  have hlen : L.flatten.length = y.length := by
    rw [List.length_flatten, hlens, hy.1]
  unfold continuousLoss
  rw [hloop]
  simp only [bind, Except.bind]
  rw [if_neg (by rw [List.length_map, List.length_range]; exact hg.pos.ne'),
    if_neg (by
      rintro ⟨l, hl, h⟩
      have := hr l hl
      rw [allWeights_size hg] at h
      omega), if_neg (by rw [hlen]; simp)]
  congr 1
  rw [hy.1, sum_blocks, hn]
  refine sum_congr rfl fun t ht => sum_congr rfl fun i hi => ?_
  have ht' := mem_range.mp ht
  have hi' := mem_range.mp hi
  rw [LabelsFit.label hy (hn ▸ ht') hi', Int.toNat_natCast,
    allWeights_get hg ht' (stateOf_spec hy (hn ▸ ht') hi').2.1, hcw t ht']
  congr 1
  have hLt : L.getD t [] = (List.range (n.getD t 0)).map fun i =>
    1 - μ t i (stateOf m.nStates n y t i) := getD_map_range _ _ _ ht'
  have := getD_flattenQ L t i (by rw [hL]; simpa using ht') (by rw [hLt]; simpa using hi')
  rw [hlens, hLt, getD_map_range _ _ _ hi'] at this
  exact this

/-- **C74 (4).** On indicators of a labelling the continuous loss is the loss. -/
theorem C74_losses_agree {T : ℕ} {S F : List ℕ} {rows cols : ℕ} {Fe : ℕ → ℕ → ℕ}
    {cw : Option (List Vec)} {m : Typed.Model} (hm : construct T S F rows cols Fe cw = .ok m)
    (n : List ℕ) (hn : n.length = T) (y yhat : List ℤ) (hy : LabelsFit S n y)
    (hyhat : LabelsFit S n yhat) :
    continuousLoss m y ((List.range T).map fun t => ⟨n.getD t 0, S.getD t 0, fun i s =>
      if s = stateOf S n yhat t i then 1 else 0⟩) = Typed.loss m y yhat := by
  rw [C74_continuous_loss hm n hn y hy]
  have hcw : ∀ t < T, ∀ s, _ := fun t ht s => construct_weights hm (t := t) ht s
  obtain ⟨hg, rfl, rfl, rfl, rfl⟩ := construct_good hm
  rw [typedLoss_ok hg hn hy hyhat]
  congr 1
  unfold typedLoss
  refine sum_congr rfl fun t ht => sum_congr rfl fun i hi => ?_
  simp only [hcw t (mem_range.mp ht)]
  by_cases h : stateOf m.nStates n y t i = stateOf m.nStates n yhat t i
  · rw [if_pos h, if_pos h]; ring
  · rw [if_neg h, if_neg h]; ring

/-- A solver for problems without edges: the potentials serve as marginals. -/
def independentSolver : Typed.Solver := fun us _ es =>
  if es.all List.isEmpty then .ok ⟨us, [], 0, false⟩ else .error .exception

/-- It is exact, so the hypothesis of the theorems above can be met. -/
theorem independentSolver_best : DecodesBest independentSolver := by
  intro us ps es relaxed y e h
  unfold inferenceMulti independentSolver at h
  rw [bind_eq_ok] at h
  obtain ⟨r, hr, h⟩ := h
  split_ifs at hr with hes
  cases hr
  simp only [Bool.false_and, Bool.and_false, Bool.false_eq_true, if_false] at h
  rw [bind_eq_ok] at h
  obtain ⟨y', hdec, h⟩ := h
  simp only [pure, Except.pure, Except.ok.injEq, Prod.mk.injEq, TVal.discrete.injEq] at h
  obtain ⟨rfl, _⟩ := h
  have hdec' := hdec
  unfold decode at hdec'
  split_ifs at hdec' with hlen
  obtain ⟨y'', hy'', hfit, hmax⟩ := C38_decode us (by
    intro h; exact hlen (by rw [h]; rfl)) (decodeLoop_ok _ _ _ hdec').1
  rw [hdec, Except.ok.injEq] at hy''
  subst hy''
  refine ⟨hfit, fun y2 hy2 => ?_⟩
  have hnil : ∀ k, edgesOf (es.map some) k = [] := by
    intro k
    unfold edgesOf
    rw [List.getD_eq_getElem?_getD, List.getElem?_map]
    cases hk : es[k]? with
    | none => rfl
    | some l =>
      have := List.all_eq_true.mp hes l (List.mem_of_getElem? hk)
      simpa using this
  unfold typedEnergy
  simp only [hnil, List.length_nil, range_zero, sum_empty, sum_const_zero, add_zero]
  refine sum_le_sum fun t ht => sum_le_sum fun i hi => ?_
  have ht' := mem_range.mp ht
  have hi' := mem_range.mp hi
  exact (hmax t ht' i hi').1 _ (stateOf_spec hy2 (by simpa using ht') hi').2.1

/-- Two types with class weights; the second instance has no edges. -/
example : ∃ m, construct 2 [2, 3] [1, 1] 2 2 (fun _ _ => 1)
      (some [⟨2, fun s => if s = 0 then 5 else 7⟩, ⟨3, fun _ => 2⟩]) = .ok m ∧
    checkSizeX m ⟨[some ⟨2, 1, fun i _ => i⟩, some ⟨1, 1, fun _ _ => 1⟩], [none, none, none, none],
      [none, none, none, none]⟩ = .ok () ∧
    (lossAugmentedInference independentSolver m ⟨[some ⟨2, 1, fun i _ => i⟩, some ⟨1, 1, fun _ _ => 1⟩],
      [none, none, none, none], [none, none, none, none]⟩ [1, 0, 4] ⟨30, fun k => if k = 0 then 9 else 0⟩
      false).toOption.map (fun r => match r.1 with | .discrete y => y | _ => []) = some [0, 0, 2] ∧
    Typed.loss m [1, 0, 4] [0, 0, 2] = .ok 9 ∧
    continuousLoss m [1, 0, 4] [⟨2, 2, fun _ s => if s = 0 then 1 else 0⟩,
      ⟨1, 3, fun _ s => if s = 0 then 1 else 0⟩] = .ok 9 :=
  ⟨_, rfl, by decide +kernel, by decide +kernel, by decide +kernel, by decide +kernel⟩

end Verif.Props
