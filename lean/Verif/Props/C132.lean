import Verif.Lemmas.TypedTraining

/-!
# C132: training a `NodeTypeEdgeFeatureGraphCRF`

With an AD3 that solves its problems, the four learners minimise the risk over all labellings of graphs whose nodes have several
types.
-/

namespace Verif.Props

open Finset Verif.Common Verif.Spec Verif.Learner Verif.Typed Verif.Lemmas

/-- Training data: instances and label arrays. -/
def typedSamples (data : List (Typed.X × List ℤ)) : List (Typed.X × TVal) := data.map fun d => (d.1, .discrete d.2)

/-- The instances have the right format and every node has a label of its type. -/
def TypedData (T : ℕ) (S F : List ℕ) (Fe : ℕ → ℕ → ℕ) (data : List (Typed.X × List ℤ)) : Prop :=
  ∀ d ∈ data, TypedGood T F Fe d.1 ∧ LabelsFit S (counts T d.1.nodeFeatures) d.2

/-- Class weight of the label of a node. -/
def typedNodeWeight (T : ℕ) (S : List ℕ) (cw : Option (List Vec)) (d : Typed.X × List ℤ) (t i : ℕ) : ℚ :=
  classWeightOf cw t (stateOf S (counts T d.1.nodeFeatures) d.2 t i)

/-- Sum of the class weights of all labels. -/
def typedTotal (T : ℕ) (S : List ℕ) (cw : Option (List Vec)) (data : List (Typed.X × List ℤ)) : ℚ :=
  (data.map fun d => ∑ t ∈ range T, ∑ i ∈ range (rowsOf d.1.nodeFeatures t), typedNodeWeight T S cw d t i).sum

section

variable {T : ℕ} {S F : List ℕ} {rows cols : ℕ} {Fe : ℕ → ℕ → ℕ} {cw : Option (List Vec)} {m : Typed.Model}

/-- scores of weights between -1 and 1. -/
theorem typed_score_mass {x : Typed.X} {w : ℕ → ℚ} (hw : ∀ k, |w k| ≤ 1) (y : List ℤ) :
    |typedScore T S F Fe x w y| ≤ typedMass T F Fe x := by
  have hterm : ∀ k (a : ℚ), |w k * a| ≤ |a| := by
    intro k a
    rw [abs_mul]
    exact mul_le_of_le_one_left (abs_nonneg _) (hw k)
  unfold typedScore typedEnergy typedMass
  refine (abs_add_le _ _).trans (add_le_add ?_ ?_)
  · refine (abs_sum_le_sum_abs _ _).trans (sum_le_sum fun t ht => (abs_sum_le_sum_abs _ _).trans ?_)
    rw [counts_getD (mem_range.mp ht)]
    refine sum_le_sum fun i _ => ?_
    unfold typedUnary
    exact (abs_sum_le_sum_abs _ _).trans (sum_le_sum fun f _ => hterm _ _)
  · refine (abs_sum_le_sum_abs _ _).trans (sum_le_sum fun a _ => (abs_sum_le_sum_abs _ _).trans (sum_le_sum fun b _ =>
      (abs_sum_le_sum_abs _ _).trans (sum_le_sum fun e _ => ?_)))
    unfold typedPairwise
    exact (abs_sum_le_sum_abs _ _).trans (sum_le_sum fun f _ => hterm _ _)

theorem sum_sq_le_sq_sum_abs (n : ℕ) (D : ℕ → ℚ) : ∑ k ∈ range n, D k ^ 2 ≤ (∑ k ∈ range n, |D k|) ^ 2 := by
  rw [sq, sum_mul]
  refine sum_le_sum fun k hk => ?_
  rw [← sq_abs, sq]
  exact mul_le_mul_of_nonneg_left (single_le_sum (f := fun k => |D k|) (fun i _ => abs_nonneg (D i)) hk) (abs_nonneg _)

/-- squared distances of joint features. -/
theorem typed_range (hm : construct T S F rows cols Fe cw = .ok m) {x : Typed.X} (hx : TypedGood T F Fe x) {y z : List ℤ}
    (hy : LabelsFit S (counts T x.nodeFeatures) y) (hz : LabelsFit S (counts T x.nodeFeatures) z) :
    ∑ k ∈ range m.size, (typedFeature m x (.discrete y) k - typedFeature m x (.discrete z) k) ^ 2 ≤ 4 * typedMass T F Fe x ^ 2 := by
  set D : ℕ → ℚ := fun k => typedFeature m x (.discrete y) k - typedFeature m x (.discrete z) k with hD
  set w : ℕ → ℚ := fun k => if 0 ≤ D k then 1 else -1 with hw
  have hw1 : ∀ k, |w k| ≤ 1 := by
    intro k
    rw [hw]
    simp only
    split <;> norm_num
  have habs : ∑ k ∈ range m.size, |D k| = typedScore T S F Fe x w y - typedScore T S F Fe x w z := by
    rw [← typed_sum hm hx hy w, ← typed_sum hm hx hz w, ← sum_sub_distrib]
    refine sum_congr rfl fun k _ => ?_
    rw [← mul_sub]
    change |D k| = w k * D k
    rw [hw]
    simp only
    split
    · rename_i h
      rw [abs_of_nonneg h, one_mul]
    · rename_i h
      rw [abs_of_neg (not_le.mp h)]
      ring
  have h1 := abs_le.mp (typed_score_mass (T := T) (S := S) (F := F) (Fe := Fe) (x := x) hw1 y)
  have h2 := abs_le.mp (typed_score_mass (T := T) (S := S) (F := F) (Fe := Fe) (x := x) hw1 z)
  have h0 : 0 ≤ ∑ k ∈ range m.size, |D k| := sum_nonneg fun k _ => abs_nonneg _
  refine (sum_sq_le_sq_sum_abs m.size D).trans ?_
  have h3 : ∑ k ∈ range m.size, |D k| ≤ 2 * typedMass T F Fe x := by rw [habs]; linarith [h1.2, h2.1]
  nlinarith

theorem typedLoss_le {n : List ℕ} {c : ℕ → ℕ → ℚ} {σ τ : ℕ → ℕ → ℕ} (hc : ∀ t < T, ∀ i < n.getD t 0, 0 ≤ c t (σ t i)) :
    typedLoss T n c σ τ ≤ ∑ t ∈ range T, ∑ i ∈ range (n.getD t 0), c t (σ t i) := by
  unfold typedLoss
  refine sum_le_sum fun t ht => sum_le_sum fun i hi => ?_
  split
  · exact hc t (mem_range.mp ht) i (mem_range.mp hi)
  · exact le_rfl

theorem typedLoss_zero {n : List ℕ} {c : ℕ → ℕ → ℚ} {σ τ : ℕ → ℕ → ℕ} (hc : ∀ t < T, ∀ i < n.getD t 0, 0 < c t (σ t i))
    (h : typedLoss T n c σ τ ≤ 0) : ∀ t < T, ∀ i < n.getD t 0, σ t i = τ t i := by
  have hnn : ∀ t ∈ range T, ∀ i ∈ range (n.getD t 0), (0 : ℚ) ≤ if σ t i = τ t i then 0 else c t (σ t i) := by
    intro t ht i hi
    split
    · exact le_rfl
    · exact (hc t (mem_range.mp ht) i (mem_range.mp hi)).le
  unfold typedLoss at h
  have h1 := (sum_eq_zero_iff_of_nonneg fun t ht => sum_nonneg (hnn t ht)).mp
    (le_antisymm h (sum_nonneg fun t ht => sum_nonneg (hnn t ht)))
  intro t ht i hi
  have h2 := (sum_eq_zero_iff_of_nonneg (hnn t (mem_range.mpr ht))).mp (h1 t (mem_range.mpr ht)) i (mem_range.mpr hi)
  by_contra hne
  rw [if_neg hne] at h2
  exact absurd h2 (hc t ht i hi).ne'

theorem typedLoss_node {n : List ℕ} {c : ℕ → ℕ → ℚ} {σ τ : ℕ → ℕ → ℕ} (hc : ∀ t < T, ∀ i < n.getD t 0, 0 ≤ c t (σ t i))
    {t i : ℕ} (ht : t < T) (hi : i < n.getD t 0) (hne : σ t i ≠ τ t i) : c t (σ t i) ≤ typedLoss T n c σ τ := by
  have hnn : ∀ t ∈ range T, ∀ i ∈ range (n.getD t 0), (0 : ℚ) ≤ if σ t i = τ t i then 0 else c t (σ t i) := by
    intro t ht i hi
    split
    · exact le_rfl
    · exact hc t (mem_range.mp ht) i (mem_range.mp hi)
  unfold typedLoss
  refine le_trans ?_ (single_le_sum (fun t ht => sum_nonneg (hnn t ht)) (mem_range.mpr ht))
  refine le_trans ?_ (single_le_sum (hnn t (mem_range.mpr ht)) (mem_range.mpr hi))
  rw [if_neg hne]

theorem typed_size (hm : construct T S F rows cols Fe cw = .ok m) : 0 < T ∧ S.length = T := by
  obtain ⟨hg, e1, e2, -, -⟩ := construct_good hm
  refine ⟨e1 ▸ hg.pos, ?_⟩
  rw [← e1, ← e2]
  exact hg.states

/-- a labelling that is wrong at a node. -/
theorem typed_flip (hm : construct T S F rows cols Fe cw = .ok m) (hpos : ∀ t < T, 0 < S.getD t 0) {n : List ℕ} (hn : n.length = T)
    {y : List ℤ} (hy : LabelsFit S n y) {t i : ℕ} (ht : t < T) (hi : i < n.getD t 0) (h2 : 2 ≤ S.getD t 0) :
    ∃ z, LabelsFit S n z ∧ stateOf S n y t i ≠ stateOf S n z t i := by
  obtain ⟨hT, hST⟩ := typed_size hm
  obtain ⟨z, hz, -, hs⟩ := labels_of_states (S := S) (n := n) (by
    intro h
    rw [h] at hST
    simp at hST
    omega) (hn.trans hST.symm) (fun t ht => hpos t (hST ▸ ht)) (fun t i => if stateOf S n y t i = 0 ∧ 2 ≤ S.getD t 0 then 1 else 0) (by
    intro t' ht' i' _
    split
    · omega
    · exact hpos t' (hST ▸ ht'))
  refine ⟨z, hz, ?_⟩
  rw [hs t (hST.symm ▸ ht) i hi]
  split
  · omega
  · omega

theorem typed_trainable (hm : construct T S F rows cols Fe cw = .ok m) (hpos : ∀ t < T, 0 < S.getD t 0) {solver : Typed.Solver}
    (hs : TypedExact solver) (hcw : ∀ t < T, ∀ s < S.getD t 0, 0 < classWeightOf cw t s) (data : List (Typed.X × List ℤ))
    (hd : TypedData T S F Fe data) (hflip : ∃ d ∈ data, ∃ t < T, 2 ≤ S.getD t 0 ∧ 0 < rowsOf d.1.nodeFeatures t) (R : ℚ)
    (hR : ∀ d ∈ data, 4 * typedMass T F Fe d.1 ^ 2 ≤ R) :
    Trainable (typedModel solver m) (typedOutputs T S F Fe) (typedSamples data) R (typedTotal T S cw data) := by
  have hclen : ∀ x : Typed.X, (counts T x.nodeFeatures).length = T := fun x => counts_length _ _
  have hc : ∀ x : Typed.X, ∀ y, LabelsFit S (counts T x.nodeFeatures) y → ∀ t < T, ∀ i < (counts T x.nodeFeatures).getD t 0,
      0 < classWeightOf cw t (stateOf S (counts T x.nodeFeatures) y t i) := fun x y hy t ht i hi =>
    hcw t ht _ (stateOf_spec hy ((hclen x).symm ▸ ht) hi).2.1
  obtain ⟨d0, hd0, t0, ht0, h20, hr0⟩ := hflip
  constructor
  · intro h
    have := List.map_eq_nil_iff.mp h
    rw [this] at hd0
    simp at hd0
  · rfl
  · rintro x v w ⟨hx, y, rfl, hy⟩ -
    obtain ⟨z, h1, h2, h3⟩ := typed_lossAug hm hpos hs hx hy w true
    have e : (typedModel solver m).lossAug x (.discrete y) w true = .discrete z := h1
    simp only [e]
    refine ⟨⟨hx, z, rfl, h2⟩, ?_⟩
    rintro v' ⟨-, z', rfl, hz'⟩
    have hv : ∀ z'', LabelsFit S (counts T x.nodeFeatures) z'' →
        (problemOf (typedModel solver m) (typedOutputs T S F Fe)).value w x (.discrete y) (.discrete z'') = typedScore T S F Fe x w z'' := by
      intro z'' hz''
      rw [← typed_sum hm hx hz'' w]
      unfold Spec.Problem.value
      change ∑ k ∈ range m.size, w k * (typedModel solver m).feat x (.discrete z'') (.discrete y) k = _
      rw [typed_feat]
    unfold Spec.Problem.violation
    rw [hv y hy, hv z h2, hv z' hz']
    have := h3 z' hz'
    have e2 : ∀ a b, (problemOf (typedModel solver m) (typedOutputs T S F Fe)).loss a b = (typedModel solver m).lossOf a b :=
      fun _ _ => rfl
    rw [e2, e2]
    linarith
  · intro s hs'
    obtain ⟨d, hdm, rfl⟩ := List.mem_map.mp hs'
    obtain ⟨h1, h2⟩ := hd d hdm
    refine ⟨⟨h1, d.2, rfl, h2⟩, ?_⟩
    change (typedModel solver m).lossOf (.discrete d.2) (.discrete d.2) = 0
    rw [typed_lossOf hm solver (hclen d.1) h2 h2]
    unfold typedLoss
    simp
  · exact (by positivity : (0 : ℚ) ≤ 4 * typedMass T F Fe d0.1 ^ 2).trans (hR d0 hd0)
  · rintro s hs' _ ⟨hx, y, rfl, hy⟩ _ ⟨-, z, rfl, hz⟩
    obtain ⟨d, hdm, rfl⟩ := List.mem_map.mp hs'
    refine le_trans ?_ (hR d hdm)
    exact typed_range hm hx hy hz
  · refine ⟨fun s => match s.2 with
      | .discrete y => ∑ t ∈ range T, ∑ i ∈ range (rowsOf s.1.nodeFeatures t), typedNodeWeight T S cw (s.1, y) t i
      | _ => 0, ?_, ?_⟩
    · rintro s hs' _ ⟨hx, z, rfl, hz⟩
      obtain ⟨d, hdm, rfl⟩ := List.mem_map.mp hs'
      obtain ⟨h1, h2⟩ := hd d hdm
      change (typedModel solver m).lossOf _ _ ≤ _
      rw [typed_lossOf hm solver (hclen d.1) h2 hz]
      refine (typedLoss_le fun t ht i hi => (hc d.1 d.2 h2 t ht i hi).le).trans (le_of_eq ?_)
      refine sum_congr rfl fun t ht => ?_
      rw [counts_getD (mem_range.mp ht)]
      rfl
    · unfold typedSamples typedTotal
      rw [List.map_map]
      exact le_rfl
  · obtain ⟨h1, h2⟩ := hd d0 hd0
    have hi0 : 0 < (counts T d0.1.nodeFeatures).getD t0 0 := by rw [counts_getD ht0]; exact hr0
    obtain ⟨z, hz, hne⟩ := typed_flip hm hpos (hclen d0.1) h2 ht0 hi0 h20
    refine ⟨_, List.mem_map.mpr ⟨d0, hd0, rfl⟩, .discrete z, ⟨h1, z, rfl, hz⟩, ?_⟩
    change 0 < (typedModel solver m).lossOf _ _
    rw [typed_lossOf hm solver (hclen d0.1) h2 hz]
    exact lt_of_lt_of_le (hc d0.1 d0.2 h2 t0 ht0 0 hi0)
      (typedLoss_node (fun t ht i hi => (hc d0.1 d0.2 h2 t ht i hi).le) ht0 hi0 hne)

/-- **C132.** With an exact AD3, positive class weights, samples of the right format and some node that can be mislabelled,
`OneSlackSSVM`, `FrankWolfeSSVM` and `SubgradientSSVM` train a `NodeTypeEdgeFeatureGraphCRF`, and so does `NSlackSSVM` if that node
weighs at least `1e-5`: the risk of the weights they return, over all labellings, is as close to its minimum as the tolerance
says. -/
theorem C132_typed (hm : construct T S F rows cols Fe cw = .ok m) (hpos : ∀ t < T, 0 < S.getD t 0) (solver : Typed.Solver)
    (hs : TypedExact solver) (hcw : ∀ t < T, ∀ s < S.getD t 0, 0 < classWeightOf cw t s) (data : List (Typed.X × List ℤ))
    (hd : TypedData T S F Fe data) (hflip : ∃ d ∈ data, ∃ t < T, 2 ≤ S.getD t 0 ∧ 0 < rowsOf d.1.nodeFeatures t) (R : ℚ)
    (hR : ∀ d ∈ data, 4 * typedMass T F Fe d.1 ^ 2 ≤ R) :
    OneSlackTrains (typedModel solver m) (typedOutputs T S F Fe) (typedSamples data) R (typedTotal T S cw data) ∧
    FrankWolfeTrains (typedModel solver m) (typedOutputs T S F Fe) (typedSamples data) R (typedTotal T S cw data) ∧
    SubgradientTrains (typedModel solver m) (typedOutputs T S F Fe) (typedSamples data) ∧
    ((∃ d ∈ data, ∃ t < T, ∃ i < rowsOf d.1.nodeFeatures t, 2 ≤ S.getD t 0 ∧ 1 / 10 ^ 5 ≤ typedNodeWeight T S cw d t i) →
      NSlackTrains (typedModel solver m) (typedOutputs T S F Fe) typedEq (typedSamples data) R (typedTotal T S cw data)) := by
  have htr := typed_trainable hm hpos hs hcw data hd hflip R hR
  have hclen : ∀ x : Typed.X, (counts T x.nodeFeatures).length = T := fun x => counts_length _ _
  have hc : ∀ x : Typed.X, ∀ y, LabelsFit S (counts T x.nodeFeatures) y → ∀ t < T, ∀ i < (counts T x.nodeFeatures).getD t 0,
      0 < classWeightOf cw t (stateOf S (counts T x.nodeFeatures) y t i) := fun x y hy t ht i hi =>
    hcw t ht _ (stateOf_spec hy ((hclen x).symm ▸ ht) hi).2.1
  refine ⟨C110_oneslack _ _ _ _ _ htr, C110_frankwolfe _ _ _ _ _ htr, C110_subgradient _ _ _ _ _ htr ?_, ?_⟩
  · refine finitelyMany_of_key fun s hs' => ?_
    refine ⟨Fin (counts T s.1.nodeFeatures).sum → Fin (S.sum + 1), inferInstance, fun v => match v with
      | .discrete y => labelKey _ _ y
      | _ => fun _ => 0, ?_⟩
    rintro _ ⟨hx, y, rfl, hy⟩ _ ⟨-, z, rfl, hz⟩ hk
    have e := labelKey_inj hy hz hk
    subst e
    exact ⟨rfl, fun _ _ => rfl⟩
  · rintro ⟨d, hdm, t, ht, i, hi, h2, hbig⟩
    refine C110_nslack _ _ _ _ _ htr _ ?_ ?_ ?_
    · rintro s hs' _ ⟨hx, y, rfl, hy⟩ _ ⟨-, z, rfl, hz⟩ heq
      have e : y = z := of_decide_eq_true heq
      subst e
      exact ⟨rfl, fun _ _ => rfl⟩
    · rintro s hs' _ ⟨hx, z, rfl, hz⟩ hl k hk
      obtain ⟨d', hdm', rfl⟩ := List.mem_map.mp hs'
      obtain ⟨-, h4⟩ := hd d' hdm'
      have hl' : (typedModel solver m).lossOf (.discrete d'.2) (.discrete z) ≤ 0 := hl
      rw [typed_lossOf hm solver (hclen d'.1) h4 hz] at hl'
      have e : d'.2 = z := labels_ext h4 hz (by
        rw [hclen]
        exact typedLoss_zero (hc d'.1 d'.2 h4) hl')
      rw [← e]
    · obtain ⟨h3, h4⟩ := hd d hdm
      have hi' : i < (counts T d.1.nodeFeatures).getD t 0 := by rw [counts_getD ht]; exact hi
      obtain ⟨z, hz, hne⟩ := typed_flip hm hpos (hclen d.1) h4 ht hi' h2
      refine ⟨_, List.mem_map.mpr ⟨d, hdm, rfl⟩, .discrete z, ⟨h3, z, rfl, hz⟩, ?_⟩
      change _ ≤ (typedModel solver m).lossOf _ _
      rw [typed_lossOf hm solver (hclen d.1) h4 hz]
      exact hbig.trans (typedLoss_node (fun t ht i hi => (hc d.1 d.2 h4 t ht i hi).le) ht hi' hne)

end

/-! ### the hypotheses can be met -/

/-- Two nodes of type 0 and one of type 1, an edge from the first node to the last. -/
def typedPair : Typed.X := ⟨[some ⟨2, 1, fun i _ => i + 1⟩, some ⟨1, 1, fun _ _ => 1⟩], [none, some [(0, 0)], none, none],
  [none, some ⟨1, 1, fun _ _ => 2⟩, none, none]⟩

theorem typedPair_data : TypedData 2 [2, 3] [1, 1] (fun _ _ => 1) [(typedPair, [1, 0, 4])] := by
  intro d hd
  rw [List.mem_singleton] at hd
  subst hd
  refine ⟨⟨rfl, rfl, ⟨rfl, ?_, ?_, ?_, ?_⟩⟩, ?_⟩
  · intro t ht M hM
    interval_cases t <;> cases hM <;> rfl
  · intro a ha b hb e he
    interval_cases a <;> interval_cases b <;> revert e <;> decide +kernel
  · intro a ha b hb
    interval_cases a <;> interval_cases b <;> decide +kernel
  · intro a ha b hb M hM
    interval_cases a <;> interval_cases b <;> cases hM
    rfl
  · refine ⟨by decide +kernel, ?_⟩
    decide +kernel

/-- One sample with class weights and an exact solver: all four learners train. -/
example : ∃ m solver, construct 2 [2, 3] [1, 1] 2 2 (fun _ _ => 1)
      (some [⟨2, fun s => if s = 0 then 5 else 7⟩, ⟨3, fun _ => 2⟩]) = .ok m ∧ TypedExact solver ∧
    OneSlackTrains (typedModel solver m) (typedOutputs 2 [2, 3] [1, 1] fun _ _ => 1) (typedSamples [(typedPair, [1, 0, 4])]) 144 14 ∧
    FrankWolfeTrains (typedModel solver m) (typedOutputs 2 [2, 3] [1, 1] fun _ _ => 1) (typedSamples [(typedPair, [1, 0, 4])]) 144 14 ∧
    SubgradientTrains (typedModel solver m) (typedOutputs 2 [2, 3] [1, 1] fun _ _ => 1) (typedSamples [(typedPair, [1, 0, 4])]) ∧
    NSlackTrains (typedModel solver m) (typedOutputs 2 [2, 3] [1, 1] fun _ _ => 1) typedEq (typedSamples [(typedPair, [1, 0, 4])])
      144 14 := by
  obtain ⟨solver, hs⟩ := exact_typed_exists
  have hm : construct 2 [2, 3] [1, 1] 2 2 (fun _ _ => 1) (some [⟨2, fun s => if s = 0 then 5 else 7⟩, ⟨3, fun _ => 2⟩]) = .ok _ := rfl
  have := C132_typed hm (by decide) solver hs (by
    intro t ht s _
    interval_cases t
    · change (0 : ℚ) < if s = 0 then 5 else 7
      split <;> norm_num
    · change (0 : ℚ) < 2
      norm_num) [(typedPair, [1, 0, 4])] typedPair_data ⟨_, List.mem_singleton.mpr rfl, 0, by decide, by decide, by decide⟩ 144 (by
    intro d hd
    rw [List.mem_singleton] at hd
    subst hd
    decide +kernel)
  have e : typedTotal 2 [2, 3] (some [⟨2, fun s => if s = 0 then 5 else 7⟩, ⟨3, fun _ => 2⟩]) [(typedPair, [1, 0, 4])] = 14 := by
    decide +kernel
  rw [e] at this
  exact ⟨_, solver, hm, hs, this.1, this.2.1, this.2.2.1,
    this.2.2.2 ⟨_, List.mem_singleton.mpr rfl, 0, by decide, 0, by decide, by decide, by decide +kernel⟩⟩

end Verif.Props
