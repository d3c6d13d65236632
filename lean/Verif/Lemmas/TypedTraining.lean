import Verif.Model.TypedInstance
import Verif.Props.C36
import Verif.Props.C74
import Verif.Props.C110

/-!
# Typed CRFs behind the learner interface
-/

namespace Verif.Props

open Finset Verif.Common Verif.Spec Verif.Learner Verif.Typed Verif.Lemmas

/-! ### labellings and their states -/

theorem list_map_getD {α : Type} (l : List α) (f : α → ℕ) (d : α) (hd : f d = 0) (t : ℕ) : (l.map f).getD t 0 = f (l.getD t d) := by
  rw [List.getD_eq_getElem?_getD, List.getD_eq_getElem?_getD, List.getElem?_map]
  cases l[t]? with
  | none => simp [hd]
  | some a => simp

/-- any choice of states comes from a labelling. -/
theorem labels_of_states {S n : List ℕ} (hne : S ≠ []) (hn : n.length = S.length) (hpos : ∀ t < S.length, 0 < S.getD t 0)
    (σ : ℕ → ℕ → ℕ) (hσ : ∀ t < S.length, ∀ i < n.getD t 0, σ t i < S.getD t 0) :
    ∃ y, LabelsFit S n y ∧ decode ((List.range S.length).map fun t => ⟨n.getD t 0, S.getD t 0, fun i s => if s = σ t i then 1 else 0⟩) =
      .ok y ∧ ∀ t < S.length, ∀ i < n.getD t 0, stateOf S n y t i = σ t i := by
  set us : List Mat := (List.range S.length).map fun t => ⟨n.getD t 0, S.getD t 0, fun i s => if s = σ t i then 1 else 0⟩ with hus
  have hc : us.map Mat.cols = S := by
    rw [hus, List.map_map]
    exact map_range_getD S
  have hr : us.map Mat.rows = n := by
    rw [hus, List.map_map, ← hn]
    exact map_range_getD n
  have hl : us.length = S.length := by rw [hus]; simp
  have hS0 : 0 < S.length := List.length_pos_iff.mpr hne
  obtain ⟨y, h1, h2, h3⟩ := C38_decode us (by
    intro h
    rw [h] at hl
    simp at hl
    omega) (by
    intro u hu
    rw [hus] at hu
    obtain ⟨t, ht, rfl⟩ := List.mem_map.mp hu
    exact hpos t (List.mem_range.mp ht))
  rw [hc, hr] at h2 h3
  refine ⟨y, h2, h1, fun t ht i hi => ?_⟩
  have h4 := (h3 t (hl ▸ ht) i hi).1 (σ t i) (hσ t ht i hi)
  have hat : ∀ s, unaryAt us t i s = if s = σ t i then 1 else 0 := by
    intro s
    unfold unaryAt
    rw [hus, getD_map_range _ _ _ ht]
  rw [hat, hat, if_pos rfl] at h4
  by_contra hne
  rw [if_neg hne] at h4
  norm_num at h4

/-- a labelling is determined by its states. -/
theorem labels_ext {S n : List ℕ} {y z : List ℤ} (hy : LabelsFit S n y) (hz : LabelsFit S n z)
    (h : ∀ t < n.length, ∀ i < n.getD t 0, stateOf S n y t i = stateOf S n z t i) : y = z := by
  refine List.ext_getElem (hy.1.trans hz.1.symm) fun k hk hk' => ?_
  obtain ⟨t, ht, i, hi, rfl⟩ := exists_node n (hy.1 ▸ hk)
  have e1 := LabelsFit.label hy ht hi
  have e2 := LabelsFit.label hz ht hi
  rw [List.getD_eq_getElem _ _ hk] at e1
  rw [List.getD_eq_getElem _ _ hk'] at e2
  rw [e1, e2, h t ht i hi]

/-- a labelling as a point of a finite set. -/
def labelKey (N M : ℕ) (y : List ℤ) : Fin N → Fin (M + 1) := fun i => ⟨(y.getD i 0).toNat % (M + 1), Nat.mod_lt _ (by omega)⟩

theorem labelKey_inj {S n : List ℕ} {y z : List ℤ} (hy : LabelsFit S n y) (hz : LabelsFit S n z)
    (h : labelKey n.sum S.sum y = labelKey n.sum S.sum z) : y = z := by
  refine List.ext_getElem (hy.1.trans hz.1.symm) fun k hk hk' => ?_
  have := congrFun h ⟨k, hy.1 ▸ hk⟩
  unfold labelKey at this
  simp only [Fin.mk.injEq] at this
  rw [List.getD_eq_getElem _ _ hk, List.getD_eq_getElem _ _ hk'] at this
  have a := labels_range hy _ (List.getElem_mem hk)
  have b := labels_range hz _ (List.getElem_mem hk')
  rw [Nat.mod_eq_of_lt (by omega), Nat.mod_eq_of_lt (by omega)] at this
  omega

theorem labels_finite (S n : List ℕ) : {y | LabelsFit S n y}.Finite :=
  Set.Finite.of_finite_image (f := labelKey n.sum S.sum) (Set.toFinite _) fun _ hy _ hz h => labelKey_inj hy hz h

/-- the energy of a labelling only depends on the states of the nodes. -/
theorem typedEnergy_congr {T : ℕ} {n : List ℕ} {edges : List (Option (List (ℤ × ℤ)))} {U U' : ℕ → ℕ → ℕ → ℚ}
    {P P' : ℕ → ℕ → ℕ → ℕ → ℕ → ℚ} {σ τ : ℕ → ℕ → ℕ}
    (hE : ∀ a < T, ∀ b < T, ∀ e ∈ edgesOf edges (a * T + b), 0 ≤ e.1 ∧ e.1 < n.getD a 0 ∧ 0 ≤ e.2 ∧ e.2 < n.getD b 0)
    (hσ : ∀ t < T, ∀ i < n.getD t 0, σ t i = τ t i) (hU : ∀ t < T, ∀ i < n.getD t 0, U t i (τ t i) = U' t i (τ t i))
    (hP : ∀ a < T, ∀ b < T, ∀ e < (edgesOf edges (a * T + b)).length, ∀ r s, P a b e r s = P' a b e r s) :
    typedEnergy T n edges U P σ = typedEnergy T n edges U' P' τ := by
  unfold typedEnergy
  congr 1
  · refine sum_congr rfl fun t ht => sum_congr rfl fun i hi => ?_
    rw [hσ t (mem_range.mp ht) i (mem_range.mp hi), hU t (mem_range.mp ht) i (mem_range.mp hi)]
  · refine sum_congr rfl fun a ha => sum_congr rfl fun b hb => sum_congr rfl fun e he => ?_
    have ha' := mem_range.mp ha
    have hb' := mem_range.mp hb
    have he' := mem_range.mp he
    have hm : (edgesOf edges (a * T + b)).getD e (0, 0) ∈ edgesOf edges (a * T + b) := by
      rw [List.getD_eq_getElem _ _ he']
      exact List.getElem_mem he'
    have := hE a ha' b hb' _ hm
    rw [hP a ha' b hb' e he', hσ a ha' _ (by omega), hσ b hb' _ (by omega)]

/-! ### an exact solver -/

/-- The labelling fits and has the largest score under the tables. -/
def TypedBest (us : List Mat) (ps : List (Option Ten)) (es : List RawEdges) (y : List ℤ) : Prop :=
  LabelsFit (us.map Mat.cols) (us.map Mat.rows) y ∧
  ∀ y', LabelsFit (us.map Mat.cols) (us.map Mat.rows) y' →
    typedEnergy us.length (us.map Mat.rows) (es.map some) (unaryAt us)
      (fun a b => tenAt ps (a * us.length + b)) (stateOf (us.map Mat.cols) (us.map Mat.rows) y') ≤
    typedEnergy us.length (us.map Mat.rows) (es.map some) (unaryAt us)
      (fun a b => tenAt ps (a * us.length + b)) (stateOf (us.map Mat.cols) (us.map Mat.rows) y)

/-- Edges between existing nodes, one list per pair of types. -/
def TypedEdgesIn (n : List ℕ) (es : List RawEdges) : Prop :=
  es.length = n.length * n.length ∧ ∀ a < n.length, ∀ b < n.length, ∀ e ∈ edgesOf (es.map some) (a * n.length + b),
    0 ≤ e.1 ∧ e.1 < n.getD a 0 ∧ 0 ≤ e.2 ∧ e.2 < n.getD b 0

/-- AD3 solves every problem with edges between existing nodes: its status is not "fractional" or "unsolved", and the labelling read
off its marginals is a best one. -/
def TypedExact (solver : Typed.Solver) : Prop :=
  ∀ us ps es, us ≠ [] → (∀ u ∈ us, 0 < u.cols) → TypedEdgesIn (us.map Mat.rows) es →
    ∃ r y, solver us ps es = .ok r ∧ r.unsolved = false ∧ decode r.unary = .ok y ∧ TypedBest us ps es y

theorem typedBest_exists (us : List Mat) (ps : List (Option Ten)) (es : List RawEdges) (hne : us ≠ []) (hpos : ∀ u ∈ us, 0 < u.cols) :
    ∃ y, TypedBest us ps es y := by
  obtain ⟨y0, -, h0, -⟩ := C38_decode us hne hpos
  obtain ⟨y, hy, hmax⟩ := Set.exists_max_image _ (fun y => typedEnergy us.length (us.map Mat.rows) (es.map some) (unaryAt us)
    (fun a b => tenAt ps (a * us.length + b)) (stateOf (us.map Mat.cols) (us.map Mat.rows) y))
    (labels_finite (us.map Mat.cols) (us.map Mat.rows)) ⟨y0, h0⟩
  exact ⟨y, hy, hmax⟩

/-- An exact AD3 for several types exists. -/
theorem exact_typed_exists : ∃ solver, TypedExact solver := by
  classical
  have h : ∀ us ps es, ∃ y, us ≠ [] → (∀ u ∈ us, 0 < u.cols) → TypedBest us ps es y := by
    intro us ps es
    by_cases h : us ≠ [] ∧ ∀ u ∈ us, 0 < u.cols
    · obtain ⟨y, hy⟩ := typedBest_exists us ps es h.1 h.2
      exact ⟨y, fun _ _ => hy⟩
    · exact ⟨[], fun h1 h2 => absurd ⟨h1, h2⟩ h⟩
  choose best hbest using h
  refine ⟨fun us ps es => .ok ⟨(List.range us.length).map fun t => ⟨(us.map Mat.rows).getD t 0, (us.map Mat.cols).getD t 0, fun i s =>
    if s = stateOf (us.map Mat.cols) (us.map Mat.rows) (best us ps es) t i then 1 else 0⟩, [], 0, false⟩, ?_⟩
  intro us ps es hne hpos _
  have hb := hbest us ps es hne hpos
  have hlen : (us.map Mat.cols).length = us.length := List.length_map _
  obtain ⟨y, h1, h2, h3⟩ := labels_of_states (S := us.map Mat.cols) (n := us.map Mat.rows) (by simpa using hne) (by simp) (by
    intro t ht
    rw [hlen] at ht
    rw [List.getD_eq_getElem _ _ (by rw [hlen]; exact ht), List.getElem_map]
    exact hpos _ (List.getElem_mem ht)) (stateOf (us.map Mat.cols) (us.map Mat.rows) (best us ps es)) (by
    intro t ht i hi
    exact (stateOf_spec hb.1 (by rw [List.length_map, ← hlen]; exact ht) hi).2.1)
  have e : y = best us ps es := labels_ext h1 hb.1 (by
    intro t ht i hi
    exact h3 t (by rw [hlen, ← List.length_map (f := Mat.rows)]; exact ht) i hi)
  rw [hlen] at h2
  refine ⟨_, y, rfl, rfl, h2, ?_⟩
  rw [e]
  exact hb

/-! ### the model behind the interface -/

/-- An instance of the right format. -/
def TypedGood (T : ℕ) (F : List ℕ) (Fe : ℕ → ℕ → ℕ) (x : Typed.X) : Prop :=
  x.nodeFeatures.length = T ∧ x.edgeFeatures.length = T * T ∧ TypedFits T F Fe x.nodeFeatures x.edges x.edgeFeatures

/-- The labellings that compete for an instance: every node gets a label of its type. -/
def typedOutputs (T : ℕ) (S F : List ℕ) (Fe : ℕ → ℕ → ℕ) (x : Typed.X) : Set TVal :=
  {v | TypedGood T F Fe x ∧ ∃ y, v = .discrete y ∧ LabelsFit S (counts T x.nodeFeatures) y}

/-- Score of a labelling computed from weights and features. -/
def typedScore (T : ℕ) (S F : List ℕ) (Fe : ℕ → ℕ → ℕ) (x : Typed.X) (w : ℕ → ℚ) (y : List ℤ) : ℚ :=
  typedEnergy T (counts T x.nodeFeatures) x.edges (typedUnary S F x.nodeFeatures w) (typedPairwise T S F Fe x.edgeFeatures w)
    (stateOf S (counts T x.nodeFeatures) y)

/-- Sum of the absolute values of all features of an instance. -/
def typedMass (T : ℕ) (F : List ℕ) (Fe : ℕ → ℕ → ℕ) (x : Typed.X) : ℚ :=
  ∑ t ∈ range T, ∑ i ∈ range (rowsOf x.nodeFeatures t), ∑ f ∈ range (F.getD t 0), |entryOf x.nodeFeatures t i f| +
  ∑ a ∈ range T, ∑ b ∈ range T, ∑ e ∈ range (edgesOf x.edges (a * T + b)).length, ∑ f ∈ range (Fe a b),
    |entryOf x.edgeFeatures (a * T + b) e f|

section

variable {T : ℕ} {S F : List ℕ} {rows cols : ℕ} {Fe : ℕ → ℕ → ℕ} {cw : Option (List Vec)} {m : Typed.Model}

theorem typed_feat (solver : Typed.Solver) (x : Typed.X) (v y : TVal) : (typedModel solver m).feat x v y = typedFeature m x v := by
  unfold SModel.feat
  rfl

theorem typed_sum (hm : construct T S F rows cols Fe cw = .ok m) {x : Typed.X} (hx : TypedGood T F Fe x) {y : List ℤ}
    (hy : LabelsFit S (counts T x.nodeFeatures) y) (w : ℕ → ℚ) :
    ∑ k ∈ range m.size, w k * typedFeature m x (.discrete y) k = typedScore T S F Fe x w y := by
  obtain ⟨hg, e1, e2, e3, e4⟩ := construct_good hm
  have hsz : m.size = typedSize T S F Fe := by rw [size_eq hg, e1, e2, e3, e4]
  obtain ⟨us, ps, ψ, -, -, h3, h4, -, -, h5⟩ := C21_typed_energy hm x hx.1 hx.2.1 hx.2.2 ⟨m.size, w⟩ hsz y hy
  unfold typedFeature
  rw [h3]
  unfold Vec.dot at h5
  rw [if_pos h4.symm, Except.ok.injEq] at h5
  exact h5

theorem typed_lossOf (hm : construct T S F rows cols Fe cw = .ok m) (solver : Typed.Solver) {n : List ℕ} (hn : n.length = T)
    {y z : List ℤ} (hy : LabelsFit S n y) (hz : LabelsFit S n z) :
    (typedModel solver m).lossOf (.discrete y) (.discrete z) = typedLoss T n (classWeightOf cw) (stateOf S n y) (stateOf S n z) := by
  have hcw : ∀ t < T, ∀ s, _ := fun t ht s => construct_weights hm (t := t) ht s
  obtain ⟨hg, rfl, rfl, rfl, rfl⟩ := construct_good hm
  change okD 0 (Typed.loss m y z) = _
  rw [typedLoss_ok hg hn hy hz]
  change typedLoss _ _ _ _ _ = _
  unfold typedLoss
  refine sum_congr rfl fun t ht => sum_congr rfl fun i _ => ?_
  simp only [hcw t (mem_range.mp ht)]

theorem typed_edges_in {x : Typed.X} (hx : TypedGood T F Fe x) : TypedEdgesIn (counts T x.nodeFeatures) (edgeLists x) := by
  have hlen : (edgeLists x).length = x.edges.length := by
    unfold edgeLists
    simp
  refine ⟨?_, ?_⟩
  · rw [hlen, hx.2.2.edges_length, counts_length]
  · rw [counts_length]
    intro a ha b hb e he
    rw [edgesOf_lists] at he
    rw [counts_getD ha, counts_getD hb]
    exact hx.2.2.edges_in a ha b hb e he

/-- loss-augmented inference with an exact solver. -/
theorem typed_lossAug (hm : construct T S F rows cols Fe cw = .ok m) (hpos : ∀ t < T, 0 < S.getD t 0) {solver : Typed.Solver}
    (hs : TypedExact solver) {x : Typed.X} (hx : TypedGood T F Fe x) {y : List ℤ} (hy : LabelsFit S (counts T x.nodeFeatures) y)
    (w : ℕ → ℚ) (relaxed : Bool) : ∃ z, typedLossAug solver m x (.discrete y) w relaxed = .discrete z ∧
      LabelsFit S (counts T x.nodeFeatures) z ∧ ∀ z', LabelsFit S (counts T x.nodeFeatures) z' →
        typedScore T S F Fe x w z' + (typedModel solver m).lossOf (.discrete y) (.discrete z') ≤
        typedScore T S F Fe x w z + (typedModel solver m).lossOf (.discrete y) (.discrete z) := by
  obtain ⟨hg, e1, e2, e3, e4⟩ := construct_good hm
  have hsz : m.size = typedSize T S F Fe := by rw [size_eq hg, e1, e2, e3, e4]
  obtain ⟨us, ps, us', hus, hps, ha, hrows, hcols, hen⟩ :=
    C74_augmented_energy hm x hx.1 hx.2.1 hx.2.2 ⟨m.size, w⟩ hsz y hy
  have hlen : us'.length = T := by rw [← List.length_map Mat.rows, hrows, counts_length]
  have hT : 0 < T := e1 ▸ hg.pos
  obtain ⟨r, z, h1, h2, h3, h4, h5⟩ := hs us' ps (edgeLists x) (by
    intro h
    rw [h] at hlen
    simp at hlen
    omega) (by
    intro u hu
    obtain ⟨t, ht, rfl⟩ := List.getElem_of_mem hu
    have := hpos t (hlen ▸ ht)
    rw [← hcols, List.getD_eq_getElem _ _ (by simpa using ht), List.getElem_map] at this
    exact this) (by rw [hrows]; exact typed_edges_in hx)
  have key : ∀ z', LabelsFit S (counts T x.nodeFeatures) z' → typedEnergy T (counts T x.nodeFeatures) x.edges (unaryAt us')
      (fun a b => tenAt ps (a * T + b)) (stateOf S (counts T x.nodeFeatures) z') =
      typedScore T S F Fe x w z' + (typedModel solver m).lossOf (.discrete y) (.discrete z') := by
    intro z' hz'
    obtain ⟨ψ, E, L, a1, a2, a3, -, a5⟩ := hen z' hz'
    rw [a5, ← typed_sum hm hx hz' w]
    have e5 : (typedModel solver m).lossOf (.discrete y) (.discrete z') = L := by
      change okD 0 (Typed.loss m y z') = _
      rw [a3]
      rfl
    rw [e5]
    congr 1
    unfold typedFeature
    rw [a1]
    unfold Vec.dot at a2
    split_ifs at a2 with hsize
    · rw [Except.ok.injEq] at a2
      exact a2.symm
  rw [hrows, hcols] at h4
  rw [hrows, hcols, hlen] at h5
  refine ⟨z, ?_, h4, fun z' hz' => ?_⟩
  · unfold typedLossAug
    simp only
    unfold Typed.lossAugmentedInference
    rw [GraphCRF.checkSizeW_ok (show (⟨m.size, w⟩ : Vec).size = m.size from rfl), hus, hps]
    simp only [bind, Except.bind]
    rw [ha]
    simp only
    unfold inferenceMulti
    rw [h1]
    simp only [bind, Except.bind, h2, Bool.false_and, Bool.false_eq_true, if_false, h3]
    rfl
  · have := h5 z' hz'
    rw [typedEnergy_edges (edgesOf_lists x), typedEnergy_edges (edgesOf_lists x), key z' hz', key z h4] at this
    exact this

end

end Verif.Props
