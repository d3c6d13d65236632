import Verif.Model.SignedLabels
import Verif.Lemmas.EdgeFeature
import Verif.Props.C62
import Verif.Props.C15

/-!
# C155: labels that are no states
-/

namespace Verif.Props

open Finset Verif.Common Verif.SignedLabels
open Verif.Unstructured (ILabels)

/-- A label that numpy accepts as an index for `S` states. -/
def InReach (S : ℕ) (a : ℤ) : Prop := -S ≤ a ∧ a < S

/-- The state that a label in reach is taken for. -/
def takenFor (S : ℕ) (a : ℤ) : ℕ := if 0 ≤ a then a.toNat else (S + a).toNat

/-- The labels, each replaced by the state that it is taken for. -/
def statesOf (S : ℕ) (y : ILabels) : Labels := ⟨y.size, fun i => takenFor S (y.get i)⟩

/-- Labels that are natural numbers, as integers. -/
def asSigned (y : Labels) : ILabels := ⟨y.size, fun i => y.get i⟩

theorem npOk_iff (S : ℕ) (a : ℤ) : npOk S a = true ↔ InReach S a := by
  unfold npOk InReach
  simp

theorem npPos_eq (S : ℕ) (a : ℤ) : npPos S a = takenFor S a := by
  unfold npPos takenFor
  split_ifs <;> omega

theorem takenFor_lt {S : ℕ} {a : ℤ} (h : InReach S a) : takenFor S a < S := by
  unfold InReach at h
  unfold takenFor
  split_ifs <;> omega

theorem takenFor_state {S : ℕ} (a : ℕ) : takenFor S a = a := by
  unfold takenFor
  rw [if_pos (by omega)]
  simp

theorem signed_oneHot {n S : ℕ} {y : ILabels} (hs : y.size = n) (hr : ∀ i < n, InReach S (y.get i)) :
    SignedLabels.oneHot n S y = GraphCRF.oneHot n S (statesOf S y) := by
  unfold SignedLabels.oneHot GraphCRF.oneHot
  rw [if_neg (by simpa using hs), if_neg (not_not.mpr fun i hi => (npOk_iff _ _).mpr (hr i hi)),
    if_neg (by simpa [statesOf] using hs),
    if_neg (not_not.mpr (show ∀ i < n, (statesOf S y).get i < S from fun i hi => takenFor_lt (hr i hi)))]
  simp only [npPos_eq]
  rfl

theorem signed_oneHot_bad {n S : ℕ} {y : ILabels} (hs : y.size = n) (hr : ∃ i < n, ¬ InReach S (y.get i)) :
    SignedLabels.oneHot n S y = .error .indexError := by
  unfold SignedLabels.oneHot
  rw [if_neg (by simpa using hs), if_pos]
  obtain ⟨i, hi, h⟩ := hr
  exact fun hc => h ((npOk_iff _ _).mp (hc i hi))

theorem graph_states {m : GraphCRF.Model} {x : GraphCRF.X} {y : ILabels} (hs : y.size = x.features.rows)
    (hr : ∀ i < x.features.rows, InReach m.nStates (y.get i)) :
    SignedLabels.graph m x y = GraphCRF.jointFeature m x (.discrete (statesOf m.nStates y)) := by
  unfold SignedLabels.graph GraphCRF.jointFeature GraphCRF.marginals
  rw [signed_oneHot hs hr]
  simp only [bind_assoc, pure_bind]

/-- **C155** (partial: labels that are reported): `GraphCRF.joint_feature` raises `IndexError` for a label that is
`n_states` or larger, and for one smaller than `-n_states`. -/
theorem C155_reported_partial (m : GraphCRF.Model) (x : GraphCRF.X) (y : ILabels)
    (hF : x.features.cols = m.nFeatures) (hs : y.size = x.features.rows) (i : ℕ) (hi : i < x.features.rows)
    (h : (m.nStates : ℤ) ≤ y.get i ∨ y.get i < -m.nStates) : SignedLabels.graph m x y = .error .indexError := by
  unfold SignedLabels.graph
  rw [GraphCRF.checkSizeX_ok hF, signed_oneHot_bad hs ⟨i, hi, fun hc => by unfold InReach at hc; omega⟩]
  rfl

/-- **C155** (violated): negative labels down to `-n_states` are not reported by `GraphCRF.joint_feature`, but taken
for the states from the end. -/
theorem C155_violated_graph (m : GraphCRF.Model) (x : GraphCRF.X) (y : ILabels) (hs : y.size = x.features.rows)
    (hr : ∀ i < x.features.rows, -(m.nStates : ℤ) ≤ y.get i ∧ y.get i < m.nStates) :
    SignedLabels.graph m x y = GraphCRF.jointFeature m x (.discrete
      ⟨y.size, fun i => if 0 ≤ y.get i then (y.get i).toNat else (m.nStates + y.get i).toNat⟩) :=
  graph_states hs hr

/-- **C155** (states): on labels that are states nothing changes. -/
theorem C155_states (m : GraphCRF.Model) (x : GraphCRF.X) (y : Labels) (hs : y.size = x.features.rows)
    (hv : Spec.Valid x.features.rows m.nStates y.get) :
    SignedLabels.graph m x (asSigned y) = GraphCRF.jointFeature m x (.discrete y) := by
  rw [graph_states hs fun i hi => ⟨by simp only [asSigned]; omega, by
    have := hv i hi
    simp only [asSigned]
    omega⟩]
  obtain ⟨n, g⟩ := y
  simp only [statesOf, asSigned, takenFor_state]

theorem graph_psi {m : GraphCRF.Model} {x : GraphCRF.X} {y : ILabels} (hF : x.features.cols = m.nFeatures)
    (he : Spec.EdgesIn x.features.rows x.edges) (hs : y.size = x.features.rows)
    (hr : ∀ i < x.features.rows, InReach m.nStates (y.get i)) :
    SignedLabels.graph m x y = .ok (GraphCRF.psi m x.features
      (fun i s => if s = takenFor m.nStates (y.get i) then 1 else 0)
      (GraphCRF.hotPair x.edges fun i => takenFor m.nStates (y.get i))) := by
  rw [graph_states hs hr]
  exact GraphCRF.jointFeature_of_marginals hF
    (GraphCRF.marginals_discrete (y := statesOf m.nStates y) hs (fun i hi => takenFor_lt (hr i hi)) he)

theorem psi_of_labels (m : GraphCRF.Model) (x : GraphCRF.X) (he : Spec.EdgesIn x.features.rows x.edges)
    {y z : ℕ → ℕ} (h : ∀ i < x.features.rows, y i = z i) :
    GraphCRF.psi m x.features (fun i s => if s = y i then 1 else 0) (GraphCRF.hotPair x.edges y) =
      GraphCRF.psi m x.features (fun i s => if s = z i then 1 else 0) (GraphCRF.hotPair x.edges z) := by
  have h1 : (fun s f => ∑ i ∈ range x.features.rows, (if s = y i then (1 : ℚ) else 0) * x.features.get i f) =
      fun s f => ∑ i ∈ range x.features.rows, (if s = z i then (1 : ℚ) else 0) * x.features.get i f := by
    funext s f
    exact sum_congr rfl fun i hi => by rw [h i (mem_range.mp hi)]
  have h2 : GraphCRF.hotPair x.edges y = GraphCRF.hotPair x.edges z := by
    funext a b
    unfold GraphCRF.hotPair
    refine sum_congr rfl fun e hee => ?_
    have hm := he _ (edge_mem (mem_range.mp hee))
    rw [h _ hm.1, h _ hm.2]
  unfold GraphCRF.psi
  rw [h1, h2]

/-- **C155** (violated: labels -1 and +1): `initialize` accepts training labels -1 and +1 and finds two states; after
that all labellings with these two labels have the same joint feature, so that nothing distinguishes them. -/
theorem C155_violated_signs (st : Init.State) (f : ℕ) (Y : List (List ℤ)) (hY : ∀ y ∈ Y, ∀ a ∈ y, a = -1 ∨ a = 1)
    (h1 : ∃ y ∈ Y, (-1 : ℤ) ∈ y) (h2 : ∃ y ∈ Y, (1 : ℤ) ∈ y) (hf : st.nFeatures = none ∨ st.nFeatures = some f)
    (hs : st.nStates = none ∨ st.nStates = some 2) (hc : ∀ c, st.classWeight = some c → c.size = 2) :
    (∃ st', Init.initializeCRF st [f] Y = .ok st' ∧ st'.nStates = some 2) ∧
    ∀ (directed : Bool) (x : GraphCRF.X), x.features.cols = f → Spec.EdgesIn x.features.rows x.edges →
      ∃ ψ, ∀ y : ILabels, y.size = x.features.rows → (∀ i < y.size, y.get i = -1 ∨ y.get i = 1) →
        SignedLabels.graph ⟨2, f, directed⟩ x y = .ok ψ := by
  constructor
  · have hocc : occurring Y = {-1, 1} := by
      ext a
      unfold occurring
      rw [List.mem_toFinset, List.mem_flatten]
      simp only [mem_insert, mem_singleton]
      constructor
      · rintro ⟨y, hy, ha⟩
        exact hY y hy a ha
      · rintro (rfl | rfl)
        · exact h1
        · exact h2
    have hcard : (occurring Y).card = 2 := by rw [hocc]; rfl
    have hne : Y ≠ [] := by
      rintro rfl
      obtain ⟨y, hy, -⟩ := h1
      simp at hy
    unfold Init.initializeCRF
    simp only
    rw [reconcile_eq _ _ hf]
    simp only
    rw [countLabels_ok hne, hcard]
    simp only
    rw [reconcile_eq _ _ hs]
    simp only [Init.setSize, Init.setClassWeight]
    cases hcw : st.classWeight with
    | none => exact ⟨_, rfl, rfl⟩
    | some c =>
      simp only
      exact ⟨_, if_neg (by simp [hc c hcw]), rfl⟩
  · intro directed x hF he
    refine ⟨GraphCRF.psi ⟨2, f, directed⟩ x.features (fun i s => if s = 1 then 1 else 0)
      (GraphCRF.hotPair x.edges fun _ => 1), fun y hy hl => ?_⟩
    rw [graph_psi hF he hy fun i hi => by
      unfold InReach
      rcases hl i (by omega) with h | h <;> rw [h] <;> norm_num]
    congr 1
    apply psi_of_labels ⟨2, f, directed⟩ x he
    intro i hi
    unfold takenFor
    rcases hl i (by omega) with h | h <;> rw [h] <;> rfl

example : ∃ st', Init.initializeCRF ⟨none, none, false, none, none, none⟩ [3] [[-1, 1], [1]] = .ok st' ∧
    st'.nStates = some 2 := ⟨_, rfl, by decide +kernel⟩

/-! ### edge features -/

/-- The state of the first end that the pairwise part of an `EdgeFeatureGraphCRF` sees, for labels `a` and `b` of
the ends of an edge. -/
def firstSeen (S : ℕ) (a b : ℤ) : ℕ := if 0 ≤ b then takenFor S a else (takenFor S a + S - 1) % S

theorem flat_position {S P Q : ℕ} (hP : P < S) (hQ : Q < S) :
    (InReach (S ^ 2) (P * S + Q : ℤ) ∧ takenFor (S ^ 2) (P * S + Q : ℤ) = P * S + Q) ∧
    InReach (S ^ 2) (P * S + Q - S ^ 2 : ℤ) ∧ takenFor (S ^ 2) (P * S + Q - S ^ 2 : ℤ) = P * S + Q := by
  have hlt : P * S + Q < S ^ 2 := by rw [pow_two]; exact flat_lt hP hQ
  have hlt' : (P * S + Q : ℤ) < (S : ℤ) ^ 2 := by exact_mod_cast hlt
  have h0 : (0 : ℤ) ≤ P * S + Q := by positivity
  unfold InReach takenFor
  push_cast
  refine ⟨⟨⟨by nlinarith, hlt'⟩, ?_⟩, ⟨by linarith, by nlinarith⟩, ?_⟩
  · rw [if_pos h0, show (P * S + Q : ℤ) = ((P * S + Q : ℕ) : ℤ) by push_cast; ring]
    exact Int.toNat_natCast _
  · rw [if_neg (by linarith)]
    rw [show (S : ℤ) ^ 2 + (P * S + Q - S ^ 2) = ((P * S + Q : ℕ) : ℤ) by push_cast; ring]
    exact Int.toNat_natCast _

theorem pair_position {S : ℕ} {a b : ℤ} (ha : InReach S a) (hb : InReach S b) (hab : ¬ (a = -S ∧ b < 0)) :
    InReach (S ^ 2) (b + S * a) ∧ takenFor (S ^ 2) (b + S * a) = firstSeen S a b * S + takenFor S b := by
  have hA := takenFor_lt ha
  have hB := takenFor_lt hb
  have ea : (takenFor S a : ℤ) = if 0 ≤ a then a else S + a := by
    unfold InReach at ha
    unfold takenFor
    split_ifs <;> omega
  have eb : (takenFor S b : ℤ) = if 0 ≤ b then b else S + b := by
    unfold InReach at hb
    unfold takenFor
    split_ifs <;> omega
  unfold firstSeen
  by_cases h1 : 0 ≤ b
  · rw [if_pos h1] at eb ⊢
    by_cases h0 : 0 ≤ a
    · rw [if_pos h0] at ea
      have := (flat_position hA hB).1
      rwa [ea, eb, show a * (S : ℤ) + b = b + S * a by ring] at this
    · rw [if_neg h0] at ea
      have := (flat_position hA hB).2
      rwa [ea, eb, show (S + a) * (S : ℤ) + b - S ^ 2 = b + S * a by ring] at this
  · rw [if_neg h1] at eb ⊢
    by_cases hz : takenFor S a = 0
    · -- the first label is 0
      have h0 : 0 ≤ a := by
        by_contra hn
        rw [if_neg hn, hz] at ea
        exact hab ⟨by push_cast at ea; omega, by omega⟩
      rw [if_pos h0, hz] at ea
      have hmod : (takenFor S a + S - 1) % S = S - 1 := by
        rw [hz, Nat.zero_add]
        exact Nat.mod_eq_of_lt (by omega)
      rw [hmod]
      have hP : S - 1 < S := by omega
      have := (flat_position hP hB).2
      have hcast : ((S - 1 : ℕ) : ℤ) = S - 1 := by omega
      rwa [hcast, eb, show ((S : ℤ) - 1) * S + (S + b) - S ^ 2 = b + S * a by
        rw [← ea]; push_cast; ring] at this
    · have hmod : (takenFor S a + S - 1) % S = takenFor S a - 1 := by
        rw [show takenFor S a + S - 1 = (takenFor S a - 1) + S by omega, Nat.add_mod_right]
        exact Nat.mod_eq_of_lt (by omega)
      rw [hmod]
      have hP : takenFor S a - 1 < S := by omega
      have hcast : ((takenFor S a - 1 : ℕ) : ℤ) = takenFor S a - 1 := by omega
      by_cases h0 : 0 ≤ a
      · rw [if_pos h0] at ea
        have := (flat_position hP hB).1
        rwa [hcast, ea, eb, show (a - 1) * (S : ℤ) + (S + b) = b + S * a by ring] at this
      · rw [if_neg h0] at ea
        have := (flat_position hP hB).2
        rwa [hcast, ea, eb, show ((S : ℤ) + a - 1) * S + (S + b) - S ^ 2 = b + S * a by ring] at this

theorem pair_refused {S : ℕ} {b : ℤ} (hb : b < 0) : ¬ InReach (S ^ 2) (b + S * (-S)) := by
  unfold InReach
  push_cast
  intro h
  nlinarith [h.1]

/-- **C155** (violated: edge features): `EdgeFeatureGraphCRF.joint_feature` takes negative labels for states from the
end as well, but where the second end of an edge has a negative label, the pairwise part sees another state at the
first end than the unary part: the one before it (cyclically). -/
theorem C155_violated_edge_feature (m : EdgeFeature.Model) (x : EdgeFeature.X) (y : ILabels) (hsym : m.sym = [])
    (hanti : m.anti = []) (hF : x.features.cols = m.nFeatures) (hE : x.edgeFeatures.rows = x.edges.length)
    (hK : x.edgeFeatures.cols = m.nEdgeFeatures) (he : Spec.EdgesIn x.features.rows x.edges)
    (hs : y.size = x.features.rows)
    (hr : ∀ i < x.features.rows, -(m.nStates : ℤ) ≤ y.get i ∧ y.get i < m.nStates)
    (hne : ∀ e ∈ x.edges, ¬ (y.get e.1 = -m.nStates ∧ y.get e.2 < 0)) :
    ∃ ψ : Vec, SignedLabels.edgeFeature EdgeFeature.checkSizeX m x y = .ok ψ ∧
      ψ.size = EdgeFeature.sizeJointFeature m ∧
      ∀ w : ℕ → ℚ, dot ψ.size w ψ.get =
        ∑ i ∈ range x.features.rows, ∑ f ∈ range m.nFeatures,
          w (takenFor m.nStates (y.get i) * m.nFeatures + f) * x.features.get i f +
        ∑ e ∈ range x.edges.length, ∑ k ∈ range m.nEdgeFeatures,
          w (m.nStates * m.nFeatures + k * m.nStates ^ 2 +
            firstSeen m.nStates (y.get (x.edges.getD e (0, 0)).1) (y.get (x.edges.getD e (0, 0)).2) * m.nStates +
            takenFor m.nStates (y.get (x.edges.getD e (0, 0)).2)) * x.edgeFeatures.get e k := by
  have hpos : ∀ e ∈ x.edges, InReach (m.nStates ^ 2) (pairIndex m.nStates y e) ∧
      takenFor (m.nStates ^ 2) (pairIndex m.nStates y e) =
        firstSeen m.nStates (y.get e.1) (y.get e.2) * m.nStates + takenFor m.nStates (y.get e.2) := fun e hee =>
    pair_position (hr _ (he e hee).1) (hr _ (he e hee).2) (hne e hee)
  set U : ℕ → ℕ → ℚ := fun i s => if s = takenFor m.nStates (y.get i) then 1 else 0 with hU
  set P : ℕ → ℕ → ℚ := fun e k =>
    if k = takenFor (m.nStates ^ 2) (pairIndex m.nStates y (edge x.edges e)) then 1 else 0 with hP
  have hok : SignedLabels.edgeFeature EdgeFeature.checkSizeX m x y = .ok (EdgeFeature.psi m x U P) := by
    unfold SignedLabels.edgeFeature
    rw [EdgeFeature.checkSizeX_ok hF hE hK, signed_oneHot hs hr,
      GraphCRF.oneHot_ok (y := statesOf m.nStates y) hs fun i hi => takenFor_lt (hr i hi)]
    have hpi : SignedLabels.pairIndicators m.nStates x.features.rows x.edges y =
        .ok ⟨x.edgeFeatures.rows, m.nStates ^ 2, P⟩ := by
      unfold SignedLabels.pairIndicators
      rw [if_neg (not_not.mpr (show ∀ e ∈ x.edges, e.1 < x.features.rows ∧ e.2 < x.features.rows from he)),
        if_neg (not_not.mpr fun e hee => (npOk_iff _ _).mpr (hpos e hee).1), hE]
      simp only [npPos_eq, hP]
    simp only [bind, Except.bind]
    rw [hpi]
    simp only [Mat.mul, Mat.T, if_true, hK, hsym, hanti]
    rw [if_neg (by simp), hF]
    unfold EdgeFeature.psi
    simp only [hsym, hanti]
    rfl
  refine ⟨_, hok, rfl, fun w => ?_⟩
  rw [EdgeFeature.psi_size, EdgeFeature.dot_psi m x U P w (by simp [hsym])]
  congr 1
  · refine sum_congr rfl fun i hi => ?_
    rw [hU, sum_onehot m.nStates _ (takenFor_lt (hr i (mem_range.mp hi))) _]
    exact sum_congr rfl fun f _ => mul_comm _ _
  · rw [hE]
    refine sum_congr rfl fun e hee => ?_
    have hmem := edge_mem (mem_range.mp hee)
    obtain ⟨-, hp⟩ := hpos _ hmem
    have hB := takenFor_lt (hr _ (he _ hmem).2)
    have hA : firstSeen m.nStates (y.get (edge x.edges e).1) (y.get (edge x.edges e).2) < m.nStates := by
      unfold firstSeen
      split_ifs
      · exact takenFor_lt (hr _ (he _ hmem).1)
      · exact Nat.mod_lt _ (by omega)
    have hsum : ∀ g : ℕ → ℕ → ℚ, ∑ a ∈ range m.nStates, ∑ b ∈ range m.nStates, g a b * P e (a * m.nStates + b) =
        g (firstSeen m.nStates (y.get (edge x.edges e).1) (y.get (edge x.edges e).2))
          (takenFor m.nStates (y.get (edge x.edges e).2)) := by
      intro g
      rw [sum_eq_single_of_mem _ (mem_range.mpr hA), sum_eq_single_of_mem _ (mem_range.mpr hB)]
      · simp only [hP]
        rw [if_pos (by rw [hp]), mul_one]
      · intro b hb hne'
        simp only [hP]
        rw [if_neg, mul_zero]
        rw [hp]
        omega
      · intro a ha hne'
        refine sum_eq_zero fun b hb => ?_
        simp only [hP]
        rw [if_neg, mul_zero]
        rw [hp]
        intro hc
        apply hne'
        have d1 := flat_div (i := a) (mem_range.mp hb)
        rw [hc, flat_div hB] at d1
        exact d1.symm
    rw [hsum]
    refine sum_congr rfl fun k _ => ?_
    simp only [EdgeFeature.proj, hsym, hanti, List.not_mem_nil, if_false, EdgeFeature.EW]
    rw [mul_comm]
    congr 2
    unfold edge
    ring

/-- **C155** (an edge whose first label is `-n_states` and whose second label is negative): `IndexError`. -/
theorem C155_edge_feature_reported (m : EdgeFeature.Model) (x : EdgeFeature.X) (y : ILabels)
    (hF : x.features.cols = m.nFeatures) (hE : x.edgeFeatures.rows = x.edges.length)
    (hK : x.edgeFeatures.cols = m.nEdgeFeatures) (hs : y.size = x.features.rows)
    (h : (∃ i < x.features.rows, (m.nStates : ℤ) ≤ y.get i ∨ y.get i < -m.nStates) ∨
      ∃ e ∈ x.edges, y.get e.1 = -m.nStates ∧ y.get e.2 < 0) :
    SignedLabels.edgeFeature EdgeFeature.checkSizeX m x y = .error .indexError := by
  unfold SignedLabels.edgeFeature
  rw [EdgeFeature.checkSizeX_ok hF hE hK]
  by_cases hr : ∀ i < x.features.rows, InReach m.nStates (y.get i)
  · rw [signed_oneHot hs hr, GraphCRF.oneHot_ok (y := statesOf m.nStates y) hs fun i hi => takenFor_lt (hr i hi)]
    have hpi : SignedLabels.pairIndicators m.nStates x.features.rows x.edges y = .error .indexError := by
      rcases h with ⟨i, hi, h⟩ | ⟨e, hee, h1, h2⟩
      · have := hr i hi
        unfold InReach at this
        omega
      · unfold SignedLabels.pairIndicators
        by_cases h3 : ¬ ∀ e ∈ x.edges, e.1 < x.features.rows ∧ e.2 < x.features.rows
        · rw [if_pos h3]
        · rw [if_neg h3, if_pos]
          intro h4
          have := (npOk_iff _ _).mp (h4 e hee)
          unfold pairIndex at this
          rw [h1] at this
          exact pair_refused h2 this
    simp only [bind, Except.bind]
    rw [hpi]
  · push Not at hr
    rw [signed_oneHot_bad hs hr]
    rfl

/-- Two nodes with labels 0 and -1, three states. -/
def signedX : EdgeFeature.X := ⟨⟨2, 1, fun i _ => i + 1⟩, [(0, 1)], ⟨1, 1, fun _ _ => 5⟩⟩

example : Spec.EdgesIn signedX.features.rows signedX.edges ∧
    (∀ i < signedX.features.rows, -((3 : ℕ) : ℤ) ≤ (⟨2, fun i => -i⟩ : ILabels).get i ∧
      (⟨2, fun i => -i⟩ : ILabels).get i < (3 : ℕ)) ∧
    (∀ e ∈ signedX.edges, ¬ ((⟨2, fun i => -i⟩ : ILabels).get e.1 = -(3 : ℕ) ∧
      (⟨2, fun i => -i⟩ : ILabels).get e.2 < 0)) ∧ firstSeen 3 0 (-1) = 2 ∧ takenFor 3 (-1) = 2 := by
  refine ⟨by simp [signedX, Spec.EdgesIn], fun i hi => ?_, ?_, rfl, rfl⟩
  · simp only [signedX] at hi ⊢
    constructor <;> push_cast <;> omega
  · simp [signedX]

example : ∃ e ∈ signedX.edges, (⟨2, fun i => if i = 0 then -3 else -1⟩ : ILabels).get e.1 = -(3 : ℕ) ∧
    (⟨2, fun i => if i = 0 then -3 else -1⟩ : ILabels).get e.2 < 0 := ⟨(0, 1), by simp [signedX], by decide, by decide⟩

/-- **C155** (violated: no labelling at all): with labels `0` and `-1` the joint feature of an `EdgeFeatureGraphCRF`
may differ from the joint features of all labellings. -/
theorem C155_violated_no_labelling (S : ℕ) (hS : 2 ≤ S) :
    ∃ (x : EdgeFeature.X) (y : ILabels) (ψ : Vec), (∀ i, y.get i = 0 ∨ y.get i = -1) ∧
      SignedLabels.edgeFeature EdgeFeature.checkSizeX ⟨S, 1, 1, [], []⟩ x y = .ok ψ ∧
      ∀ (z : Labels) (φ : Vec), z.size = x.features.rows → Spec.Valid x.features.rows S z.get →
        EdgeFeature.jointFeature EdgeFeature.checkSizeX ⟨S, 1, 1, [], []⟩ x (.discrete z) = .ok φ →
        ∃ k < φ.size, φ.get k ≠ ψ.get k := by
  set x : EdgeFeature.X := ⟨⟨2, 1, fun _ _ => 1⟩, [(0, 1)], ⟨1, 1, fun _ _ => 1⟩⟩ with hx
  set y : ILabels := ⟨2, fun i => if i = 0 then 0 else -1⟩ with hy
  have hed : Spec.EdgesIn x.features.rows x.edges := by simp [hx, Spec.EdgesIn]
  have hy2 : ∀ i, y.get i = 0 ∨ y.get i = -1 := fun i => by
    simp only [hy]
    split_ifs <;> simp
  obtain ⟨ψ, hok, hsz, hdot⟩ := C155_violated_edge_feature ⟨S, 1, 1, [], []⟩ x y rfl rfl rfl rfl rfl hed rfl
    (fun i _ => by rcases hy2 i with h | h <;> rw [h] <;> constructor <;> push_cast <;> omega)
    (fun e _ => by
      rintro ⟨h, -⟩
      have := hy2 e.1
      simp only at h
      omega)
  refine ⟨x, y, ψ, hy2, hok, fun z φ hz hv hφ => ?_⟩
  have hφ' := EdgeFeature.jointFeature_of_marginals (check := EdgeFeature.checkSizeX) (m := ⟨S, 1, 1, [], []⟩)
    (x := x) (y := .discrete z) (EdgeFeature.checkSizeX_ok rfl rfl rfl) rfl rfl (by simp)
    (EdgeFeature.marginals_discrete hz rfl hv hed)
  rw [hφ'] at hφ
  injection hφ with hφ
  by_contra hcon
  push Not at hcon
  have hw : ∀ w : ℕ → ℚ, w (z.get 0) + w (z.get 1) + w (S + (z.get 0 * S + z.get 1)) =
      w 0 + w (S - 1) + w (S + ((S - 1) * S + (S - 1))) := by
    intro w
    have h1 := EdgeFeature.dot_psi_discrete ⟨S, 1, 1, [], []⟩ x w z.get (by simp) rfl hv hed
    rw [hφ] at h1
    have h2 := hdot w
    have h3 : dot ψ.size w ψ.get = dot (EdgeFeature.sizeJointFeature ⟨S, 1, 1, [], []⟩) w φ.get := by
      rw [hsz]
      unfold dot
      refine sum_congr rfl fun k hk => ?_
      rw [hcon k]
      rw [← hφ, EdgeFeature.psi_size]
      exact mem_range.mp hk
    rw [h1, h2] at h3
    have t0 : takenFor S (y.get 0) = 0 := by simp [hy, takenFor]
    have t1 : takenFor S (y.get 1) = S - 1 := by
      simp only [hy, takenFor]
      norm_num
      omega
    have t2 : firstSeen S (y.get 0) (y.get 1) = S - 1 := by
      unfold firstSeen
      rw [t0, if_neg (by simp [hy]), Nat.zero_add, Nat.mod_eq_of_lt (by omega)]
    simp only [Spec.score, EdgeFeature.EU, EdgeFeature.EW, EdgeFeature.proj, hx, sum_range_succ, sum_range_zero,
      List.length_cons, List.length_nil, List.getD_cons_zero, t0, t1, t2, List.not_mem_nil, if_false] at h3
    simp only [zero_add, mul_one, one_mul, add_zero, zero_mul] at h3
    rw [← add_assoc, ← add_assoc, h3, add_assoc S]
  have := hw fun k => if k = 0 then 1 else if k = S + ((S - 1) * S + (S - 1)) then 2 else 0
  have v0 := hv 0 (by simp [hx])
  have v1 := hv 1 (by simp [hx])
  have e1 : ∀ a < S, a ≠ S + ((S - 1) * S + (S - 1)) := fun a ha => by omega
  have e2 : z.get 0 * S + z.get 1 = (S - 1) * S + (S - 1) → z.get 0 = S - 1 ∧ z.get 1 = S - 1 := fun h => by
    have d1 := flat_div (i := z.get 0) v1
    rw [h, flat_div (by omega)] at d1
    refine ⟨d1.symm, ?_⟩
    rw [← d1] at h
    omega
  simp only [if_true, if_neg (e1 _ v0), if_neg (e1 _ v1), if_neg (e1 (S - 1) (by omega)),
    if_neg (show S - 1 ≠ 0 by omega), if_neg (show S + ((S - 1) * S + (S - 1)) ≠ 0 by omega),
    if_neg (show S + (z.get 0 * S + z.get 1) ≠ 0 by omega)] at this
  by_cases h : z.get 0 * S + z.get 1 = (S - 1) * S + (S - 1)
  · obtain ⟨h0, h1⟩ := e2 h
    rw [if_neg (by omega), if_neg (by omega), if_pos (by rw [h])] at this
    norm_num at this
  · rw [if_neg (fun hc => h (Nat.add_left_cancel hc))] at this
    split_ifs at this <;> norm_num at this

/-! ### several labels -/

/-- **C155** (several labels): `MultiLabelClf.joint_feature` multiplies the features by `2 * y - 1` whatever the label
is, and in the pairwise part takes labels -2 and -1 for absent and present. Without edges no label is refused. -/
theorem C155_multilabel (m : MultiLabel.Model) (x : Vec) (y : ILabels)
    (h : ∀ e ∈ m.edges, (e.1 < y.size ∧ -2 ≤ y.get e.1 ∧ y.get e.1 < 2) ∧
      (e.2 < y.size ∧ -2 ≤ y.get e.2 ∧ y.get e.2 < 2)) :
    ∃ ψ : Vec, SignedLabels.multiLabel m x y = .ok ψ ∧ ψ.size = y.size * x.size + 4 * m.edges.length ∧
      (∀ l < y.size, ∀ f < x.size, ψ.get (l * x.size + f) = x.get f * (2 * y.get l - 1)) ∧
      ∀ e < m.edges.length, ∀ a < 2, ∀ b < 2, ψ.get (y.size * x.size + (e * 4 + a * 2 + b)) =
        if a = takenFor 2 (y.get (m.edges.getD e (0, 0)).1) ∧ b = takenFor 2 (y.get (m.edges.getD e (0, 0)).2) then 1
        else 0 := by
  unfold SignedLabels.multiLabel
  rw [if_neg (not_not.mpr fun e he => ⟨(h e he).1.1, (h e he).2.1, (npOk_iff _ _).mpr (h e he).1.2,
    (npOk_iff _ _).mpr (h e he).2.2⟩)]
  refine ⟨_, rfl, ?_, fun l hl f hf => ?_, fun e he a ha b hb => ?_⟩
  · simp only [Vec.append, Mat.ravel, Ten.ravel, MultiLabel.unaryMarginals]
    ring
  · have hlt : l * x.size + f < y.size * x.size := flat_lt hl hf
    show (if l * x.size + f < y.size * x.size then
      x.get ((l * x.size + f) % x.size) * (2 * (y.get ((l * x.size + f) / x.size) : ℚ) - 1) else _) = _
    rw [if_pos hlt, flat_div hf, flat_mod hf]
  · show (if y.size * x.size + (e * 4 + a * 2 + b) < y.size * x.size then _ else
      Vec.get (Ten.ravel ⟨m.edges.length, 2, 2, fun e a b => if a = npPos 2 (y.get (edge m.edges e).1) ∧
        b = npPos 2 (y.get (edge m.edges e).2) then 1 else 0⟩)
        (y.size * x.size + (e * 4 + a * 2 + b) - y.size * x.size)) = _
    rw [if_neg (by omega), Nat.add_sub_cancel_left]
    simp only [npPos_eq, edge, Ten.ravel]
    rw [show (e * 4 + a * 2 + b) / 2 / 2 = e by omega, show (e * 4 + a * 2 + b) / 2 % 2 = a by omega,
      show (e * 4 + a * 2 + b) % 2 = b by omega]

/-- **C155** (violated: several labels): labels other than 0 and 1 give the joint feature of no set of labels, unless
all features are zero. -/
theorem C155_violated_multilabel (m : MultiLabel.Model) (x : Vec) (y : ILabels) (ψ : Vec)
    (hx : ∃ f < x.size, x.get f ≠ 0) (hy : ∃ l < y.size, y.get l ≠ 0 ∧ y.get l ≠ 1)
    (hψ : SignedLabels.multiLabel m x y = .ok ψ) (z : Labels) (φ : Vec) (hz : z.size = y.size)
    (hv : ∀ l < z.size, z.get l < 2) (hφ : MultiLabel.jointFeature m x (.discrete z) = .ok φ) :
    ∃ k < φ.size, φ.get k ≠ ψ.get k := by
  obtain ⟨f, hf, hxf⟩ := hx
  obtain ⟨l, hl, h0, h1⟩ := hy
  have hlt : l * x.size + f < y.size * x.size := flat_lt hl hf
  unfold SignedLabels.multiLabel at hψ
  unfold MultiLabel.jointFeature at hφ
  split at hψ
  · cases hψ
  · simp only at hφ
    split at hφ
    · cases hφ
    · injection hψ with hψ
      injection hφ with hφ
      refine ⟨l * x.size + f, ?_, ?_⟩
      · rw [← hφ]
        simp only [Vec.append, Mat.ravel, MultiLabel.unaryMarginals, hz]
        omega
      · rw [← hφ, ← hψ]
        show (if l * x.size + f < z.size * x.size then
          x.get ((l * x.size + f) % x.size) * (2 * (z.get ((l * x.size + f) / x.size) : ℚ) - 1) else _) ≠
          (if l * x.size + f < y.size * x.size then
          x.get ((l * x.size + f) % x.size) * (2 * (y.get ((l * x.size + f) / x.size) : ℚ) - 1) else _)
        rw [if_pos hlt, if_pos (hz ▸ hlt), flat_div hf, flat_mod hf]
        intro hc
        have hc := mul_left_cancel₀ hxf hc
        have hc : (z.get l : ℚ) = (y.get l : ℚ) := by linarith
        have hc : (z.get l : ℤ) = y.get l := by exact_mod_cast hc
        have := hv l (by omega)
        omega

example : (SignedLabels.multiLabel ⟨2, 1, [(0, 1)]⟩ ⟨1, fun _ => 1⟩ ⟨2, fun i => if i = 0 then 1 else -1⟩).map
    (fun ψ => (List.range ψ.size).map ψ.get) = .ok [1, -3, 0, 0, 0, 1] := by decide +kernel

example : (MultiLabel.jointFeature ⟨2, 1, [(0, 1)]⟩ ⟨1, fun _ => 1⟩ (.discrete ⟨2, fun _ => 1⟩)).map
    (fun ψ => (List.range ψ.size).map ψ.get) = .ok [1, 1, 0, 0, 0, 1] := by decide +kernel

end Verif.Props
