import Verif.Props.C89

/-!
# C89, continued: construction and initialisation of `DirectionalGridCRF` and `LatentGridCRF`
-/

namespace Verif.Props

open Finset Verif.Common Verif.Init

theorem dirInitialize_ok {st st' : EFState} {X : List ℕ} {Y : List (List ℤ)} {e : ℕ} (he : st.nEdgeFeatures = some e)
    (h : dirInitialize st X Y = .ok st') :
    ∃ f, X.head? = some f ∧ Y ≠ [] ∧ Agrees st.nFeatures f ∧ Agrees st.nStates (occurring Y).card ∧
      st'.nFeatures = some f ∧ st'.nEdgeFeatures = some e ∧ st'.nStates = some (occurring Y).card ∧
      st'.sym = st.sym ∧ st'.anti = st.anti ∧
      st'.derived.size = some ((occurring Y).card * f + e * (occurring Y).card ^ 2) ∧
      WeightsFor (occurring Y).card st.derived.classWeight st'.derived.classWeight := by
  unfold dirInitialize efBase at h
  cases hf : takeFeatures st.nFeatures X with
  | error err => rw [hf] at h; simp at h
  | ok f =>
    rw [hf] at h
    simp only at h
    cases hs : takeLabels st.nStates Y with
    | error err => rw [hs] at h; simp at h
    | ok s =>
      rw [hs] at h
      rw [takeFeatures_iff] at hf
      rw [takeLabels_iff] at hs
      obtain ⟨hY, rfl, hs⟩ := hs
      simp only [efSize, efSetClassWeight, he] at h
      cases hd : deriveWeights { st.derived with
          size := some (EdgeFeature.sizeJointFeature ⟨(occurring Y).card, f, e, st.sym, st.anti⟩) }
          (some (occurring Y).card) with
      | error err => rw [hd] at h; simp at h
      | ok d =>
        rw [hd] at h
        simp only [Except.ok.injEq] at h
        obtain ⟨hsz, hw⟩ := deriveWeights_ok rfl hd
        refine ⟨f, hf.1, hY, hf.2, hs, ?_⟩
        rw [← h]
        exact ⟨rfl, rfl, rfl, rfl, rfl, hsz, hw⟩

theorem dirInitialize_some {st : EFState} {X : List ℕ} {Y : List (List ℤ)} {e f : ℕ} (he : st.nEdgeFeatures = some e)
    (hX : X.head? = some f) (hY : Y ≠ []) (hf : Agrees st.nFeatures f) (hs : Agrees st.nStates (occurring Y).card)
    (hc : ∀ c, st.derived.classWeight = some c → c.size = (occurring Y).card) : ∃ st', dirInitialize st X Y = .ok st' := by
  unfold dirInitialize efBase
  rw [(takeFeatures_iff _ _ _).mpr ⟨hX, hf⟩]
  simp only
  rw [(takeLabels_iff _ _ _).mpr ⟨hY, rfl, hs⟩]
  simp only [efSize, efSetClassWeight, he]
  obtain ⟨d, hd⟩ := deriveWeights_some (d := { st.derived with
    size := some (EdgeFeature.sizeJointFeature ⟨(occurring Y).card, f, e, st.sym, st.anti⟩) }) rfl hc
  rw [hd]
  exact ⟨_, rfl⟩

/-- Number of edge features of a grid: one per direction. -/
def directionCount (nb : ℕ) : ℕ := if nb = 4 then 2 else 4

/-- **C89** (`DirectionalGridCRF`, constructor): numbers are stored as given, there are two or four edge features and none is declared
symmetric or antisymmetric; the size and the class weights are set as soon as both numbers are given. -/
theorem C89_directional_construct (nStates nFeatures : Option ℕ) (nb : ℕ) :
    ∃ st, dirConstruct nStates nFeatures nb = .ok st ∧ st.nStates = nStates ∧ st.nFeatures = nFeatures ∧
      st.nEdgeFeatures = some (directionCount nb) ∧ st.sym = [] ∧ st.anti = [] ∧
      (∀ s f, nStates = some s → nFeatures = some f → st.derived.size = some (s * f + directionCount nb * s ^ 2) ∧
        WeightsFor s none st.derived.classWeight) ∧
      ((nStates = none ∨ nFeatures = none) → st.derived.size = none ∧ st.derived.classWeight = none) := by
  cases nStates with
  | none => exact ⟨_, rfl, rfl, rfl, rfl, rfl, rfl, fun _ _ h => (by cases h), fun _ => ⟨rfl, rfl⟩⟩
  | some s =>
    cases nFeatures with
    | none => exact ⟨_, rfl, rfl, rfl, rfl, rfl, rfl, fun _ _ _ h => (by cases h), fun _ => ⟨rfl, rfl⟩⟩
    | some f =>
      refine ⟨_, rfl, rfl, rfl, rfl, rfl, rfl, fun s' f' hs hf => ?_, fun h => (by rcases h with h | h <;> cases h)⟩
      injection hs with hs
      injection hf with hf
      subst hs hf
      exact ⟨rfl, Or.inr ⟨rfl, _, rfl, rfl, fun _ => rfl⟩⟩

/-- **C89** (`DirectionalGridCRF`): a new model accepts exactly the data that agree with the given numbers. Then the numbers of
features and states are those of the data, the number of edge features is unchanged and the size is the documented one. -/
theorem C89_directional (nStates nFeatures : Option ℕ) (nb : ℕ) (st : EFState) (hst : dirConstruct nStates nFeatures nb = .ok st)
    (X : List ℕ) (Y : List (List ℤ)) :
    ((∃ st', dirInitialize st X Y = .ok st') ↔
      ∃ f, X.head? = some f ∧ Y ≠ [] ∧ Agrees nFeatures f ∧ Agrees nStates (occurring Y).card) ∧
    ∀ st', dirInitialize st X Y = .ok st' →
      ∃ f, X.head? = some f ∧ st'.nFeatures = some f ∧ st'.nEdgeFeatures = some (directionCount nb) ∧
        st'.nStates = some (occurring Y).card ∧ st'.sym = [] ∧ st'.anti = [] ∧
        st'.derived.size = some ((occurring Y).card * f + directionCount nb * (occurring Y).card ^ 2) ∧
        WeightsFor (occurring Y).card none st'.derived.classWeight := by
  obtain ⟨st0, h0, h1, h2, h3, h4, h5, h6, h7⟩ := C89_directional_construct nStates nFeatures nb
  rw [hst] at h0
  injection h0 with h0
  subst h0
  -- the class weights of the new model
  have hw : st.derived.classWeight = none ∨ ∃ s, nStates = some s ∧ WeightsFor s none st.derived.classWeight := by
    cases hs : nStates with
    | none => exact .inl (h7 (.inl hs)).2
    | some s =>
      cases hf : nFeatures with
      | none => exact .inl (h7 (.inr hf)).2
      | some f => exact .inr ⟨s, rfl, (h6 s f hs hf).2⟩
  refine ⟨⟨?_, ?_⟩, ?_⟩
  · rintro ⟨st', h⟩
    obtain ⟨f, g1, g2, g3, g4, -⟩ := dirInitialize_ok h3 h
    rw [h2] at g3
    rw [h1] at g4
    exact ⟨f, g1, g2, g3, g4⟩
  · rintro ⟨f, hX, hY, hf, hs⟩
    refine dirInitialize_some h3 hX hY (by rw [h2]; exact hf) (by rw [h1]; exact hs) fun c hc => ?_
    rcases hw with hw | ⟨s, e1, hw⟩
    · rw [hw] at hc; cases hc
    · rcases hw with ⟨c', hn, -⟩ | ⟨-, c', e2, e3, -⟩
      · cases hn
      · rw [hc] at e2
        injection e2 with e2
        rw [e2, e3]
        rcases hs with hs | hs
        · rw [e1] at hs; cases hs
        · rw [e1] at hs
          injection hs
  · intro st' h
    obtain ⟨f, g1, g2, g3, g4, g5, g6, g7, g8, g9, g10, g11⟩ := dirInitialize_ok h3 h
    refine ⟨f, g1, g5, g6, g7, g8.trans h4, g9.trans h5, g10, ?_⟩
    rcases hw with hw | ⟨s, e1, hw⟩
    · rw [hw] at g11; exact g11
    · rcases hw with ⟨c', hn, -⟩ | ⟨-, c', e2, e3, e4⟩
      · cases hn
      · rcases g11 with ⟨c, k1, k2, k3⟩ | ⟨k1, -⟩
        · rw [e2] at k1
          injection k1 with k1
          exact .inr ⟨rfl, c, k3, k2, by rw [← k1]; exact e4⟩
        · rw [e2] at k1; cases k1

/-- The first constructor with both numbers known. -/
theorem lgConstruct_known (st0 : LGState) (l f : ℕ) (sp : LatentGraph.StatesSpec) (n : List ℕ)
    (hn : PerLabel l sp n) : lgConstructOn lgSetSize st0 (some l) (some f) sp =
      .ok { st0 with
        nLabels := some l
        nFeatures := some f
        perLabel := .list n
        nStates := some n.sum
        derived := ⟨some (GraphCRF.sizeJointFeature ⟨n.sum, f, false⟩), some ⟨l, fun _ => 1⟩, some true⟩ } := by
  unfold lgConstructOn lgBase
  simp only [lgSetSize]
  rw [(statesPerLabel_iff _ _ _).mpr hn]
  rfl

theorem perLabel_list {l : ℕ} {sp : LatentGraph.StatesSpec} {n : List ℕ} (h : PerLabel l sp n) : PerLabel l (.list n) n := by
  cases sp with
  | int k => exact ⟨h.1, rfl⟩
  | list g => exact ⟨by rw [h.2]; exact h.1, rfl⟩

/-- **C89** (`LatentGridCRF`, constructor): with both numbers given it succeeds exactly if the numbers of states fit the number of
labels, and then sizes, class weights and neighbourhood are set. -/
theorem C89_latent_grid_construct (l f : ℕ) (sp : LatentGraph.StatesSpec) (nb : ℕ) :
    ((∃ st, gridConstruct (some l) (some f) sp nb = .ok st) ↔ ∃ n, PerLabel l sp n) ∧
    ∀ st, gridConstruct (some l) (some f) sp nb = .ok st → ∃ n, PerLabel l sp n ∧ st.perLabel = .list n ∧
      st.nStates = some n.sum ∧ st.nLabels = some l ∧ st.nFeatures = some f ∧ st.neighborhood = nb ∧
      st.derived.size = some (n.sum * f + n.sum * (n.sum + 1) / 2) ∧ WeightsFor l none st.derived.classWeight := by
  have hok : ∀ n, PerLabel l sp n → ∃ st, gridConstruct (some l) (some f) sp nb = .ok st ∧ st.perLabel = .list n ∧
      st.nStates = some n.sum ∧ st.nLabels = some l ∧ st.nFeatures = some f ∧ st.neighborhood = nb ∧
      st.derived.size = some (n.sum * f + n.sum * (n.sum + 1) / 2) ∧ WeightsFor l none st.derived.classWeight := by
    intro n hn
    unfold gridConstruct gridConstructOn
    rw [lgConstruct_known _ l f sp n hn]
    simp only [lgBase, lgSetSize]
    rw [(statesPerLabel_iff _ _ _).mpr (perLabel_list hn)]
    exact ⟨_, rfl, rfl, rfl, rfl, rfl, rfl, rfl, Or.inr ⟨rfl, _, rfl, rfl, fun _ => rfl⟩⟩
  have hbad : ∀ st, gridConstruct (some l) (some f) sp nb = .ok st → ∃ n, PerLabel l sp n := by
    intro st h
    cases hn : LatentGraph.statesPerLabel l sp with
    | ok n => exact ⟨n, (statesPerLabel_iff _ _ _).mp hn⟩
    | error err =>
      unfold gridConstruct gridConstructOn lgConstructOn lgBase at h
      simp only [lgSetSize] at h
      rw [hn] at h
      cases h
  refine ⟨⟨fun ⟨st, h⟩ => hbad st h, fun ⟨n, hn⟩ => ?_⟩, fun st h => ?_⟩
  · obtain ⟨st, h, -⟩ := hok n hn
    exact ⟨st, h⟩
  · obtain ⟨n, hn⟩ := hbad st h
    obtain ⟨st', h', h1⟩ := hok n hn
    rw [h] at h'
    injection h' with h'
    subst h'
    exact ⟨n, hn, h1⟩

/-- **C89** (`LatentGridCRF`, constructor, unknown numbers): without the number of labels or of features nothing is derived, and the
arguments are stored as given. -/
theorem C89_latent_grid_unknown (nLabels nFeatures : Option ℕ) (h : nLabels = none ∨ nFeatures = none)
    (sp : LatentGraph.StatesSpec) (nb : ℕ) :
    ∃ st, gridConstruct nLabels nFeatures sp nb = .ok st ∧ st.nLabels = nLabels ∧ st.nFeatures = nFeatures ∧ st.perLabel = sp ∧
      st.nStates = none ∧ st.neighborhood = nb ∧ st.derived.size = none ∧ st.derived.classWeight = none := by
  rcases h with rfl | rfl
  · cases nFeatures <;> exact ⟨_, rfl, rfl, rfl, rfl, rfl, rfl, rfl, rfl⟩
  · cases nLabels <;> exact ⟨_, rfl, rfl, rfl, rfl, rfl, rfl, rfl, rfl⟩

/-- a grid with eight neighbours, two labels in the data and three features. -/
example : ∃ st st', dirConstruct none (some 3) 8 = .ok st ∧ dirInitialize st [3, 3] [[0, 1], [1, 1]] = .ok st' ∧
    st'.nStates = some 2 ∧ st'.derived.size = some 22 := by
  refine ⟨_, _, rfl, rfl, ?_, ?_⟩ <;> decide +kernel

/-- two and one hidden states. -/
example : PerLabel 2 (.list [2, 1]) [2, 1] ∧ ∃ st, gridConstruct (some 2) (some 1) (.list [2, 1]) 8 = .ok st ∧
    st.nStates = some 3 ∧ st.derived.size = some 9 ∧ st.neighborhood = 8 :=
  ⟨⟨rfl, rfl⟩, _, rfl, rfl, rfl, rfl⟩

end Verif.Props
