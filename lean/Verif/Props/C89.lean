import Verif.Model.InitMore
import Verif.Props.C62
import Verif.Props.C22

/-!
# C89: sizes of all other model classes after construction and initialisation
-/

namespace Verif.Props

open Finset Verif.Common Verif.Init

/-! ### specification -/

/-- A given number (if any) agrees with the one found in the data. -/
def Agrees (own : Option ℕ) (found : ℕ) : Prop := own = none ∨ own = some found

/-- The class weights of a model with `n` classes: the given ones if there are any, which must be `n` many, and
otherwise ones. -/
def WeightsFor (n : ℕ) (given result : Option Vec) : Prop :=
  (∃ c, given = some c ∧ c.size = n ∧ result = some c) ∨
    (given = none ∧ ∃ c, result = some c ∧ c.size = n ∧ ∀ k, c.get k = 1)

/-- The feature indices are in range and not declared both symmetric and antisymmetric. -/
def GoodIndices (e : ℕ) (sym anti : List ℕ) : Prop :=
  (∀ i ∈ sym, i < e) ∧ (∀ i ∈ anti, i < e) ∧ ∀ i ∈ sym, i ∉ anti

/-! ### helpers -/

theorem reconcile_iff (own : Option ℕ) (found n : ℕ) :
    reconcile own found = .ok n ↔ n = found ∧ Agrees own found :=
  ⟨reconcile_ok, fun ⟨h1, h2⟩ => by rw [h1]; exact reconcile_eq _ _ h2⟩

theorem takeFeatures_iff (own : Option ℕ) (X : List ℕ) (n : ℕ) :
    takeFeatures own X = .ok n ↔ X.head? = some n ∧ Agrees own n := by
  cases X with
  | nil => simp [takeFeatures]
  | cons f rest =>
    simp only [takeFeatures, reconcile_iff, List.head?_cons, Option.some.injEq]
    constructor
    · rintro ⟨rfl, h⟩; exact ⟨rfl, h⟩
    · rintro ⟨rfl, h⟩; exact ⟨rfl, h⟩

theorem takeLabels_iff (own : Option ℕ) (Y : List (List ℤ)) (n : ℕ) :
    takeLabels own Y = .ok n ↔ Y ≠ [] ∧ n = (occurring Y).card ∧ Agrees own (occurring Y).card := by
  unfold takeLabels
  by_cases hY : Y = []
  · simp [countLabels, hY]
  · rw [countLabels_ok hY]
    simp only [reconcile_iff, ne_eq, hY, not_false_eq_true, true_and]

theorem deriveWeights_ok {d d' : Derived} {n k : ℕ} (hs : d.size = some k)
    (h : deriveWeights d (some n) = .ok d') : d'.size = d.size ∧ WeightsFor n d.classWeight d'.classWeight := by
  unfold deriveWeights setClassWeight at h
  simp only [hs] at h
  cases hc : d.classWeight with
  | none =>
    simp only [hc, Except.ok.injEq] at h
    rw [← h]
    exact ⟨hs.symm, Or.inr ⟨rfl, _, rfl, rfl, fun _ => rfl⟩⟩
  | some c =>
    simp only [hc] at h
    by_cases hn : some n ≠ some c.size
    · rw [if_pos hn] at h; simp at h
    · rw [if_neg hn] at h
      simp only [Except.ok.injEq] at h
      rw [← h]
      push Not at hn
      simp only [Option.some.injEq] at hn
      exact ⟨hs.symm, Or.inl ⟨c, rfl, hn.symm, rfl⟩⟩

theorem deriveWeights_some {d : Derived} {n k : ℕ} (hs : d.size = some k)
    (hc : ∀ c, d.classWeight = some c → c.size = n) : ∃ d', deriveWeights d (some n) = .ok d' := by
  unfold deriveWeights setClassWeight
  simp only [hs]
  cases h : d.classWeight with
  | none => exact ⟨_, rfl⟩
  | some c =>
    simp only
    rw [if_neg (by simp [hc c h])]
    exact ⟨_, rfl⟩

theorem weightsFor_sizes {n : ℕ} {g r : Option Vec} (h : WeightsFor n g r) : ∀ c, g = some c → c.size = n := by
  rintro c rfl
  rcases h with ⟨c', h1, h2, _⟩ | ⟨h1, _⟩
  · simp only [Option.some.injEq] at h1; rw [h1]; exact h2
  · simp at h1

/-! ### EdgeFeatureGraphCRF -/

theorem checkModel_iff (s f e : ℕ) (sym anti : List ℕ) :
    EdgeFeature.checkModel ⟨s, f, e, sym, anti⟩ = .ok () ↔ GoodIndices e sym anti := by
  unfold EdgeFeature.checkModel GoodIndices
  simp only
  by_cases h1 : ∀ i ∈ sym ++ anti, i < e
  · rw [if_neg (not_not.mpr h1)]
    by_cases h2 : ∀ i ∈ sym, i ∉ anti
    · rw [if_neg (not_not.mpr h2)]
      exact ⟨fun _ => ⟨fun i hi => h1 i (List.mem_append_left _ hi), fun i hi => h1 i (List.mem_append_right _ hi), h2⟩,
        fun _ => rfl⟩
    · rw [if_pos h2]
      exact ⟨fun h => by simp at h, fun h => absurd h.2.2 h2⟩
  · rw [if_pos h1]
    refine ⟨fun h => by simp at h, fun h => absurd ?_ h1⟩
    intro i hi
    rcases List.mem_append.mp hi with hi | hi
    · exact h.1 i hi
    · exact h.2.1 i hi

/-- What `initialize` of an `EdgeFeatureGraphCRF` leaves behind on given data. -/
theorem efInitialize_ok {st st' : EFState} {X : List (ℕ × ℕ)} {Y : List (List ℤ)}
    (h : efInitialize st X Y = .ok st') :
    ∃ f e, X.head? = some (f, e) ∧ Y ≠ [] ∧ Agrees st.nFeatures f ∧ Agrees st.nEdgeFeatures e ∧
      Agrees st.nStates (occurring Y).card ∧ GoodIndices e st.sym st.anti ∧
      st'.nFeatures = some f ∧ st'.nEdgeFeatures = some e ∧ st'.nStates = some (occurring Y).card ∧
      st'.sym = st.sym ∧ st'.anti = st.anti ∧
      st'.derived.size = some (EdgeFeature.sizeJointFeature ⟨(occurring Y).card, f, e, st.sym, st.anti⟩) ∧
      WeightsFor (occurring Y).card st.derived.classWeight st'.derived.classWeight := by
  unfold efInitialize at h
  cases he : takeFeatures st.nEdgeFeatures (X.map Prod.snd) with
  | error err => rw [he] at h; simp at h
  | ok e =>
    rw [he] at h
    simp only [efBase] at h
    cases hf : takeFeatures st.nFeatures (X.map Prod.fst) with
    | error err => rw [hf] at h; simp at h
    | ok f =>
      rw [hf] at h
      simp only at h
      cases hs : takeLabels st.nStates Y with
      | error err => rw [hs] at h; simp at h
      | ok s =>
        rw [hs] at h
        simp only [efSetSize] at h
        rw [takeFeatures_iff] at he hf
        rw [takeLabels_iff] at hs
        obtain ⟨hY, rfl, hs⟩ := hs
        cases hc : EdgeFeature.checkModel ⟨0, 0, e, st.sym, st.anti⟩ with
        | error err => rw [hc] at h; simp at h
        | ok u =>
          rw [hc] at h
          simp only [efSize, efSetClassWeight] at h
          cases hd : deriveWeights { st.derived with
              size := some (EdgeFeature.sizeJointFeature ⟨(occurring Y).card, f, e, st.sym, st.anti⟩) }
              (some (occurring Y).card) with
          | error err => rw [hd] at h; simp at h
          | ok d =>
            rw [hd] at h
            simp only [Except.ok.injEq] at h
            obtain ⟨hsz, hw⟩ := deriveWeights_ok rfl hd
            refine ⟨f, e, ?_, hY, hf.2, he.2, hs, (checkModel_iff _ _ _ _ _).mp hc, ?_⟩
            · cases X with
              | nil => simp at hf
              | cons p rest =>
                have h1 := hf.1
                have h2 := he.1
                simp only [List.map_cons, List.head?_cons, Option.some.injEq] at h1 h2 ⊢
                exact Prod.ext h1 h2
            · rw [← h]
              exact ⟨rfl, rfl, rfl, rfl, rfl, hsz, hw⟩

/-- **C89** (`EdgeFeatureGraphCRF`): `initialize` succeeds exactly on data that agree with everything that was
given, and then the numbers of features, edge features and states are those of the data and
`size_joint_feature` is the one of the documented formula. -/
theorem C89_edge_feature (st : EFState) (X : List (ℕ × ℕ)) (Y : List (List ℤ)) :
    ((∃ st', efInitialize st X Y = .ok st') ↔
      ∃ f e, X.head? = some (f, e) ∧ Y ≠ [] ∧ Agrees st.nFeatures f ∧ Agrees st.nEdgeFeatures e ∧
        Agrees st.nStates (occurring Y).card ∧ GoodIndices e st.sym st.anti ∧
        ∀ c, st.derived.classWeight = some c → c.size = (occurring Y).card) ∧
    ∀ st', efInitialize st X Y = .ok st' →
      ∃ f e, X.head? = some (f, e) ∧ st'.nFeatures = some f ∧ st'.nEdgeFeatures = some e ∧
        st'.nStates = some (occurring Y).card ∧
        st'.derived.size = some ((occurring Y).card * f + e * (occurring Y).card ^ 2) ∧
        WeightsFor (occurring Y).card st.derived.classWeight st'.derived.classWeight := by
  refine ⟨⟨?_, ?_⟩, ?_⟩
  · rintro ⟨st', h⟩
    obtain ⟨f, e, h1, h2, h3, h4, h5, h6, _, _, _, _, _, _, h7⟩ := efInitialize_ok h
    exact ⟨f, e, h1, h2, h3, h4, h5, h6, weightsFor_sizes h7⟩
  · rintro ⟨f, e, hX, hY, hf, he, hs, hi, hc⟩
    have hXf : (X.map Prod.fst).head? = some f := by rw [List.head?_map, hX]; rfl
    have hXe : (X.map Prod.snd).head? = some e := by rw [List.head?_map, hX]; rfl
    unfold efInitialize
    rw [(takeFeatures_iff _ _ _).mpr ⟨hXe, he⟩]
    simp only [efBase]
    rw [(takeFeatures_iff _ _ _).mpr ⟨hXf, hf⟩]
    simp only
    rw [(takeLabels_iff _ _ _).mpr ⟨hY, rfl, hs⟩]
    simp only [efSetSize]
    rw [(checkModel_iff 0 0 e _ _).mpr hi]
    simp only [efSize, efSetClassWeight]
    obtain ⟨d, hd⟩ := deriveWeights_some (d := { st.derived with
      size := some (EdgeFeature.sizeJointFeature ⟨(occurring Y).card, f, e, st.sym, st.anti⟩) }) rfl hc
    rw [hd]
    exact ⟨_, rfl⟩
  · intro st' h
    obtain ⟨f, e, h1, _, _, _, _, _, h2, h3, h4, _, _, h5, h6⟩ := efInitialize_ok h
    exact ⟨f, e, h1, h2, h3, h4, h5, h6⟩

/-- **C89** (`EdgeFeatureGraphCRF`, features): after `initialize` every joint feature has exactly
`size_joint_feature` entries. -/
theorem C89_edge_feature_joint (st st' : EFState) (X : List (ℕ × ℕ)) (Y : List (List ℤ))
    (h : efInitialize st X Y = .ok st') (m : EdgeFeature.Model) (hs : st'.nStates = some m.nStates)
    (hf : st'.nFeatures = some m.nFeatures) (he : st'.nEdgeFeatures = some m.nEdgeFeatures)
    (x : EdgeFeature.X) (y : YVal) (ψ : Vec)
    (hψ : EdgeFeature.jointFeature EdgeFeature.checkSizeX m x y = .ok ψ) :
    st'.derived.size = some ψ.size := by
  obtain ⟨f, e, _, _, _, _, _, _, h2, h3, h4, h5, h6, h7, _⟩ := efInitialize_ok h
  rw [C22_edge_feature_size m x y ψ hψ, h7]
  rw [h2] at hf; rw [h3] at he; rw [h4] at hs
  simp only [Option.some.injEq] at hf he hs
  rw [hf, he, hs]
  rfl

/-- **C89** (`EdgeFeatureGraphCRF`, constructor): an index that is out of range for a given number of edge features
or declared both symmetric and antisymmetric is rejected at once. -/
theorem C89_edge_feature_construct (nStates nFeatures : Option ℕ) (e : ℕ) (cw : Option Vec) (sym anti : List ℕ)
    (h : ¬ GoodIndices e sym anti) : efConstruct nStates nFeatures (some e) cw sym anti = .error .valueError := by
  unfold efConstruct
  simp only [efSetSize]
  have hne : EdgeFeature.checkModel ⟨0, 0, e, sym, anti⟩ ≠ .ok () := fun hc => h ((checkModel_iff _ _ _ _ _).mp hc)
  have : EdgeFeature.checkModel ⟨0, 0, e, sym, anti⟩ = .error .valueError := by
    unfold EdgeFeature.checkModel at hne ⊢
    simp only at hne ⊢
    by_cases h1 : ∀ i ∈ sym ++ anti, i < e
    · rw [if_neg (not_not.mpr h1)] at hne ⊢
      by_cases h2 : ∀ i ∈ sym, i ∉ anti
      · rw [if_neg (not_not.mpr h2)] at hne
        exact absurd rfl hne
      · rw [if_pos h2]
    · rw [if_pos h1]
  rw [this]

/-! ### latent graphs and grids -/

/-- The number of hidden states per label, given as a number or as a list. -/
def PerLabel (l : ℕ) : LatentGraph.StatesSpec → List ℕ → Prop
  | .int k, n => n.length = l ∧ ∀ j ∈ n, j = k
  | .list given, n => given.length = l ∧ n = given

theorem statesPerLabel_iff (l : ℕ) (sp : LatentGraph.StatesSpec) (n : List ℕ) :
    LatentGraph.statesPerLabel l sp = .ok n ↔ PerLabel l sp n := by
  cases sp with
  | int k =>
    simp only [LatentGraph.statesPerLabel, Except.ok.injEq, PerLabel]
    rw [eq_comm, List.eq_replicate_iff]
  | list g =>
    simp only [LatentGraph.statesPerLabel, PerLabel]
    by_cases hg : g.length ≠ l
    · rw [if_pos hg]; simp [hg]
    · rw [if_neg hg]
      push Not at hg
      simp only [Except.ok.injEq, hg, true_and, eq_comm]

theorem lgInitialize_ok {st st' : LGState} {X : List ℕ} {Y : List (List ℤ)}
    (h : lgInitialize lgSetSize st X Y = .ok st') :
    ∃ f n, X.head? = some f ∧ Y ≠ [] ∧ Agrees st.nFeatures f ∧ Agrees st.nLabels (occurring Y).card ∧
      PerLabel (occurring Y).card st.perLabel n ∧
      st'.nFeatures = some f ∧ st'.nLabels = some (occurring Y).card ∧ st'.perLabel = .list n ∧
      st'.nStates = some n.sum ∧ st'.neighborhood = st.neighborhood ∧ st'.nEdgeFeatures = st.nEdgeFeatures ∧
      st'.derived.size = some (GraphCRF.sizeJointFeature ⟨n.sum, f, false⟩) ∧
      WeightsFor (occurring Y).card st.derived.classWeight st'.derived.classWeight := by
  unfold lgInitialize at h
  cases hf : takeFeatures st.nFeatures X with
  | error err => rw [hf] at h; simp at h
  | ok f =>
    rw [hf] at h
    simp only at h
    cases hs : takeLabels st.nLabels Y with
    | error err => rw [hs] at h; simp at h
    | ok s =>
      rw [hs] at h
      rw [takeFeatures_iff] at hf
      rw [takeLabels_iff] at hs
      obtain ⟨hY, rfl, hs⟩ := hs
      simp only [lgSetSize] at h
      cases hn : LatentGraph.statesPerLabel (occurring Y).card st.perLabel with
      | error err => rw [hn] at h; simp at h
      | ok n =>
        rw [hn] at h
        simp only [lgSetClassWeight] at h
        cases hd : deriveWeights { st.derived with size := some (GraphCRF.sizeJointFeature ⟨n.sum, f, false⟩) }
            (some (occurring Y).card) with
        | error err => rw [hd] at h; simp at h
        | ok d =>
          rw [hd] at h
          simp only [Except.ok.injEq] at h
          obtain ⟨hsz, hw⟩ := deriveWeights_ok rfl hd
          refine ⟨f, n, hf.1, hY, hf.2, hs, (statesPerLabel_iff _ _ _).mp hn, ?_⟩
          rw [← h]
          exact ⟨rfl, rfl, rfl, rfl, rfl, rfl, hsz, hw⟩

theorem perLabel_exists {l : ℕ} {sp : LatentGraph.StatesSpec}
    (h : ∀ g, sp = .list g → g.length = l) : ∃ n, PerLabel l sp n := by
  cases sp with
  | int k => exact ⟨List.replicate l k, List.length_replicate, fun j hj => List.eq_of_mem_replicate hj⟩
  | list g => exact ⟨g, h g rfl, rfl⟩

theorem lgInitialize_eq {st : LGState} {X : List ℕ} {Y : List (List ℤ)} {f : ℕ} {n : List ℕ} (hX : X.head? = some f)
    (hY : Y ≠ []) (hf : Agrees st.nFeatures f) (hs : Agrees st.nLabels (occurring Y).card)
    (hn : PerLabel (occurring Y).card st.perLabel n)
    (hc : ∀ c, st.derived.classWeight = some c → c.size = (occurring Y).card) :
    ∃ st', lgInitialize lgSetSize st X Y = .ok st' := by
  unfold lgInitialize
  rw [(takeFeatures_iff _ _ _).mpr ⟨hX, hf⟩]
  simp only
  rw [(takeLabels_iff _ _ _).mpr ⟨hY, rfl, hs⟩]
  simp only [lgSetSize]
  rw [(statesPerLabel_iff _ _ _).mpr hn]
  simp only [lgSetClassWeight]
  obtain ⟨d, hd⟩ := deriveWeights_some (d := { st.derived with
    size := some (GraphCRF.sizeJointFeature ⟨n.sum, f, false⟩) }) rfl hc
  rw [hd]
  exact ⟨_, rfl⟩

/-- **C89** (`LatentGraphCRF`, `LatentGridCRF`): `initialize` succeeds exactly on data that agree with everything
that was given; then there is one group of hidden states per label, of the requested size, and
`size_joint_feature` is that of a symmetric graph model over all hidden states. -/
theorem C89_latent_graph (st : LGState) (X : List ℕ) (Y : List (List ℤ)) :
    ((∃ st', lgInitialize lgSetSize st X Y = .ok st') ↔
      ∃ f, X.head? = some f ∧ Y ≠ [] ∧ Agrees st.nFeatures f ∧ Agrees st.nLabels (occurring Y).card ∧
        (∀ g, st.perLabel = .list g → g.length = (occurring Y).card) ∧
        ∀ c, st.derived.classWeight = some c → c.size = (occurring Y).card) ∧
    ∀ st', lgInitialize lgSetSize st X Y = .ok st' →
      ∃ f n, X.head? = some f ∧ st'.nFeatures = some f ∧ st'.nLabels = some (occurring Y).card ∧
        PerLabel (occurring Y).card st.perLabel n ∧ st'.perLabel = .list n ∧ st'.nStates = some n.sum ∧
        st'.derived.size = some (n.sum * f + n.sum * (n.sum + 1) / 2) ∧
        WeightsFor (occurring Y).card st.derived.classWeight st'.derived.classWeight := by
  refine ⟨⟨?_, ?_⟩, ?_⟩
  · rintro ⟨st', h⟩
    obtain ⟨f, n, h1, h2, h3, h4, h5, _, _, _, _, _, _, _, h6⟩ := lgInitialize_ok h
    refine ⟨f, h1, h2, h3, h4, fun g hg => ?_, weightsFor_sizes h6⟩
    rw [hg] at h5
    exact h5.1
  · rintro ⟨f, hX, hY, hf, hs, hp, hc⟩
    obtain ⟨n, hn⟩ := perLabel_exists hp
    exact lgInitialize_eq hX hY hf hs hn hc
  · intro st' h
    obtain ⟨f, n, h1, _, _, _, h5, h6, h7, h8, h9, _, _, h10, h11⟩ := lgInitialize_ok h
    refine ⟨f, n, h1, h6, h7, h5, h8, h9, ?_, h11⟩
    rw [h10]
    rfl

/-- **C89** (again): initialising a latent model a second time with the same data succeeds and keeps every size,
even though `n_states_per_label` has been replaced by a list in between. -/
theorem C89_latent_graph_twice (st st' : LGState) (X : List ℕ) (Y : List (List ℤ))
    (h : lgInitialize lgSetSize st X Y = .ok st') :
    ∃ st'', lgInitialize lgSetSize st' X Y = .ok st'' ∧ st''.nFeatures = st'.nFeatures ∧ st''.nLabels = st'.nLabels ∧
      st''.perLabel = st'.perLabel ∧ st''.nStates = st'.nStates ∧ st''.derived.size = st'.derived.size ∧
      st''.derived.classWeight = st'.derived.classWeight := by
  obtain ⟨f, n, h1, h2, _, _, h5, h6, h7, h8, h9, _, _, h10, h11⟩ := lgInitialize_ok h
  have hlen : n.length = (occurring Y).card := by
    cases hp : st.perLabel with
    | int k => rw [hp] at h5; exact h5.1
    | list g => rw [hp] at h5; rw [h5.2]; exact h5.1
  have hc : ∀ c, st'.derived.classWeight = some c → c.size = (occurring Y).card := by
    intro c hc
    rcases h11 with ⟨c', _, hs, hr⟩ | ⟨_, c', hr, hs, _⟩
    · rw [hr] at hc; simp only [Option.some.injEq] at hc; rw [← hc]; exact hs
    · rw [hr] at hc; simp only [Option.some.injEq] at hc; rw [← hc]; exact hs
  obtain ⟨st'', hst⟩ := lgInitialize_eq (st := st') h1 h2 (Or.inr h6) (Or.inr h7)
    (by rw [h8]; exact ⟨hlen, rfl⟩) hc
  obtain ⟨f', n', k1, _, _, _, k5, k6, k7, k8, k9, _, _, k10, k11⟩ := lgInitialize_ok hst
  rw [h1] at k1
  simp only [Option.some.injEq] at k1
  subst k1
  rw [h8] at k5
  have hn' : n' = n := k5.2
  subst hn'
  refine ⟨st'', hst, by rw [k6, h6], by rw [k7, h7], by rw [k8, h8], by rw [k9, h9], by rw [k10, h10], ?_⟩
  rcases k11 with ⟨c, hg, _, hr⟩ | ⟨hg, _⟩
  · rw [hr, hg]
  · rcases h11 with ⟨c', _, _, hr⟩ | ⟨_, c', hr, _, _⟩
    · rw [hr] at hg; simp at hg
    · rw [hr] at hg; simp at hg

/-- **C89 violated** (`LatentDirectionalGridCRF`): the argument `neighborhood` is lost. A model constructed for the
8-neighbourhood uses the 4-neighbourhood but reserves weights for four kinds of edges, so that every joint feature
it computes has a length other than `size_joint_feature`. -/
theorem C89_violated_latent_directional (l f : ℕ) (sp : LatentGraph.StatesSpec) (st : LGState)
    (h : ldConstruct (some l) (some f) sp 8 = .ok st) :
    st.neighborhood = 4 ∧ ∃ s, st.nStates = some s ∧ (0 < s → ∀ t x y ψ,
      EdgeFeature.directionalX st.neighborhood f t = .ok x →
      EdgeFeature.jointFeature EdgeFeature.checkFeatures (EdgeFeature.directionalModel s f 8) x y = .ok ψ →
      st.derived.size = some (EdgeFeature.sizeJointFeature (EdgeFeature.directionalModel s f 8)) ∧
      ψ.size < EdgeFeature.sizeJointFeature (EdgeFeature.directionalModel s f 8)) := by
  unfold ldConstruct gridConstructOn lgConstructOn lgBase at h
  simp only [ldSetSize, lgSetSize, lgFresh] at h
  cases hn : LatentGraph.statesPerLabel l sp with
  | error err => rw [hn] at h; simp at h
  | ok n =>
    rw [hn] at h
    have hlen : n.length = l := by
      have := (statesPerLabel_iff _ _ _).mp hn
      cases sp with
      | int k => exact this.1
      | list g => rw [this.2]; exact this.1
    simp only [efSize, lgSetClassWeight, deriveWeights, setClassWeight, LatentGraph.statesPerLabel, hlen,
      ne_eq, not_true_eq_false, if_false] at h
    simp only [Except.ok.injEq] at h
    rw [← h]
    refine ⟨rfl, n.sum, rfl, fun hpos t x y ψ hx hψ => ⟨rfl, ?_⟩⟩
    obtain ⟨_, hc2, _, _⟩ := directionalX_inv hx
    obtain ⟨_, _, U, P, rfl⟩ := jointFeature_inv (fun hc => checkFeatures_inv hc) hψ
    rw [hc2]
    have : 0 < n.sum ^ 2 := by positivity
    change n.sum * f + 2 * n.sum ^ 2 < n.sum * f + 4 * n.sum ^ 2
    omega

/-! ### latent nodes -/

theorem lnInitialize_ok {st st' : LNState} {X : List ℕ} {Y : List (List ℤ)}
    (h : lnInitialize st X Y = .ok st') :
    ∃ f, X.head? = some f ∧ Y ≠ [] ∧ Agrees st.nFeatures f ∧ Agrees st.nLabels (occurring Y).card ∧
      st'.nFeatures = some f ∧ st'.nLabels = some (occurring Y).card ∧
      st'.nStates = some (st.nHidden + (occurring Y).card) ∧ st'.nHidden = st.nHidden ∧
      st'.nInput = some (if st.latentFeatures then st.nHidden + (occurring Y).card else (occurring Y).card) ∧
      st'.derived.size = some (lnSize st.nEdgeFeatures
        (if st.latentFeatures then st.nHidden + (occurring Y).card else (occurring Y).card) f
        (st.nHidden + (occurring Y).card)) ∧
      WeightsFor (occurring Y).card st.derived.classWeight st'.derived.classWeight := by
  unfold lnInitialize at h
  cases hf : takeFeatures st.nFeatures X with
  | error err => rw [hf] at h; simp at h
  | ok f =>
    rw [hf] at h
    simp only at h
    cases hs : takeLabels st.nLabels Y with
    | error err => rw [hs] at h; simp at h
    | ok s =>
      rw [hs] at h
      rw [takeFeatures_iff] at hf
      rw [takeLabels_iff] at hs
      obtain ⟨hY, rfl, hs⟩ := hs
      simp only [lnSetSize] at h
      have hi : (if st.latentFeatures then some (st.nHidden + (occurring Y).card) else some (occurring Y).card) =
          some (if st.latentFeatures then st.nHidden + (occurring Y).card else (occurring Y).card) := by
        split_ifs <;> rfl
      rw [hi] at h
      simp only [lnSetClassWeight] at h
      cases hd : deriveWeights { st.derived with size := some (lnSize st.nEdgeFeatures
        (if st.latentFeatures then st.nHidden + (occurring Y).card else (occurring Y).card) f
        (st.nHidden + (occurring Y).card)) } (some (occurring Y).card) with
      | error err => rw [hd] at h; simp at h
      | ok d =>
        rw [hd] at h
        simp only [Except.ok.injEq] at h
        obtain ⟨hsz, hw⟩ := deriveWeights_ok rfl hd
        refine ⟨f, hf.1, hY, hf.2, hs, ?_⟩
        rw [← h]
        exact ⟨rfl, rfl, rfl, rfl, rfl, hsz, hw⟩

/-- **C89** (`LatentNodeCRF`): after `initialize` the sizes are those of the data, the hidden states come on top of
the labels, and `size_joint_feature` is that of an initialised model. -/
theorem C89_latent_node (st : LNState) (X : List ℕ) (Y : List (List ℤ)) :
    ((∃ st', lnInitialize st X Y = .ok st') ↔
      ∃ f, X.head? = some f ∧ Y ≠ [] ∧ Agrees st.nFeatures f ∧ Agrees st.nLabels (occurring Y).card ∧
        ∀ c, st.derived.classWeight = some c → c.size = (occurring Y).card) ∧
    ∀ st', lnInitialize st X Y = .ok st' →
      ∃ f, X.head? = some f ∧ st'.nFeatures = some f ∧ st'.nLabels = some (occurring Y).card ∧
        st'.nStates = some (st.nHidden + (occurring Y).card) ∧
        (st.nEdgeFeatures = none → st'.derived.size =
          some (LatentNode.sizeJointFeature ⟨(occurring Y).card, st.nHidden, f, st.latentFeatures⟩)) ∧
        (∀ e sym anti, st.nEdgeFeatures = some e → st'.derived.size =
          some (LatentNode.eSize ⟨⟨(occurring Y).card, st.nHidden, f, st.latentFeatures⟩, e, sym, anti⟩)) ∧
        WeightsFor (occurring Y).card st.derived.classWeight st'.derived.classWeight := by
  refine ⟨⟨?_, ?_⟩, ?_⟩
  · rintro ⟨st', h⟩
    obtain ⟨f, h1, h2, h3, h4, _, _, _, _, _, _, h5⟩ := lnInitialize_ok h
    exact ⟨f, h1, h2, h3, h4, weightsFor_sizes h5⟩
  · rintro ⟨f, hX, hY, hf, hs, hc⟩
    unfold lnInitialize
    rw [(takeFeatures_iff _ _ _).mpr ⟨hX, hf⟩]
    simp only
    rw [(takeLabels_iff _ _ _).mpr ⟨hY, rfl, hs⟩]
    simp only [lnSetSize]
    have hi : (if st.latentFeatures then some (st.nHidden + (occurring Y).card) else some (occurring Y).card) =
        some (if st.latentFeatures then st.nHidden + (occurring Y).card else (occurring Y).card) := by
      split_ifs <;> rfl
    rw [hi]
    simp only [lnSetClassWeight]
    obtain ⟨d, hd⟩ := deriveWeights_some (d := { st.derived with size := some (lnSize st.nEdgeFeatures
        (if st.latentFeatures then st.nHidden + (occurring Y).card else (occurring Y).card) f
        (st.nHidden + (occurring Y).card)) }) rfl hc
    rw [hd]
    exact ⟨_, rfl⟩
  · intro st' h
    obtain ⟨f, h1, _, _, _, h2, h3, h4, _, _, h6, h7⟩ := lnInitialize_ok h
    refine ⟨f, h1, h2, h3, h4, fun he => ?_, fun e sym anti he => ?_, h7⟩
    · rw [h6, he]
      rfl
    · rw [h6, he]
      rfl

/-- **C89 violated** (`EdgeFeatureLatentNodeCRF`, number of features): the documentation says that `n_features=None`
means `n_states`; it means `n_labels`, so data with `n_states` features per node are rejected as soon as there are
hidden states. -/
theorem C89_violated_edge_latent_features (l e hid : ℕ) (hh : 0 < hid) (cw : Option Vec) (lf : Bool) (st : LNState)
    (h : elnConstruct (some l) none e hid cw lf [] [] = .ok st) (rest : List ℕ) (Y : List (List ℤ)) :
    st.nStates = some (hid + l) ∧ lnInitialize st ((hid + l) :: rest) Y = .error .valueError := by
  have hst : st.nStates = some (hid + l) ∧ st.nFeatures = some l := by
    unfold elnConstruct at h
    simp only [List.not_mem_nil, false_implies, implies_true, not_true_eq_false, if_false, Option.getD_none,
      lnSetSize] at h
    have hi : (if lf then some (hid + l) else some l) = some (if lf then hid + l else l) := by split_ifs <;> rfl
    rw [hi] at h
    simp only [lnSetClassWeight] at h
    split at h
    · simp at h
    · simp only [Except.ok.injEq] at h
      rw [← h]
      exact ⟨rfl, rfl⟩
  refine ⟨hst.1, ?_⟩
  unfold lnInitialize
  simp only [takeFeatures, hst.2]
  rw [reconcile_bad _ _ (by omega)]

/-- **C89 violated** (`EdgeFeatureLatentNodeCRF`, indices): unlike in `EdgeFeatureGraphCRF`, indices of edge features
that do not exist are accepted; the model then cannot compute the joint feature of any labelling. -/
theorem C89_violated_edge_latent_indices (l f e hid : ℕ) (lf : Bool) :
    ¬ GoodIndices e [e] [] ∧
    (∃ st, elnConstruct (some l) (some f) e hid none lf [e] [] = .ok st) ∧
    ∀ x y ψ, LatentNode.eJointFeature ⟨⟨l, hid, f, lf⟩, e, [e], []⟩ x y ≠ .ok ψ := by
  refine ⟨fun h => absurd (h.1 e (by simp)) (lt_irrefl e), ?_, ?_⟩
  · unfold elnConstruct
    simp only [List.not_mem_nil, not_false_eq_true, implies_true, not_true_eq_false, if_false,
      lnSetSize, Option.getD_some]
    have hi : (if lf then some (hid + l) else some l) = some (if lf then hid + l else l) := by split_ifs <;> rfl
    rw [hi]
    exact ⟨_, rfl⟩
  · intro x y ψ h
    unfold LatentNode.eJointFeature at h
    obtain ⟨_, hc, h⟩ := bind_eq_ok.mp h
    obtain ⟨⟨U, P⟩, hm, h⟩ := bind_eq_ok.mp h
    obtain ⟨pw, hp, h⟩ := bind_eq_ok.mp h
    have hrows : pw.rows = e := by
      have hcols : x.edgeFeatures.cols = e := by
        unfold LatentNode.eCheckSizeX at hc
        split_ifs at hc with h1 h2 h3
        simpa using h3
      unfold Mat.mul at hp
      split_ifs at hp
      injection hp with hp
      rw [← hp]
      exact hcols
    rw [if_pos (by rw [hrows]; simp)] at h
    cases h

/-! ### unstructured models -/

/-- **C89** (`BinaryClf`): the size of the joint feature is the number of columns of `X`; other data than announced
are rejected. -/
theorem C89_binary (size : Option ℕ) (cols : ℕ) :
    (Agrees size cols → binInitialize size cols = .ok (some cols)) ∧
    (¬ Agrees size cols → binInitialize size cols = .error .valueError) := by
  constructor
  · intro h
    simp only [binInitialize, reconcile_eq _ _ h]
  · intro h
    cases size with
    | none => exact absurd (Or.inl rfl) h
    | some n =>
      simp only [binInitialize]
      rw [reconcile_bad _ _ (fun e => h (Or.inr (by rw [e])))]

/-- **C89** (`MultiClassClf`): `initialize` succeeds exactly on data that agree with everything that was given;
then there is one weight vector of the size of a sample for each class. -/
theorem C89_multiclass (st : MCState) (cols : ℕ) (Y : List (List ℤ)) :
    ((∃ st', mcInitialize st cols Y = .ok st') ↔
      Y ≠ [] ∧ Agrees st.nFeatures cols ∧ Agrees st.nStates (occurring Y).card ∧
        ∀ c, st.derived.classWeight = some c → c.size = (occurring Y).card) ∧
    ∀ st', mcInitialize st cols Y = .ok st' →
      st'.nFeatures = some cols ∧ st'.nStates = some (occurring Y).card ∧
        st'.derived.size = some ((occurring Y).card * cols) ∧
        WeightsFor (occurring Y).card st.derived.classWeight st'.derived.classWeight := by
  have key : ∀ st', mcInitialize st cols Y = .ok st' → Y ≠ [] ∧ Agrees st.nFeatures cols ∧
      Agrees st.nStates (occurring Y).card ∧ st'.nFeatures = some cols ∧ st'.nStates = some (occurring Y).card ∧
        st'.derived.size = some ((occurring Y).card * cols) ∧
        WeightsFor (occurring Y).card st.derived.classWeight st'.derived.classWeight := by
    intro st' h
    unfold mcInitialize at h
    cases hf : reconcile st.nFeatures cols with
    | error err => rw [hf] at h; simp at h
    | ok f =>
      rw [hf] at h
      simp only at h
      cases hs : takeLabels st.nStates Y with
      | error err => rw [hs] at h; simp at h
      | ok s =>
        rw [hs] at h
        rw [takeLabels_iff] at hs
        obtain ⟨hY, rfl, hs⟩ := hs
        obtain ⟨rfl, hf⟩ := (reconcile_iff _ _ _).mp hf
        simp only [mcSetSize, mcSetClassWeight] at h
        cases hd : deriveWeights { st.derived with size := some ((occurring Y).card * f) }
            (some (occurring Y).card) with
        | error err => rw [hd] at h; simp at h
        | ok d =>
          rw [hd] at h
          simp only [Except.ok.injEq] at h
          obtain ⟨hsz, hw⟩ := deriveWeights_ok rfl hd
          rw [← h]
          exact ⟨hY, hf, hs, rfl, rfl, hsz, hw⟩
  refine ⟨⟨?_, ?_⟩, fun st' h => (key st' h).2.2.2⟩
  · rintro ⟨st', h⟩
    obtain ⟨h1, h2, h3, _, _, _, h4⟩ := key st' h
    exact ⟨h1, h2, h3, weightsFor_sizes h4⟩
  · rintro ⟨hY, hf, hs, hc⟩
    unfold mcInitialize
    rw [reconcile_eq _ _ hf]
    simp only
    rw [(takeLabels_iff _ _ _).mpr ⟨hY, rfl, hs⟩]
    simp only [mcSetSize, mcSetClassWeight]
    obtain ⟨d, hd⟩ := deriveWeights_some (d := { st.derived with size := some ((occurring Y).card * cols) }) rfl hc
    rw [hd]
    exact ⟨_, rfl⟩

/-! ### examples -/

/-- Two samples with three features and two edge features, labels 0 and 1, one symmetric feature. -/
example : ∃ st st', efConstruct none none none none [1] [] = .ok st ∧
    efInitialize st [(3, 2), (3, 2)] [[0, 1], [1]] = .ok st' ∧ st'.derived.size = some 14 := by
  refine ⟨⟨none, none, none, [1], [], none, none, none⟩, ?_⟩
  have h := (C89_edge_feature ⟨none, none, none, [1], [], none, none, none⟩ [(3, 2), (3, 2)] [[0, 1], [1]])
  obtain ⟨st', hst⟩ := h.1.mpr ⟨3, 2, rfl, by simp, Or.inl rfl, Or.inl rfl, Or.inl rfl,
    ⟨by simp, by simp, by simp⟩, by simp⟩
  obtain ⟨f, e, hX, _, _, _, hsz, _⟩ := h.2 _ hst
  simp only [List.head?_cons, Option.some.injEq, Prod.mk.injEq] at hX
  refine ⟨st', rfl, hst, ?_⟩
  rw [hsz, ← hX.1, ← hX.2]
  decide

/-- Latent states 2 and 3 for the two labels. -/
example : ∃ st st', lgConstruct none none (.list [2, 3]) = .ok st ∧
    lgInitialize lgSetSize st [1, 1] [[0, 1], [1]] = .ok st' ∧ st'.nStates = some 5 := by
  refine ⟨⟨none, none, .list [2, 3], none, 4, none, none, none, none⟩, ?_⟩
  have h := (C89_latent_graph ⟨none, none, .list [2, 3], none, 4, none, none, none, none⟩ [1, 1] [[0, 1], [1]])
  obtain ⟨st', hst⟩ := h.1.mpr ⟨1, rfl, by simp, Or.inl rfl, Or.inl rfl,
    (by intro g hg; injection hg with hg; rw [← hg]; decide), by simp⟩
  obtain ⟨f, n, _, _, _, hp, _, hn, _⟩ := h.2 _ hst
  refine ⟨st', rfl, hst, ?_⟩
  rw [hn, hp.2]
  rfl

/-- An 8-neighbourhood latent grid can be constructed. -/
example : ∃ st, ldConstruct (some 2) (some 1) (.int 2) 8 = .ok st ∧ st.nStates = some 4 := ⟨_, rfl, rfl⟩

/-- Agreement of given numbers with the data. -/
example : Agrees (some 2) 2 ∧ Agrees none 3 ∧ ¬ Agrees (some 2) 3 :=
  ⟨Or.inr rfl, Or.inl rfl, by rintro (h | h) <;> simp at h⟩

end Verif.Props
