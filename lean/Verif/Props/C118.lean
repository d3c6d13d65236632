import Verif.Props.C89

/-!
# C118: what the constructors of the model classes store, and that sizes may be left to `initialize`

A model constructed with some or all of its sizes given, and one constructed without them, are the same after `initialize` on
data that have these sizes, but for the attribute `uniform_class_weight`.
-/

namespace Verif.Props

open Verif.Common Verif.Init

/-! ### class weights -/

/-- the class weights in use: the given ones, or ones -/
def weightsOr (n : ℕ) (w : Option Vec) : Vec := w.getD ⟨n, fun _ => 1⟩

/-- the attributes without `uniform_class_weight` -/
def stripDerived (d : Derived) : Derived := { d with uniform := none }

theorem deriveWeights_strip (k n : ℕ) (w : Option Vec) (u : Option Bool) :
    (deriveWeights ⟨some k, w, u⟩ (some n)).map stripDerived =
      if (weightsOr n w).size = n then .ok ⟨some k, some (weightsOr n w), none⟩ else .error .valueError := by
  unfold deriveWeights setClassWeight weightsOr
  cases w with
  | none => simp [stripDerived, Except.map]
  | some c =>
    simp only [Option.getD_some]
    by_cases h : c.size = n
    · rw [if_pos h, if_neg (by rw [h]; simp)]; rfl
    · rw [if_neg h, if_pos (by rw [ne_eq, Option.some.injEq]; exact fun e => h e.symm)]; rfl

theorem deriveWeights_none (w : Option Vec) (u : Option Bool) (t : Option ℕ) :
    deriveWeights ⟨none, w, u⟩ t = .ok ⟨none, w, u⟩ := rfl

/-- what construction does to the class weights: nothing, or ones for a known number of classes -/
def Filled (own : Option ℕ) (w w' : Option Vec) : Prop :=
  w' = w ∨ w = none ∧ ∃ n, own = some n ∧ w' = some ⟨n, fun _ => 1⟩

theorem Filled.weightsOr {own : Option ℕ} {w w' : Option Vec} {n : ℕ} (h : Filled own w w') (ha : Agrees own n) :
    weightsOr n w' = weightsOr n w := by
  rcases h with rfl | ⟨rfl, m, hm, rfl⟩
  · rfl
  · rcases ha with ha | ha
    · rw [hm] at ha; cases ha
    · rw [hm] at ha; cases ha; rfl

theorem deriveWeights_filled {d d' : Derived} {own : Option ℕ} (hown : d.size = none ∨ ∃ n, own = some n)
    (h : deriveWeights d own = .ok d') : Filled own d.classWeight d'.classWeight ∧ d'.size = d.size := by
  obtain ⟨s, w, u⟩ := d
  cases s with
  | none => rw [deriveWeights_none] at h; cases h; exact ⟨.inl rfl, rfl⟩
  | some k =>
    obtain ⟨n, rfl⟩ := hown.resolve_left (by simp)
    unfold deriveWeights setClassWeight at h
    cases w with
    | none => simp only at h; cases h; exact ⟨.inr ⟨rfl, n, rfl, rfl⟩, rfl⟩
    | some c =>
      simp only at h
      by_cases hc : some n ≠ some c.size
      · rw [if_pos hc] at h; cases h
      · rw [if_neg hc] at h; cases h; exact ⟨.inl rfl, rfl⟩

/-! ### EdgeFeatureGraphCRF -/

/-- without `uniform_class_weight` -/
def efStrip (st : EFState) : EFState := { st with derived := stripDerived st.derived }

/-- The attributes of an `EdgeFeatureGraphCRF` after construction: the given sizes, and the size of the joint feature if all
are given. -/
theorem C118_construct_edge_feature (s f e : Option ℕ) (w : Option Vec) (sym anti : List ℕ) (st : EFState)
    (h : efConstruct s f e w sym anti = .ok st) :
    st.nStates = s ∧ st.nFeatures = f ∧ st.nEdgeFeatures = e ∧ st.sym = sym ∧ st.anti = anti ∧
      Filled s w st.derived.classWeight ∧
      ((∃ s' f' e', s = some s' ∧ f = some f' ∧ e = some e' ∧ st.derived.size = some (s' * f' + e' * s' ^ 2)) ∨
        (s = none ∨ f = none ∨ e = none) ∧ st.derived.size = none) := by
  unfold efConstruct at h
  have key : ∀ st0, efSetSize ⟨s, f, e, sym, anti, none, w, none⟩ = .ok st0 →
      st0 = efSize ⟨s, f, e, sym, anti, none, w, none⟩ := by
    intro st0 h0
    unfold efSetSize at h0
    simp only at h0
    cases e with
    | none => simp only at h0; cases h0; rfl
    | some e =>
      simp only at h0
      split at h0
      · cases h0
      · cases h0; rfl
  cases h0 : efSetSize ⟨s, f, e, sym, anti, none, w, none⟩ with
  | error err => rw [h0] at h; cases h
  | ok st0 =>
    rw [h0] at h
    simp only at h
    have e0 := key st0 h0
    unfold efSetClassWeight at h
    split at h
    · cases h
    · rename_i d hd
      cases h
      subst e0
      unfold efSize at hd ⊢
      cases s with
      | none =>
        simp only at hd
        obtain ⟨h1, h2⟩ := deriveWeights_filled (.inl rfl) hd
        exact ⟨rfl, rfl, rfl, rfl, rfl, h1, .inr ⟨.inl rfl, h2⟩⟩
      | some s =>
        cases f with
        | none =>
          simp only at hd
          obtain ⟨h1, h2⟩ := deriveWeights_filled (.inl rfl) hd
          exact ⟨rfl, rfl, rfl, rfl, rfl, h1, .inr ⟨.inr (.inl rfl), h2⟩⟩
        | some f =>
          cases e with
          | none =>
            simp only at hd
            obtain ⟨h1, h2⟩ := deriveWeights_filled (.inl rfl) hd
            exact ⟨rfl, rfl, rfl, rfl, rfl, h1, .inr ⟨.inr (.inr rfl), h2⟩⟩
          | some e =>
            simp only at hd
            obtain ⟨h1, h2⟩ := deriveWeights_filled (.inr ⟨s, rfl⟩) hd
            exact ⟨rfl, rfl, rfl, rfl, rfl, h1, .inl ⟨s, f, e, rfl, rfl, rfl, h2⟩⟩

theorem efInitialize_strip (st : EFState) (X : List (ℕ × ℕ)) (Y : List (List ℤ)) (f e : ℕ) (hX : X.head? = some (f, e))
    (hf : Agrees st.nFeatures f) (he : Agrees st.nEdgeFeatures e) (hs : Agrees st.nStates (occurring Y).card) :
    (efInitialize st X Y).map efStrip =
      if Y = [] then .error .valueError
      else match EdgeFeature.checkModel ⟨0, 0, e, st.sym, st.anti⟩ with
        | .error err => .error err
        | .ok _ =>
          if (weightsOr (occurring Y).card st.derived.classWeight).size = (occurring Y).card then
            .ok ⟨some (occurring Y).card, some f, some e, st.sym, st.anti,
              some ((occurring Y).card * f + e * (occurring Y).card ^ 2),
              some (weightsOr (occurring Y).card st.derived.classWeight), none⟩
          else .error .valueError := by
  have hXf : (X.map Prod.fst).head? = some f := by rw [List.head?_map, hX]; rfl
  have hXe : (X.map Prod.snd).head? = some e := by rw [List.head?_map, hX]; rfl
  unfold efInitialize
  rw [(takeFeatures_iff _ _ _).mpr ⟨hXe, he⟩]
  simp only
  unfold efBase
  simp only
  rw [(takeFeatures_iff _ _ _).mpr ⟨hXf, hf⟩]
  simp only
  by_cases hY : Y = []
  · rw [if_pos hY, hY]; rfl
  · rw [if_neg hY, (takeLabels_iff _ _ _).mpr ⟨hY, rfl, hs⟩]
    simp only
    unfold efSetSize
    simp only
    cases hc : EdgeFeature.checkModel ⟨0, 0, e, st.sym, st.anti⟩ with
    | error err => rfl
    | ok _ =>
      simp only
      unfold efSetClassWeight efSize
      simp only
      have h := deriveWeights_strip (EdgeFeature.sizeJointFeature ⟨(occurring Y).card, f, e, st.sym, st.anti⟩)
        (occurring Y).card st.derived.classWeight st.derived.uniform
      generalize deriveWeights _ _ = r at h ⊢
      by_cases hw : (weightsOr (occurring Y).card st.derived.classWeight).size = (occurring Y).card
      · rw [if_pos hw] at h ⊢
        cases r with
        | error err => cases h
        | ok d =>
          simp only [Except.map, Except.ok.injEq] at h ⊢
          unfold efStrip
          simp only [h]
          rfl
      · rw [if_neg hw] at h ⊢
        cases r with
        | error err => cases h; rfl
        | ok d => cases h

/-- An `EdgeFeatureGraphCRF` constructed with any of its sizes, and one constructed with none, are the same after
`initialize` on data with these sizes. -/
theorem C118_lazy_edge_feature (s f e : Option ℕ) (w : Option Vec) (sym anti : List ℕ) (st st' : EFState)
    (h : efConstruct s f e w sym anti = .ok st) (h' : efConstruct none none none w sym anti = .ok st')
    (X : List (ℕ × ℕ)) (Y : List (List ℤ)) (f' e' : ℕ) (hX : X.head? = some (f', e')) (hf : Agrees f f')
    (he : Agrees e e') (hs : Agrees s (occurring Y).card) :
    (efInitialize st X Y).map efStrip = (efInitialize st' X Y).map efStrip := by
  obtain ⟨h1, h2, h3, h4, h5, h6, _⟩ := C118_construct_edge_feature s f e w sym anti st h
  obtain ⟨g1, g2, g3, g4, g5, g6, _⟩ := C118_construct_edge_feature none none none w sym anti st' h'
  rw [efInitialize_strip st X Y f' e' hX (h2 ▸ hf) (h3 ▸ he) (h1 ▸ hs),
    efInitialize_strip st' X Y f' e' hX (.inl g2) (.inl g3) (.inl g1), h4, h5, g4, g5, h6.weightsOr hs,
    g6.weightsOr (.inl rfl)]

/-! ### LatentGraphCRF -/

/-- without `uniform_class_weight` -/
def lgStrip (st : LGState) : LGState := { st with derived := stripDerived st.derived }

/-- The attributes of a `LatentGraphCRF` after construction. The number of states is known if the number of labels and of
features are. -/
theorem C118_construct_latent_graph (l f : Option ℕ) (p : LatentGraph.StatesSpec) (st : LGState)
    (h : lgConstruct l f p = .ok st) :
    st.nLabels = l ∧ st.nFeatures = f ∧ Filled l none st.derived.classWeight ∧
      ((∃ l' f' n, l = some l' ∧ f = some f' ∧ LatentGraph.statesPerLabel l' p = .ok n ∧ st.perLabel = .list n ∧
          st.nStates = some n.sum ∧ st.derived.size = some (n.sum * f' + n.sum * (n.sum + 1) / 2)) ∨
        (l = none ∨ f = none) ∧ st.perLabel = p ∧ st.nStates = none ∧ st.derived.size = none) := by
  unfold lgConstruct lgConstructOn lgBase lgSetSize at h
  simp only [lgFresh] at h
  cases f with
  | none =>
    simp only at h
    unfold lgSetClassWeight at h
    simp only [deriveWeights_none] at h
    cases h
    exact ⟨rfl, rfl, .inl rfl, .inr ⟨.inr rfl, rfl, rfl, rfl⟩⟩
  | some f =>
    cases l with
    | none =>
      simp only at h
      unfold lgSetClassWeight at h
      simp only [deriveWeights_none] at h
      cases h
      exact ⟨rfl, rfl, .inl rfl, .inr ⟨.inl rfl, rfl, rfl, rfl⟩⟩
    | some l =>
      simp only at h
      cases hn : LatentGraph.statesPerLabel l p with
      | error err => rw [hn] at h; cases h
      | ok n =>
        rw [hn] at h
        simp only at h
        unfold lgSetClassWeight at h
        split at h
        · cases h
        · rename_i d hd
          cases h
          obtain ⟨h1, h2⟩ := deriveWeights_filled (.inr ⟨l, rfl⟩) hd
          exact ⟨rfl, rfl, h1, .inl ⟨l, f, n, rfl, rfl, hn, rfl, rfl, h2⟩⟩

/-- The list of numbers of states is itself a specification of them. -/
theorem statesPerLabel_again {l : ℕ} {p : LatentGraph.StatesSpec} {n : List ℕ}
    (h : LatentGraph.statesPerLabel l p = .ok n) : LatentGraph.statesPerLabel l (.list n) = .ok n := by
  cases p with
  | int k =>
    unfold LatentGraph.statesPerLabel at h
    cases h
    exact if_neg (by simp)
  | list g =>
    unfold LatentGraph.statesPerLabel at h ⊢
    simp only at h
    by_cases hg : g.length ≠ l
    · rw [if_pos hg] at h; cases h
    · rw [if_neg hg] at h; cases h; exact if_neg hg

theorem lgInitialize_strip (st : LGState) (X : List ℕ) (Y : List (List ℤ)) (f : ℕ) (hX : X.head? = some f)
    (hf : Agrees st.nFeatures f) (hl : Agrees st.nLabels (occurring Y).card) :
    (lgInitialize lgSetSize st X Y).map lgStrip =
      if Y = [] then .error .valueError
      else match LatentGraph.statesPerLabel (occurring Y).card st.perLabel with
        | .error err => .error err
        | .ok n =>
          if (weightsOr (occurring Y).card st.derived.classWeight).size = (occurring Y).card then
            .ok ⟨some (occurring Y).card, some f, .list n, some n.sum, st.neighborhood, st.nEdgeFeatures,
              some (n.sum * f + n.sum * (n.sum + 1) / 2), some (weightsOr (occurring Y).card st.derived.classWeight), none⟩
          else .error .valueError := by
  unfold lgInitialize
  rw [(takeFeatures_iff _ _ _).mpr ⟨hX, hf⟩]
  simp only
  by_cases hY : Y = []
  · rw [if_pos hY, hY]; rfl
  · rw [if_neg hY, (takeLabels_iff _ _ _).mpr ⟨hY, rfl, hl⟩]
    simp only
    unfold lgSetSize
    simp only
    cases hn : LatentGraph.statesPerLabel (occurring Y).card st.perLabel with
    | error err => rfl
    | ok n =>
      simp only
      unfold lgSetClassWeight
      simp only
      have h := deriveWeights_strip (GraphCRF.sizeJointFeature ⟨n.sum, f, false⟩)
        (occurring Y).card st.derived.classWeight st.derived.uniform
      generalize deriveWeights _ _ = r at h ⊢
      by_cases hw : (weightsOr (occurring Y).card st.derived.classWeight).size = (occurring Y).card
      · rw [if_pos hw] at h ⊢
        cases r with
        | error err => cases h
        | ok d =>
          simp only [Except.map, Except.ok.injEq] at h ⊢
          unfold lgStrip
          simp only [h]
          rfl
      · rw [if_neg hw] at h ⊢
        cases r with
        | error err => cases h; rfl
        | ok d => cases h

/-- A `LatentGraphCRF` constructed with any of its sizes, and one constructed with none, are the same after `initialize` on
data with these sizes. -/
theorem C118_lazy_latent_graph (l f : Option ℕ) (p : LatentGraph.StatesSpec) (st st' : LGState)
    (h : lgConstruct l f p = .ok st) (h' : lgConstruct none none p = .ok st')
    (X : List ℕ) (Y : List (List ℤ)) (f' : ℕ) (hX : X.head? = some f') (hf : Agrees f f')
    (hl : Agrees l (occurring Y).card) :
    (lgInitialize lgSetSize st X Y).map lgStrip = (lgInitialize lgSetSize st' X Y).map lgStrip := by
  obtain ⟨h1, h2, h3, h4⟩ := C118_construct_latent_graph l f p st h
  obtain ⟨g1, g2, g3, g4⟩ := C118_construct_latent_graph none none p st' h'
  have gp : st'.perLabel = p := by
    rcases g4 with ⟨_, _, _, h, _⟩ | ⟨_, h, _⟩
    · cases h
    · exact h
  have hrest : st.neighborhood = 4 ∧ st.nEdgeFeatures = none := by
    unfold lgConstruct lgConstructOn lgBase at h
    cases hs : lgSetSize { { lgFresh with nLabels := l, perLabel := p } with
        nStates := none, nFeatures := f, derived := ⟨none, none, none⟩ } with
    | error err => rw [show lgFresh.derived.size = none from rfl, show lgFresh.derived.uniform = none from rfl, hs] at h; cases h
    | ok s0 =>
      rw [show lgFresh.derived.size = none from rfl, show lgFresh.derived.uniform = none from rfl, hs] at h
      simp only at h
      have e0 : s0.neighborhood = 4 ∧ s0.nEdgeFeatures = none := by
        unfold lgSetSize at hs
        simp only at hs
        split at hs
        · split at hs
          · cases hs
          · cases hs; exact ⟨rfl, rfl⟩
        · cases hs; exact ⟨rfl, rfl⟩
      unfold lgSetClassWeight at h
      split at h
      · cases h
      · cases h; exact e0
  have hrest' : st'.neighborhood = 4 ∧ st'.nEdgeFeatures = none := by
    unfold lgConstruct lgConstructOn lgBase lgSetSize lgSetClassWeight at h'
    simp only [lgFresh, deriveWeights_none] at h'
    cases h'; exact ⟨rfl, rfl⟩
  rw [lgInitialize_strip st X Y f' hX (h2 ▸ hf) (h1 ▸ hl), lgInitialize_strip st' X Y f' hX (.inl g2) (.inl g1), gp,
    h3.weightsOr hl, g3.weightsOr (.inl rfl), hrest.1, hrest.2, hrest'.1, hrest'.2]
  rcases h4 with ⟨l', f'', n, rfl, rfl, hn, hp, _⟩ | ⟨_, hp, _⟩
  · have e1 : l' = (occurring Y).card := by
      rcases hl with hl | hl
      · cases hl
      · cases hl; rfl
    rw [hp, ← e1, hn, statesPerLabel_again hn]
  · rw [hp]

/-! ### LatentNodeCRF -/

/-- without `uniform_class_weight` -/
def lnStrip (st : LNState) : LNState := { st with derived := stripDerived st.derived }

/-- The attributes of a `LatentNodeCRF` after construction: hidden states count as states. -/
theorem C118_construct_latent_node (l f : Option ℕ) (hid : ℕ) (w : Option Vec) (lf : Bool) (st : LNState)
    (h : lnConstruct l f hid w lf = .ok st) :
    st.nLabels = l ∧ st.nFeatures = f ∧ st.nHidden = hid ∧ st.latentFeatures = lf ∧ st.nEdgeFeatures = none ∧
      Filled l w st.derived.classWeight ∧
      ((∃ l', l = some l' ∧ st.nStates = some (hid + l') ∧ ((∃ f', f = some f' ∧
          st.nInput = some (if lf then hid + l' else l') ∧ st.derived.size =
            some ((if lf then hid + l' else l') * f' + (hid + l') * (hid + l' + 1) / 2)) ∨
          f = none ∧ st.nInput = none ∧ st.derived.size = none)) ∨
        l = none ∧ st.nStates = none ∧ st.nInput = none ∧ st.derived.size = none) := by
  unfold lnConstruct lnSetSize at h
  simp only at h
  cases l with
  | none =>
    simp only [Option.map_none] at h
    unfold lnSetClassWeight at h
    simp only [deriveWeights_none] at h
    cases h
    exact ⟨rfl, rfl, rfl, rfl, rfl, .inl rfl, .inr ⟨rfl, rfl, rfl, rfl⟩⟩
  | some l =>
    simp only [Option.map_some] at h
    cases f with
    | none =>
      simp only at h
      unfold lnSetClassWeight at h
      simp only [deriveWeights_none] at h
      cases h
      exact ⟨rfl, rfl, rfl, rfl, rfl, .inl rfl, .inl ⟨l, rfl, rfl, .inr ⟨rfl, rfl, rfl⟩⟩⟩
    | some f =>
      have hi : (if lf then some (hid + l) else some l) = some (if lf then hid + l else l) := by split_ifs <;> rfl
      simp only [hi] at h
      unfold lnSetClassWeight at h
      split at h
      · cases h
      · rename_i d hd
        cases h
        obtain ⟨h1, h2⟩ := deriveWeights_filled (.inr ⟨l, rfl⟩) hd
        exact ⟨rfl, rfl, rfl, rfl, rfl, h1, .inl ⟨l, rfl, rfl, .inl ⟨f, rfl, rfl, h2⟩⟩⟩

theorem lnInitialize_strip (st : LNState) (he : st.nEdgeFeatures = none) (X : List ℕ) (Y : List (List ℤ)) (f : ℕ)
    (hX : X.head? = some f) (hf : Agrees st.nFeatures f) (hl : Agrees st.nLabels (occurring Y).card) :
    (lnInitialize st X Y).map lnStrip =
      if Y = [] then .error .valueError
      else if (weightsOr (occurring Y).card st.derived.classWeight).size = (occurring Y).card then
        .ok ⟨some (occurring Y).card, some f, st.nHidden, some (st.nHidden + (occurring Y).card), st.latentFeatures, none,
          some (if st.latentFeatures then st.nHidden + (occurring Y).card else (occurring Y).card),
          some ((if st.latentFeatures then st.nHidden + (occurring Y).card else (occurring Y).card) * f +
            (st.nHidden + (occurring Y).card) * (st.nHidden + (occurring Y).card + 1) / 2),
          some (weightsOr (occurring Y).card st.derived.classWeight), none⟩
      else .error .valueError := by
  unfold lnInitialize
  rw [(takeFeatures_iff _ _ _).mpr ⟨hX, hf⟩]
  simp only
  by_cases hY : Y = []
  · rw [if_pos hY, hY]; rfl
  · rw [if_neg hY, (takeLabels_iff _ _ _).mpr ⟨hY, rfl, hl⟩]
    simp only
    unfold lnSetSize
    have hi : (if st.latentFeatures then some (st.nHidden + (occurring Y).card) else some (occurring Y).card) =
      some (if st.latentFeatures then st.nHidden + (occurring Y).card else (occurring Y).card) := by split_ifs <;> rfl
    simp only [hi, he]
    unfold lnSetClassWeight
    simp only
    have h := deriveWeights_strip (lnSize none (if st.latentFeatures then st.nHidden + (occurring Y).card
      else (occurring Y).card) f (st.nHidden + (occurring Y).card)) (occurring Y).card st.derived.classWeight st.derived.uniform
    generalize deriveWeights _ _ = r at h ⊢
    by_cases hw : (weightsOr (occurring Y).card st.derived.classWeight).size = (occurring Y).card
    · rw [if_pos hw] at h ⊢
      cases r with
      | error err => cases h
      | ok d =>
        simp only [Except.map, Except.ok.injEq] at h ⊢
        unfold lnStrip
        simp only [h]
        rfl
    · rw [if_neg hw] at h ⊢
      cases r with
      | error err => cases h; rfl
      | ok d => cases h

/-- A `LatentNodeCRF` constructed with any of its sizes, and one constructed with none, are the same after `initialize` on
data with these sizes. -/
theorem C118_lazy_latent_node (l f : Option ℕ) (hid : ℕ) (w : Option Vec) (lf : Bool) (st st' : LNState)
    (h : lnConstruct l f hid w lf = .ok st) (h' : lnConstruct none none hid w lf = .ok st')
    (X : List ℕ) (Y : List (List ℤ)) (f' : ℕ) (hX : X.head? = some f') (hf : Agrees f f')
    (hl : Agrees l (occurring Y).card) :
    (lnInitialize st X Y).map lnStrip = (lnInitialize st' X Y).map lnStrip := by
  obtain ⟨h1, h2, h3, h4, h5, h6, _⟩ := C118_construct_latent_node l f hid w lf st h
  obtain ⟨g1, g2, g3, g4, g5, g6, _⟩ := C118_construct_latent_node none none hid w lf st' h'
  rw [lnInitialize_strip st h5 X Y f' hX (h2 ▸ hf) (h1 ▸ hl), lnInitialize_strip st' g5 X Y f' hX (.inl g2) (.inl g1),
    h3, h4, g3, g4, h6.weightsOr hl, g6.weightsOr (.inl rfl)]

/-! ### MultiClassClf -/

/-- without `uniform_class_weight` -/
def mcStrip (st : MCState) : MCState := { st with derived := stripDerived st.derived }

/-- The attributes of a `MultiClassClf` after construction. -/
theorem C118_construct_multiclass (f s : Option ℕ) (w : Option Vec) (st : MCState) (h : mcConstruct f s w = .ok st) :
    st.nStates = s ∧ st.nFeatures = f ∧ Filled s w st.derived.classWeight ∧
      ((∃ s' f', s = some s' ∧ f = some f' ∧ st.derived.size = some (s' * f')) ∨
        (s = none ∨ f = none) ∧ st.derived.size = none) := by
  unfold mcConstruct mcSetClassWeight mcSetSize at h
  cases s with
  | none =>
    simp only [deriveWeights_none] at h
    cases h
    exact ⟨rfl, rfl, .inl rfl, .inr ⟨.inl rfl, rfl⟩⟩
  | some s =>
    cases f with
    | none =>
      simp only [deriveWeights_none] at h
      cases h
      exact ⟨rfl, rfl, .inl rfl, .inr ⟨.inr rfl, rfl⟩⟩
    | some f =>
      simp only at h
      split at h
      · cases h
      · rename_i d hd
        cases h
        obtain ⟨h1, h2⟩ := deriveWeights_filled (.inr ⟨s, rfl⟩) hd
        exact ⟨rfl, rfl, h1, .inl ⟨s, f, rfl, rfl, h2⟩⟩

theorem mcInitialize_strip (st : MCState) (cols : ℕ) (Y : List (List ℤ))
    (hf : Agrees st.nFeatures cols) (hs : Agrees st.nStates (occurring Y).card) :
    (mcInitialize st cols Y).map mcStrip =
      if Y = [] then .error .valueError
      else if (weightsOr (occurring Y).card st.derived.classWeight).size = (occurring Y).card then
        .ok ⟨some (occurring Y).card, some cols, some ((occurring Y).card * cols),
          some (weightsOr (occurring Y).card st.derived.classWeight), none⟩
      else .error .valueError := by
  unfold mcInitialize
  rw [reconcile_eq _ _ hf]
  simp only
  by_cases hY : Y = []
  · rw [if_pos hY, hY]; rfl
  · rw [if_neg hY, (takeLabels_iff _ _ _).mpr ⟨hY, rfl, hs⟩]
    simp only
    unfold mcSetSize mcSetClassWeight
    simp only
    have h := deriveWeights_strip ((occurring Y).card * cols) (occurring Y).card st.derived.classWeight st.derived.uniform
    generalize deriveWeights _ _ = r at h ⊢
    by_cases hw : (weightsOr (occurring Y).card st.derived.classWeight).size = (occurring Y).card
    · rw [if_pos hw] at h ⊢
      cases r with
      | error err => cases h
      | ok d =>
        simp only [Except.map, Except.ok.injEq] at h ⊢
        unfold mcStrip
        simp only [h]
    · rw [if_neg hw] at h ⊢
      cases r with
      | error err => cases h; rfl
      | ok d => cases h

/-- A `MultiClassClf` constructed with any of its sizes, and one constructed with none, are the same after `initialize` on
data with these sizes. -/
theorem C118_lazy_multiclass (f s : Option ℕ) (w : Option Vec) (st st' : MCState)
    (h : mcConstruct f s w = .ok st) (h' : mcConstruct none none w = .ok st')
    (cols : ℕ) (Y : List (List ℤ)) (hf : Agrees f cols) (hs : Agrees s (occurring Y).card) :
    (mcInitialize st cols Y).map mcStrip = (mcInitialize st' cols Y).map mcStrip := by
  obtain ⟨h1, h2, h3, _⟩ := C118_construct_multiclass f s w st h
  obtain ⟨g1, g2, g3, _⟩ := C118_construct_multiclass none none w st' h'
  rw [mcInitialize_strip st cols Y (h2 ▸ hf) (h1 ▸ hs), mcInitialize_strip st' cols Y (.inl g2) (.inl g1),
    h3.weightsOr hs, g3.weightsOr (.inl rfl)]

/-- **C118 violated** for `uniform_class_weight`: without class weights, and with the sizes given, the model forgets in
`initialize` that its class weights are uniform. -/
theorem C118_violated_uniform : ∃ st st' r r', mcConstruct (some 3) (some 2) none = .ok st ∧
    mcConstruct none none none = .ok st' ∧ mcInitialize st 3 [[0, 1]] = .ok r ∧ mcInitialize st' 3 [[0, 1]] = .ok r' ∧
    r.derived.uniform = some false ∧ r'.derived.uniform = some true := by
  refine ⟨_, _, _, _, rfl, rfl, rfl, rfl, rfl, rfl⟩

/-! ### the hypotheses are met -/

example : ∃ st st', efConstruct (some 2) none (some 1) none [0] [] = .ok st ∧ efConstruct none none none none [0] [] = .ok st' ∧
    [(3, 1)].head? = some (3, 1) ∧ Agrees none 3 ∧ Agrees (some 1) 1 ∧ Agrees (some 2) (occurring [[0, 1], [1]]).card :=
  ⟨_, _, rfl, rfl, rfl, .inl rfl, .inr rfl, .inr rfl⟩

example : ∃ st st', lgConstruct (some 2) (some 3) (.list [1, 2]) = .ok st ∧ lgConstruct none none (.list [1, 2]) = .ok st' ∧
    Agrees (some 3) 3 ∧ Agrees (some 2) (occurring [[0, 1], [1]]).card :=
  ⟨_, _, rfl, rfl, .inr rfl, .inr rfl⟩

example : ∃ st st', lnConstruct (some 2) (some 3) 1 none true = .ok st ∧ lnConstruct none none 1 none true = .ok st' ∧
    Agrees (some 3) 3 ∧ Agrees (some 2) (occurring [[0, 1], [1]]).card :=
  ⟨_, _, rfl, rfl, .inr rfl, .inr rfl⟩

example : ∃ st st', mcConstruct (some 3) (some 2) none = .ok st ∧ mcConstruct none none none = .ok st' ∧
    Agrees (some 3) 3 ∧ Agrees (some 2) (occurring [[0, 1]]).card :=
  ⟨_, _, rfl, rfl, .inr rfl, .inr rfl⟩

end Verif.Props
