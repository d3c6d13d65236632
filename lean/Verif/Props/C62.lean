import Verif.Model.Init
import Verif.Props.C24
import Mathlib.Data.Finset.Card
import Mathlib.Data.Int.Interval
import Mathlib.Order.Interval.Finset.Nat

/-!
# C62: sizes inferred from data; C63: class weights
-/

namespace Verif.Props

open Finset Verif.Common Verif.Init

/-! ### specification -/

/-- The labels that occur in the training data. -/
def occurring (Y : List (List ℤ)) : Finset ℤ := Y.flatten.toFinset

/-- The labels that occur are `0, …, k - 1` for some `k`. -/
def Gapless (Y : List (List ℤ)) : Prop :=
  (∀ l ∈ occurring Y, 0 ≤ l) ∧ ∀ l ∈ occurring Y, ∀ l', 0 ≤ l' → l' < l → l' ∈ occurring Y

theorem countLabels_ok {Y : List (List ℤ)} (h : Y ≠ []) : countLabels Y = .ok (occurring Y).card := by
  unfold countLabels occurring
  rw [if_neg h, List.card_toFinset]

theorem reconcile_ok {own : Option ℕ} {found n : ℕ} (h : reconcile own found = .ok n) :
    n = found ∧ (own = none ∨ own = some found) := by
  unfold reconcile at h
  cases own with
  | none => simp only [Except.ok.injEq] at h; exact ⟨h.symm, Or.inl rfl⟩
  | some m =>
    simp only at h
    by_cases hm : m ≠ found
    · rw [if_pos hm] at h; simp at h
    · rw [if_neg hm] at h
      simp only [Except.ok.injEq] at h
      push Not at hm
      exact ⟨by omega, Or.inr (by rw [hm])⟩

theorem reconcile_eq (own : Option ℕ) (found : ℕ) (h : own = none ∨ own = some found) :
    reconcile own found = .ok found := by
  rcases h with rfl | rfl
  · rfl
  · simp [reconcile]

theorem reconcile_bad (n found : ℕ) (h : n ≠ found) : reconcile (some n) found = .error .valueError := by
  simp [reconcile, h]

theorem setClassWeight_ok {st st' : State} {t : Option ℕ} (h : setClassWeight st t = .ok st') :
    st'.nStates = st.nStates ∧ st'.nFeatures = st.nFeatures ∧ st'.directed = st.directed ∧
      st'.sizeJointFeature = st.sizeJointFeature := by
  unfold setClassWeight at h
  split at h
  · simp only [Except.ok.injEq] at h; subst h; exact ⟨rfl, rfl, rfl, rfl⟩
  · split at h
    · split_ifs at h
      simp only [Except.ok.injEq] at h; subst h; exact ⟨rfl, rfl, rfl, rfl⟩
    · simp only [Except.ok.injEq] at h; subst h; exact ⟨rfl, rfl, rfl, rfl⟩

/-- The result of a successful `initialize`. -/
theorem initialize_ok {st st' : State} {X : List ℕ} {Y : List (List ℤ)} (h : initializeCRF st X Y = .ok st') :
    ∃ f rest, X = f :: rest ∧ Y ≠ [] ∧ (st.nFeatures = none ∨ st.nFeatures = some f) ∧
      (st.nStates = none ∨ st.nStates = some (occurring Y).card) ∧
      setClassWeight (setSize { st with nFeatures := some f, nStates := some (occurring Y).card })
        (some (occurring Y).card) = .ok st' := by
  unfold initializeCRF at h
  cases X with
  | nil => simp at h
  | cons f rest =>
    simp only at h
    cases hf : reconcile st.nFeatures f with
    | error err => rw [hf] at h; simp at h
    | ok nf =>
      rw [hf] at h
      simp only at h
      by_cases hY : Y = []
      · rw [countLabels, if_pos hY] at h; simp at h
      · rw [countLabels_ok hY] at h
        simp only at h
        cases hs : reconcile st.nStates (occurring Y).card with
        | error err => rw [hs] at h; simp at h
        | ok ns =>
          rw [hs] at h
          simp only at h
          obtain ⟨rfl, h1⟩ := reconcile_ok hf
          obtain ⟨rfl, h2⟩ := reconcile_ok hs
          exact ⟨nf, rest, rfl, hY, h1, h2, h⟩

/-- **C62** (sizes): after `initialize` the number of features is that of the first sample, the number of states
is the number of different labels, both agree with what had been given, and the size of the joint feature is
the one of a model with these sizes. -/
theorem C62_sizes (st st' : State) (X : List ℕ) (Y : List (List ℤ)) (h : initializeCRF st X Y = .ok st') :
    st'.nFeatures = X.head? ∧ st'.nStates = some (occurring Y).card ∧
    (∀ n, st.nFeatures = some n → st'.nFeatures = some n) ∧ (∀ n, st.nStates = some n → st'.nStates = some n) ∧
    ∃ f, st'.nFeatures = some f ∧
      st'.sizeJointFeature = some (GraphCRF.sizeJointFeature ⟨(occurring Y).card, f, st.directed⟩) := by
  obtain ⟨f, rest, rfl, _, h1, h2, h3⟩ := initialize_ok h
  obtain ⟨ha, hb, _, hd⟩ := setClassWeight_ok h3
  simp only [setSize] at ha hb hd
  refine ⟨by rw [hb]; rfl, ha, fun n hn => ?_, fun n hn => ?_, f, hb, hd⟩
  · rcases h1 with h1 | h1
    · rw [hn] at h1; simp at h1
    · rw [hb, ← h1, hn]
  · rcases h2 with h2 | h2
    · rw [hn] at h2; simp at h2
    · rw [ha, ← h2, hn]

/-- **C62** (rejection): data that contradict a given number of features or states raise `ValueError`. -/
theorem C62_rejects (st : State) (f : ℕ) (rest : List ℕ) (Y : List (List ℤ)) (hY : Y ≠ [])
    (h : (∃ n, st.nFeatures = some n ∧ n ≠ f) ∨ ∃ n, st.nStates = some n ∧ n ≠ (occurring Y).card) :
    initializeCRF st (f :: rest) Y = .error .valueError := by
  unfold initializeCRF
  simp only
  by_cases hf : st.nFeatures = none ∨ st.nFeatures = some f
  · rw [reconcile_eq _ _ hf]
    simp only
    rw [countLabels_ok hY]
    simp only
    rcases h with ⟨n, hn, hne⟩ | ⟨n, hn, hne⟩
    · rcases hf with hf | hf
      · rw [hn] at hf; simp at hf
      · rw [hn] at hf; simp only [Option.some.injEq] at hf; exact absurd hf hne
    · rw [hn, reconcile_bad _ _ hne]
  · push Not at hf
    obtain ⟨hf1, hf2⟩ := hf
    cases hn : st.nFeatures with
    | none => exact absurd hn hf1
    | some n => rw [reconcile_bad n f (fun e => hf2 (by rw [hn, e]))]

theorem gapless_iff (Y : List (List ℤ)) :
    Gapless Y ↔ ∀ l ∈ occurring Y, 0 ≤ l ∧ l < (occurring Y).card := by
  constructor
  · rintro ⟨h0, hd⟩ l hl
    refine ⟨h0 l hl, ?_⟩
    have hsub : (Finset.Icc 0 l) ⊆ occurring Y := by
      intro z hz
      rw [Finset.mem_Icc] at hz
      rcases eq_or_lt_of_le hz.2 with h | h
      · rw [h]; exact hl
      · exact hd l hl z hz.1 h
    have := Finset.card_le_card hsub
    rw [Int.card_Icc] at this
    have := h0 l hl
    omega
  · intro h
    refine ⟨fun l hl => (h l hl).1, fun l hl l' h0 hlt => ?_⟩
    by_contra hne
    have hsub : occurring Y ⊆ (Finset.Ico 0 ((occurring Y).card : ℤ)).erase l' := by
      intro z hz
      rw [Finset.mem_erase, Finset.mem_Ico]
      exact ⟨fun e => hne (e ▸ hz), h z hz⟩
    have h1 := Finset.card_le_card hsub
    have hmem : l' ∈ Finset.Ico 0 ((occurring Y).card : ℤ) := by
      rw [Finset.mem_Ico]
      exact ⟨h0, lt_trans hlt (h l hl).2⟩
    rw [Finset.card_erase_of_mem hmem, Int.card_Ico] at h1
    have := (h l hl).2
    omega

/-- **C62** (labels, the part that holds): after `initialize` all training labels are valid states if and only if
the labels that occur have no gaps. -/
theorem C62_labels_valid_partial (st st' : State) (X : List ℕ) (Y : List (List ℤ))
    (h : initializeCRF st X Y = .ok st') :
    (∃ n, st'.nStates = some n ∧ ∀ y ∈ Y, ∀ l ∈ y, 0 ≤ l ∧ l < n) ↔ Gapless Y := by
  have hs := (C62_sizes st st' X Y h).2.1
  rw [gapless_iff]
  constructor
  · rintro ⟨n, hn, hl⟩ l hmem
    rw [hs] at hn
    simp only [Option.some.injEq] at hn
    unfold occurring at hmem
    rw [List.mem_toFinset, List.mem_flatten] at hmem
    obtain ⟨y, hy, hly⟩ := hmem
    rw [hn]
    exact hl y hy l hly
  · intro hl
    refine ⟨_, hs, fun y hy l hly => hl l ?_⟩
    unfold occurring
    rw [List.mem_toFinset, List.mem_flatten]
    exact ⟨y, hy, hly⟩

/-- **C62** (success): data that agree with what was given are accepted, unless class weights of another length
were given. -/
theorem C62_accepts (nStates nFeatures : Option ℕ) (directed : Bool) (f : ℕ) (rest : List ℕ) (Y : List (List ℤ))
    (hY : Y ≠ []) (h1 : nFeatures = none ∨ nFeatures = some f)
    (h2 : nStates = none ∨ nStates = some (occurring Y).card) :
    ∃ st st', construct nStates nFeatures none directed = .ok st ∧ initializeCRF st (f :: rest) Y = .ok st' ∧
      ∃ c, st'.classWeight = some c ∧ c.size = (occurring Y).card ∧ ∀ k, c.get k = 1 := by
  have hc : ∃ st, construct nStates nFeatures none directed = .ok st ∧ st.nStates = nStates ∧
      st.nFeatures = nFeatures ∧ (st.classWeight = none ∨
        ∃ c, st.classWeight = some c ∧ c.size = (occurring Y).card ∧ ∀ k, c.get k = 1) := by
    cases nFeatures with
    | none => exact ⟨_, rfl, rfl, rfl, Or.inl rfl⟩
    | some a =>
      cases nStates with
      | none => exact ⟨_, rfl, rfl, rfl, Or.inl rfl⟩
      | some b =>
        refine ⟨_, rfl, rfl, rfl, Or.inr ⟨_, rfl, ?_, fun _ => rfl⟩⟩
        rcases h2 with h2 | h2
        · simp at h2
        · simp only [Option.some.injEq] at h2; exact h2
  obtain ⟨st, hst, hs, hf, hw⟩ := hc
  have hi : initializeCRF st (f :: rest) Y = setClassWeight (setSize { st with
      nFeatures := some f, nStates := some (occurring Y).card }) (some (occurring Y).card) := by
    unfold initializeCRF
    simp only
    rw [reconcile_eq _ _ (by rw [hf]; exact h1)]
    simp only
    rw [countLabels_ok hY]
    simp only
    rw [reconcile_eq _ _ (by rw [hs]; exact h2)]
    rfl
  rw [setSize] at hi
  simp only [setClassWeight] at hi
  rcases hw with hw | ⟨c, hw, hcs, hc1⟩
  · rw [hw] at hi
    exact ⟨st, _, hst, hi, _, rfl, rfl, fun _ => rfl⟩
  · rw [hw] at hi
    simp only at hi
    rw [if_neg (by rw [hcs]; simp)] at hi
    exact ⟨st, _, hst, hi, c, rfl, hcs, hc1⟩

/-- **C62 violated**: labels 0 and 2 are accepted, with two states, and the joint feature of that very sample
raises `IndexError`. -/
theorem C62_violated_gap : ∃ st st' m x y, construct none none none true = .ok st ∧
    initializeCRF st [1] [[0, 2]] = .ok st' ∧ st'.nStates = some m.nStates ∧ st'.nFeatures = some m.nFeatures ∧
    y.size = 2 ∧ y.get 0 = 0 ∧ y.get 1 = 2 ∧
    (GraphCRF.jointFeature m x (.discrete y)).toOption.isNone ∧ x.features.cols = m.nFeatures ∧ x.features.rows = 2 := by
  refine ⟨_, _, ⟨2, 1, true⟩, ⟨⟨2, 1, fun _ _ => 1⟩, []⟩, ⟨2, fun i => 2 * i⟩, rfl, rfl, ?_, rfl, rfl, rfl, rfl, ?_, rfl, rfl⟩
  · decide +kernel
  · decide +kernel

/-- **C62 violated**: only the first sample is looked at; other samples may have other numbers of features. -/
theorem C62_violated_first_only (st : State) (f : ℕ) (rest rest' : List ℕ) (Y : List (List ℤ)) :
    initializeCRF st (f :: rest) Y = initializeCRF st (f :: rest') Y := rfl

/-- Gapless labels. -/
example : Gapless [[0, 1], [2, 0]] ∧ ¬ Gapless [[0, 2]] := by
  constructor
  · rw [gapless_iff]; decide
  · rw [gapless_iff]; decide

/-! ### C63 -/

/-- **C63** (default): without class weights all states weigh 1, hence the loss is the Hamming loss. -/
theorem C63_default_hamming (st st' : State) (hn : st.classWeight = none) (s n : ℕ) (hs : st.sizeJointFeature = some s)
    (h : setClassWeight st (some n) = .ok st') (y yhat : Labels) (hsz : y.size = yhat.size)
    (hy : ∀ i < y.size, y.get i < n) :
    Loss.loss st'.classWeight y yhat = Loss.loss none y yhat := by
  unfold setClassWeight at h
  rw [hs, hn] at h
  simp only [Except.ok.injEq] at h
  subst h
  unfold Loss.loss
  rw [if_neg (by simp [hsz]), if_neg (by simp [hsz])]
  simp only [Option.getD_some]
  rw [if_pos hy]
  simp

/-- **C63** (rejection): given weights of wrong length raise `ValueError`, at construction if the sizes are known
and otherwise when the model is initialised. -/
theorem C63_wrong_length (nStates nFeatures : Option ℕ) (c : Vec) (directed : Bool) (X : List ℕ) (Y : List (List ℤ))
    (hc : ∀ n, nStates = some n → n ≠ c.size) (hY : (occurring Y).card ≠ c.size) (st : State)
    (hst : construct nStates nFeatures (some c) directed = .ok st) :
    ∃ err, initializeCRF st X Y = .error err := by
  cases h : initializeCRF st X Y with
  | error err => exact ⟨err, rfl⟩
  | ok st' =>
    exfalso
    obtain ⟨f, rest, rfl, _, _, _, h3⟩ := initialize_ok h
    have hw : st.classWeight = some c := by
      unfold construct setSize setClassWeight at hst
      cases nFeatures with
      | none =>
        simp only [Except.ok.injEq] at hst
        rw [← hst]
      | some a =>
        cases nStates with
        | none =>
          simp only [Except.ok.injEq] at hst
          rw [← hst]
        | some b =>
          simp only at hst
          rw [if_pos (by simp [hc b rfl])] at hst
          simp at hst
    simp only [setSize, setClassWeight, hw] at h3
    rw [if_pos (by simp [hY])] at h3
    simp at h3

/-- **C63** (rejection at construction). -/
theorem C63_wrong_length_construct (nStates nFeatures : ℕ) (c : Vec) (directed : Bool) (hc : nStates ≠ c.size) :
    construct (some nStates) (some nFeatures) (some c) directed = .error .valueError := by
  simp [construct, setSize, setClassWeight, hc]

/-- **C63** (twice): setting up the weights again keeps them, so the loss stays the same. -/
theorem C63_twice (st st' : State) (n : ℕ) (hs : st.sizeJointFeature.isSome) (h : setClassWeight st (some n) = .ok st') :
    ∃ st'', setClassWeight st' (some n) = .ok st'' ∧ st''.classWeight = st'.classWeight := by
  obtain ⟨s, hs⟩ := Option.isSome_iff_exists.mp hs
  unfold setClassWeight at h
  rw [hs] at h
  simp only at h
  cases hw : st.classWeight with
  | some c =>
    rw [hw] at h
    simp only at h
    split_ifs at h with hc
    simp only [Except.ok.injEq] at h
    subst h
    simp only [setClassWeight, hs, hw]
    rw [if_neg hc]
    exact ⟨_, rfl, rfl⟩
  | none =>
    rw [hw] at h
    simp only [Except.ok.injEq] at h
    subst h
    simp only [setClassWeight, hs]
    rw [if_neg (by simp)]
    exact ⟨_, rfl, rfl⟩

/-- **C63 violated** (flag): the second call forgets that the weights are uniform. -/
theorem C63_violated_uniform (nStates nFeatures : ℕ) (directed : Bool) :
    ∃ st st', construct (some nStates) (some nFeatures) none directed = .ok st ∧ st.uniform = some true ∧
      setClassWeight st (some nStates) = .ok st' ∧ st'.uniform = some false := by
  have h : ∃ st, construct (some nStates) (some nFeatures) none directed = .ok st ∧ st.uniform = some true ∧
      st.sizeJointFeature.isSome ∧ st.classWeight = some ⟨nStates, fun _ => 1⟩ := ⟨_, rfl, rfl, rfl, rfl⟩
  obtain ⟨st, h1, h2, h3, h4⟩ := h
  obtain ⟨s, hs⟩ := Option.isSome_iff_exists.mp h3
  refine ⟨st, { st with uniform := some false }, h1, h2, ?_, rfl⟩
  unfold setClassWeight
  rw [hs]
  simp only
  rw [h4]
  simp

/-- **C63** (multi-label, the part that holds): with at least two labels every binary labelling has a weight of 1
for each of its labels. -/
theorem C63_multilabel_partial (nFeatures nLabels : ℕ) (edges : Option Edges) (h : 2 ≤ nLabels) (st : MLState)
    (hst : mlConstruct (some nLabels) (some nFeatures) edges = .ok st) (y yhat : Labels)
    (hsz : y.size = yhat.size) (hy : ∀ i < y.size, y.get i < 2) :
    Loss.loss st.classWeight y yhat = Loss.loss none y yhat := by
  have hw : st.classWeight = some ⟨nLabels, fun _ => 1⟩ := by
    simp only [mlConstruct, mlSetSize, mlSetClassWeight, setClassWeight, Except.ok.injEq] at hst
    rw [← hst]
    rfl
  rw [hw]
  unfold Loss.loss
  rw [if_neg (by simp [hsz]), if_neg (by simp [hsz])]
  simp only
  rw [if_pos (fun i hi => by have := hy i hi; omega)]
  simp

/-- **C63 violated** (multi-label): with a single label the weights have length 1, and the loss of a sample whose
label is present raises `IndexError`. -/
theorem C63_violated_single_label (nFeatures : ℕ) (edges : Option Edges) : ∃ st,
    mlConstruct (some 1) (some nFeatures) edges = .ok st ∧
    ∀ yhat : Labels, yhat.size = 1 → Loss.loss st.classWeight ⟨1, fun _ => 1⟩ yhat = .error .indexError := by
  refine ⟨_, rfl, fun yhat hy => ?_⟩
  unfold Loss.loss
  simp only
  rw [if_neg (by simp [hy])]
  simp

/-- **C63 violated** (multi-label): giving the number of features but not the number of labels raises
`TypeError`. -/
theorem C63_violated_ml_construct (nFeatures : ℕ) (edges : Option Edges) :
    mlConstruct none (some nFeatures) edges = .error .typeError := rfl

/-- The hypotheses of `C63_wrong_length` can be met: three weights for two labels. -/
example : ∃ st, construct none none (some ⟨3, fun _ => 2⟩) false = .ok st ∧ (occurring [[0, 1]]).card ≠ 3 :=
  ⟨_, rfl, by decide⟩

end Verif.Props
