import Verif.Props.C62

/-!
# C62 for MultiLabelClf: construction and initialisation from data
-/

namespace Verif.Props

open Verif.Common Verif.Init

/-- what a successful `initialize` does. -/
theorem mlInitialize_ok {st st' : MLState} {xCols yCols : ℕ} (h : mlInitialize st xCols yCols = .ok st') :
    (st.nFeatures = none ∨ st.nFeatures = some xCols) ∧ (st.nLabels = none ∨ st.nLabels = some yCols) ∧
    st'.nFeatures = some xCols ∧ st'.nLabels = some yCols ∧ st'.edges = some (st.edges.getD []) ∧
    st'.sizeJointFeature = some (MultiLabel.sizeJointFeature ⟨yCols, xCols, st.edges.getD []⟩) ∧
    ∃ c, st'.classWeight = some c ∧ c.size = yCols ∧ (st.classWeight = none → ∀ k, c.get k = 1) := by
  unfold mlInitialize at h
  cases hf : reconcile st.nFeatures xCols with
  | error err => rw [hf] at h; cases h
  | ok nf =>
    rw [hf] at h
    simp only at h
    cases hl : reconcile st.nLabels yCols with
    | error err => rw [hl] at h; cases h
    | ok nl =>
      rw [hl] at h
      simp only [mlSetSize, mlSetClassWeight, setClassWeight] at h
      obtain ⟨rfl, h1⟩ := reconcile_ok hf
      obtain ⟨rfl, h2⟩ := reconcile_ok hl
      refine ⟨h1, h2, ?_⟩
      cases hc : st.classWeight with
      | none =>
        rw [hc] at h
        simp only [Except.ok.injEq] at h
        subst h
        exact ⟨rfl, rfl, rfl, rfl, _, rfl, rfl, fun _ _ => rfl⟩
      | some c =>
        rw [hc] at h
        simp only at h
        by_cases hs : some nl ≠ some c.size
        · rw [if_pos hs] at h; cases h
        · rw [if_neg hs] at h
          simp only [Except.ok.injEq] at h
          subst h
          push Not at hs
          simp only [Option.some.injEq] at hs
          exact ⟨rfl, rfl, rfl, rfl, c, rfl, hs.symm, fun h => by simp at h⟩

/-- **C62** (`MultiLabelClf`, sizes): if `initialize` accepts `X` with `xCols` columns and `Y` with `yCols` columns,
the model has `xCols` features and `yCols` labels, one class weight per label, and the size of the joint feature is
that of a model with these sizes and edges; nothing that was given at construction has changed. -/
theorem C62_multilabel_sizes (nLabels nFeatures : Option ℕ) (edges : Option Edges) (st st' : MLState) (xCols yCols : ℕ)
    (hc : mlConstruct nLabels nFeatures edges = .ok st) (h : mlInitialize st xCols yCols = .ok st') :
    (nFeatures = none ∨ nFeatures = some xCols) ∧ (nLabels = none ∨ nLabels = some yCols) ∧
    st'.nFeatures = some xCols ∧ st'.nLabels = some yCols ∧ st'.edges = some (edges.getD []) ∧
    st'.sizeJointFeature = some (xCols * yCols + 4 * (edges.getD []).length) ∧
    ∃ c, st'.classWeight = some c ∧ c.size = yCols ∧ ∀ k, c.get k = 1 := by
  have hst : st.nFeatures = nFeatures ∧ st.nLabels = nLabels ∧ st.edges.getD [] = edges.getD [] ∧
      (st.classWeight = none ∨ ∃ c, st.classWeight = some c ∧ ∀ k, c.get k = 1) := by
    unfold mlConstruct mlSetSize at hc
    cases nFeatures with
    | none =>
      simp only [mlSetClassWeight, setClassWeight, Except.ok.injEq] at hc
      subst hc
      exact ⟨rfl, rfl, rfl, .inl rfl⟩
    | some f =>
      cases nLabels with
      | none => cases hc
      | some l =>
        simp only [mlSetClassWeight, setClassWeight, Except.ok.injEq] at hc
        subst hc
        exact ⟨rfl, rfl, rfl, .inr ⟨_, rfl, fun _ => rfl⟩⟩
  obtain ⟨e1, e2, e3, e4⟩ := hst
  obtain ⟨h1, h2, h3, h4, h5, h6, c, h7, h8, h9⟩ := mlInitialize_ok h
  rw [e1] at h1
  rw [e2] at h2
  rw [e3] at h5 h6
  refine ⟨h1, h2, h3, h4, h5, h6, c, h7, h8, ?_⟩
  rcases e4 with e4 | ⟨c', e4, e5⟩
  · exact h9 e4
  · have : st'.classWeight = st.classWeight := by
      unfold mlInitialize at h
      cases hf : reconcile st.nFeatures xCols with
      | error err => rw [hf] at h; cases h
      | ok nf =>
        rw [hf] at h
        simp only at h
        cases hl : reconcile st.nLabels yCols with
        | error err => rw [hl] at h; cases h
        | ok nl =>
          rw [hl] at h
          simp only [mlSetSize, mlSetClassWeight, setClassWeight] at h
          rw [e4] at h
          simp only at h
          split_ifs at h
          simp only [Except.ok.injEq] at h
          subst h
          exact e4.symm
    rw [this, e4, Option.some.injEq] at h7
    subst h7
    exact e5

/-- **C62** (`MultiLabelClf`, acceptance): construction fails exactly if the number of features is given without the
number of labels (`TypeError`); after a successful construction, `initialize` accepts exactly the data that agree
with what was given, and raises `ValueError` for all other data. -/
theorem C62_multilabel_accepts (nLabels nFeatures : Option ℕ) (edges : Option Edges) (xCols yCols : ℕ) :
    (mlConstruct nLabels nFeatures edges = .error .typeError ∧ nFeatures ≠ none ∧ nLabels = none) ∨
    ∃ st, mlConstruct nLabels nFeatures edges = .ok st ∧ (nFeatures = none ∨ nLabels ≠ none) ∧
      (if (nFeatures = none ∨ nFeatures = some xCols) ∧ (nLabels = none ∨ nLabels = some yCols) then
        ∃ st', mlInitialize st xCols yCols = .ok st'
      else mlInitialize st xCols yCols = .error .valueError) := by
  cases nFeatures with
  | none =>
    refine .inr ⟨_, rfl, .inl rfl, ?_⟩
    cases nLabels with
    | none =>
      rw [if_pos ⟨.inl rfl, .inl rfl⟩]
      exact ⟨_, rfl⟩
    | some l =>
      by_cases h : l = yCols
      · subst h
        rw [if_pos ⟨.inl rfl, .inr rfl⟩]
        simp only [mlInitialize, reconcile, ne_eq, not_true, if_false]
        exact ⟨_, rfl⟩
      · rw [if_neg (by simp [h])]
        simp [mlInitialize, reconcile, h]
  | some f =>
    cases nLabels with
    | none => exact .inl ⟨rfl, by simp, rfl⟩
    | some l =>
      refine .inr ⟨_, rfl, .inr (by simp), ?_⟩
      by_cases h1 : f = xCols
      · by_cases h2 : l = yCols
        · subst h1 h2
          rw [if_pos ⟨.inr rfl, .inr rfl⟩]
          simp only [mlInitialize, reconcile, ne_eq, not_true, if_false, mlSetSize, mlSetClassWeight, setClassWeight,
            Option.getD_some]
          exact ⟨_, rfl⟩
        · rw [if_neg (by simp [h2])]
          simp [mlInitialize, reconcile, h1, h2]
      · rw [if_neg (by simp [h1])]
        simp [mlInitialize, reconcile, h1]

/-- Construction without sizes and initialisation with three features and two labels joined by an edge. -/
example : ∃ st st', mlConstruct none none (some [(0, 1)]) = .ok st ∧ mlInitialize st 3 2 = .ok st' ∧
    st'.sizeJointFeature = some 10 := ⟨_, _, rfl, rfl, rfl⟩

end Verif.Props
