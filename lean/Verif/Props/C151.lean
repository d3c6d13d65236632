import Verif.Model.Repr
import Verif.Props.C89More

/-!
# C151: printing models
-/

namespace Verif.Props

open Verif.Common Verif.Init

theorem toString_id (s : String) : toString s = s := rfl

theorem edgeFeature_some (cls m : String) (s f e : ℕ) :
    Repr.edgeFeature cls (some s) m (some f) (some e) =
      .ok (cls ++ "(n_states: " ++ toString s ++ ", inference_method: " ++ m ++ ", n_features: " ++ toString f ++
        ", n_edge_features: " ++ toString e ++ ")") := rfl

/-- **C151** (which models can be printed): models with edge features exactly when all three numbers are known,
otherwise `TypeError`. -/
theorem C151_edge_feature_iff (cls m : String) (s f e : Option ℕ) :
    ((∃ t, Repr.edgeFeature cls s m f e = .ok t) ↔ s ≠ none ∧ f ≠ none ∧ e ≠ none) ∧
    ((s = none ∨ f = none ∨ e = none) → Repr.edgeFeature cls s m f e = .error .typeError) := by
  cases s <;> cases f <;> cases e <;>
    simp [Repr.edgeFeature, Repr.percentD, bind, Except.bind, pure, Except.pure]

/-- **C151** (unstructured models): `BinaryClf` and `MultiClassClf` can be printed exactly when their sizes are
known. -/
theorem C151_unstructured_iff (cls : String) (size : Option ℕ) (st : MCState) :
    ((∃ t, Repr.binary size = .ok t) ↔ size ≠ none) ∧
    (size = none → Repr.binary size = .error .typeError) ∧
    ((∃ t, Repr.structured cls size = .ok t) ↔ size ≠ none) ∧
    (size = none → Repr.structured cls size = .error .typeError) ∧
    ((∃ t, Repr.multiClass cls st = .ok t) ↔ st.nFeatures ≠ none ∧ st.nStates ≠ none) ∧
    ((st.nFeatures = none ∨ st.nStates = none) → Repr.multiClass cls st = .error .typeError) := by
  obtain ⟨s, f, d⟩ := st
  cases size <;> cases s <;> cases f <;>
    simp [Repr.binary, Repr.structured, Repr.multiClass, Repr.percentD, bind, Except.bind, pure, Except.pure]

/-- **C151** (text of the models without a graph): the class and the numbers. -/
theorem C151_unstructured_text (cls : String) (n f s : ℕ) (st : MCState) (hf : st.nFeatures = some f) (hs : st.nStates = some s) :
    Repr.structured cls (some n) = .ok (s!"{cls}, size_joint_feature: {n}") ∧
    Repr.binary (some n) = .ok (s!"BinaryClf, n_features: {n}") ∧
    Repr.multiClass cls st = .ok (s!"{cls}(n_features={f}, n_classes={s})") := by
  simp [Repr.structured, Repr.binary, Repr.multiClass, Repr.percentD, hf, hs, bind, Except.bind, pure, Except.pure, String.append_assoc,
    toString_id]

/-- **C151** (partial: after `initialize`): an `EdgeFeatureGraphCRF` that was initialised prints the numbers of
states, features and edge features of the data. -/
theorem C151_edge_feature_partial (m : String) (st st' : EFState) (X : List (ℕ × ℕ)) (Y : List (List ℤ))
    (h : efInitialize st X Y = .ok st') :
    ∃ f e, X.head? = some (f, e) ∧ Repr.ofEF "EdgeFeatureGraphCRF" m st' =
      .ok (s!"EdgeFeatureGraphCRF(n_states: {(occurring Y).card}, inference_method: {m}, n_features: {f}, n_edge_features: {e})") := by
  obtain ⟨f, e, hX, -, -, -, -, -, h1, h2, h3, -⟩ := efInitialize_ok h
  refine ⟨f, e, hX, ?_⟩
  unfold Repr.ofEF
  rw [h1, h2, h3, edgeFeature_some]
  simp [String.append_assoc, toString_id]

/-- **C151** (partial): the same for a `DirectionalGridCRF`, whose number of edge features depends on the
neighbourhood only. -/
theorem C151_directional_partial (m : String) (nStates nFeatures : Option ℕ) (nb : ℕ) (st st' : EFState)
    (hst : dirConstruct nStates nFeatures nb = .ok st) (X : List ℕ) (Y : List (List ℤ))
    (h : dirInitialize st X Y = .ok st') :
    ∃ f, X.head? = some f ∧ Repr.ofEF "DirectionalGridCRF" m st' =
      .ok (s!"DirectionalGridCRF(n_states: {(occurring Y).card}, inference_method: {m}, n_features: {f}, n_edge_features: {directionCount nb})") := by
  obtain ⟨f, hX, h1, h2, h3, -⟩ := (C89_directional nStates nFeatures nb st hst X Y).2 st' h
  refine ⟨f, hX, ?_⟩
  unfold Repr.ofEF
  rw [h1, h2, h3, edgeFeature_some]
  simp [String.append_assoc, toString_id]

/-- **C151** (partial): the same for `BinaryClf` and `MultiClassClf`. -/
theorem C151_unstructured_partial (size size' : Option ℕ) (cols : ℕ) (hb : binInitialize size cols = .ok size')
    (st st' : MCState) (Y : List (List ℤ)) (h : mcInitialize st cols Y = .ok st') :
    Repr.binary size' = .ok s!"BinaryClf, n_features: {cols}" ∧
    Repr.multiClass "MultiClassClf" st' =
      .ok s!"MultiClassClf(n_features={cols}, n_classes={(occurring Y).card})" := by
  constructor
  · by_cases ha : Agrees size cols
    · rw [(C89_binary size cols).1 ha] at hb
      injection hb with hb
      subst hb
      rfl
    · rw [(C89_binary size cols).2 ha] at hb
      cases hb
  · obtain ⟨h1, h2, -⟩ := (C89_multiclass st cols Y).2 st' h
    unfold Repr.multiClass
    rw [h1, h2]
    simp [Repr.percentD, bind, Except.bind, pure, Except.pure, String.append_assoc, toString_id]

example : ∃ st', efInitialize ⟨none, none, none, [], [], none, none, none⟩ [(2, 3)] [[0, 1], [2]] = .ok st' :=
  ⟨_, rfl⟩

example : ∃ st st', dirConstruct none none 4 = .ok st ∧ dirInitialize st [3] [[0, 1]] = .ok st' := ⟨_, _, rfl, rfl⟩

example : binInitialize none 2 = .ok (some 2) ∧
    ∃ st', mcInitialize ⟨none, none, none, none, none⟩ 2 [[0], [1]] = .ok st' := ⟨rfl, _, rfl⟩

/-- **C151** (violated before `initialize`): models that the documentation lets one create without sizes cannot be
printed until they have seen data. -/
theorem C151_violated_fresh (m : String) :
    (∃ st, efConstruct none none none none [] [] = .ok st ∧
      Repr.ofEF "EdgeFeatureGraphCRF" m st = .error .typeError) ∧
    (∀ nb, ∃ st, dirConstruct none none nb = .ok st ∧ Repr.ofEF "DirectionalGridCRF" m st = .error .typeError) ∧
    Repr.binary none = .error .typeError ∧
    ∃ st, mcConstruct none none none = .ok st ∧ Repr.multiClass "MultiClassClf" st = .error .typeError :=
  ⟨⟨_, rfl, rfl⟩, fun _ => ⟨_, rfl, rfl⟩, rfl, ⟨_, rfl, rfl⟩⟩

/-- **C151** (the other models): the printed form shows the number of states if it is known and `None`
otherwise; there is no error. -/
theorem C151_crf (cls m : String) (n : ℕ) :
    Repr.crf cls (some n) m = s!"{cls}(n_states: {n}, inference_method: {m})" ∧
    Repr.crf cls none m = s!"{cls}(n_states: None, inference_method: {m})" := by
  constructor <;> simp [Repr.crf, Repr.percentS, String.append_assoc, toString_id]

/-- **C151** (loggers): the printed form shows both arguments. -/
theorem C151_logger (name : String) (every : ℕ) :
    Repr.saveLogger ⟨name.toList, every⟩ = "SaveLogger(file_name=\"" ++ name ++ "\", save_every=" ++ toString every ++ ")" := by
  unfold Repr.saveLogger
  rw [String.ofList_toList]

/-- **C151** (`LatentDirectionalGridCRF`): it inherits the form of the models with edge features, so it cannot be
printed when it was created without the number of labels or of features. -/
theorem C151_violated_latent (m : String) (nLabels nFeatures : Option ℕ) (h : nLabels = none ∨ nFeatures = none)
    (sp : LatentGraph.StatesSpec) (nb : ℕ) :
    ∃ st, ldConstruct nLabels nFeatures sp nb = .ok st ∧ Repr.ofLatentDirectional m st = .error .typeError := by
  have key : ∀ st, ldConstruct nLabels nFeatures sp nb = .ok st → st.nStates = none →
      ∃ st, ldConstruct nLabels nFeatures sp nb = .ok st ∧ Repr.ofLatentDirectional m st = .error .typeError :=
    fun st h1 h2 => ⟨st, h1, (C151_edge_feature_iff _ m st.nStates st.nFeatures st.nEdgeFeatures).2 (.inl h2)⟩
  rcases h with rfl | rfl
  · cases nFeatures <;> exact key _ rfl rfl
  · cases nLabels <;> exact key _ rfl rfl

end Verif.Props
