import Verif.Model.ChainInit
import Verif.Props.C14
import Verif.Props.C62
import Verif.Props.C77
import Verif.Props.C88

/-!
# C187: a ChainCRF without any argument
-/

namespace Verif.Props

open Finset Verif.Common Verif.Learner Verif.ChainInit Verif.Spec

theorem backend_default (P : Dispatch.Packages) (relaxed : Bool) :
    Dispatch.backend P (.name "max-product") relaxed = MaxProd.maxProductInfer ⟨30, 1 / 2, 1 / 100000⟩ := by
  funext U pw E
  unfold Dispatch.backend
  rw [dispatch_max_product]
  cases h : MaxProd.maxProductInfer ⟨30, 1 / 2, 1 / 100000⟩ U pw E with
  | error e => rfl
  | ok y => rfl

/-- **C187, which method.** The method of a `ChainCRF` that is given none is max-product, whatever is installed, even if the trial of other
methods would raise; that of a `GraphCRF` is AD3 if it is installed. A method that is given is kept by both. -/
theorem C187_method (P : Dispatch.Packages) (s f : Option ℕ) (cw : Option Vec) (d : Option Bool) (method : Option Dispatch.Method)
    (st : Init.State) (m : Dispatch.Method) :
    (chainInit P s f method cw d = .ok (st, m) → m = method.getD (.name "max-product") ∧ st.directed = d.getD true) ∧
    (graphInit P s f method cw d = .ok (st, m) → st.directed = d.getD false ∧ (∀ m', method = some m' → m = m') ∧
      (method = none → Working P → m = .name (if P.ad3.isSome then "ad3" else "max-product"))) := by
  have hdir : ∀ (d : Bool) (st : Init.State), Init.construct s f cw d = .ok st → st.directed = d := by
    intro d st h
    unfold Init.construct at h
    have := (setClassWeight_ok h).2.2.1
    rw [this]
    unfold Init.setSize
    split <;> rfl
  refine ⟨fun h => ?_, fun h => ?_⟩
  · unfold chainInit graphInit crfInit chooseMethod at h
    simp only [Option.getD_some] at h
    cases hc : Init.construct s f cw (d.getD true) with
    | error e => rw [hc] at h; cases h
    | ok st' =>
      rw [hc] at h
      cases h
      exact ⟨rfl, hdir _ _ hc⟩
  · unfold graphInit crfInit at h
    cases hm : chooseMethod P method with
    | error e => rw [hm] at h; cases h
    | ok m' =>
      rw [hm] at h
      simp only at h
      cases hc : Init.construct s f cw (d.getD false) with
      | error e => rw [hc] at h; cases h
      | ok st' =>
        rw [hc] at h
        cases h
        refine ⟨hdir _ _ hc, fun m' h' => ?_, fun h' hP => ?_⟩
        · subst h'
          cases hm
          rfl
        · subst h'
          unfold chooseMethod at hm
          rw [C77_default P hP] at hm
          cases hm
          rfl

/-- **C187, training data.** `ChainCRF()` needs no argument: on data with labels, `initialize` finds the sizes, there is one parameter per
state and feature and one per ordered pair of states, and every class has weight 1. -/
theorem C187_sizes (P : Dispatch.Packages) (F : ℕ) (rest : List ℕ) (Y : List (List ℤ)) (hY : Y ≠ []) :
    ∃ st st' cw, chainInit P none none none none none = .ok (st, .name "max-product") ∧
      Init.initializeCRF st (F :: rest) Y = .ok st' ∧ st'.nFeatures = some F ∧ st'.nStates = some (occurring Y).card ∧ st'.directed = true ∧
      st'.sizeJointFeature = some ((occurring Y).card * F + (occurring Y).card ^ 2) ∧
      st'.classWeight = some cw ∧ cw.size = (occurring Y).card ∧ ∀ k, cw.get k = 1 := by
  obtain ⟨st, st', h1, h2, cw, h3, h4, h5⟩ := C62_accepts none none true F rest Y hY (.inl rfl) (.inl rfl)
  obtain ⟨g1, g2, -, -, f, g3, g4⟩ := C62_sizes st st' _ Y h2
  have hst : st.directed = true := by
    cases h1
    rfl
  have hf : f = F := by
    rw [g3] at g1
    exact Option.some.inj g1
  subst hf
  refine ⟨st, st', cw, ?_, h2, g3, g2, ?_, ?_, h3, h4, h5⟩
  · unfold chainInit graphInit crfInit chooseMethod
    simp only [Option.getD_none, Option.getD_some]
    rw [h1]
  · obtain ⟨f', r', e, -, -, -, h6⟩ := initialize_ok h2
    rw [(setClassWeight_ok h6).2.2.1]
    exact hst
  · rw [g4, hst]
    rfl

/-- **C187, prediction.** With the default method, whatever is installed, prediction of a chain is exact: for all weights the labels
returned by `inference`, relaxed or not, have the largest inner product of weights and joint feature. -/
theorem C187_exact (P : Dispatch.Packages) (s f : Option ℕ) (cw : Option Vec) (d : Option Bool) (st : Init.State) (method : Dispatch.Method)
    (h : chainInit P s f none cw d = .ok (st, method)) (m : GraphCRF.Model) (hS : 1 ≤ m.nStates) (features : Mat) (hn : 1 ≤ features.rows)
    (hF : features.cols = m.nFeatures) (w : Vec) (hw : w.size = GraphCRF.sizeJointFeature m) (relaxed : Bool) :
    ∃ y ψ, GraphCRF.inference (Dispatch.backend P method relaxed) m (GraphCRF.chainX features) w = .ok (.discrete y) ∧
      y.size = features.rows ∧ Valid features.rows m.nStates y.get ∧
      GraphCRF.jointFeature m (GraphCRF.chainX features) (.discrete y) = .ok ψ ∧
      ∀ y' : Labels, y'.size = features.rows → Valid features.rows m.nStates y'.get →
        ∃ ψ', GraphCRF.jointFeature m (GraphCRF.chainX features) (.discrete y') = .ok ψ' ∧
          ψ'.size = w.size ∧ ψ.size = w.size ∧ dot w.size w.get ψ'.get ≤ dot w.size w.get ψ.get := by
  obtain ⟨rfl, -⟩ := (C187_method P s f cw d none st method).1 h
  simp only [Option.getD_none]
  rw [backend_default]
  exact C14_chain_inference_exact _ m features w hn hS hF hw

/-- **C187, training.** To a learner a `ChainCRF` that is given no method is the model of C88, so all of C88 applies to it. -/
theorem C187_learner (P : Dispatch.Packages) (s f : Option ℕ) (cw : Option Vec) (d : Option Bool) (st : Init.State) (method : Dispatch.Method)
    (h : chainInit P s f none cw d = .ok (st, method)) (c : Vec) (m : GraphCRF.Model) :
    graphModel (Dispatch.backend P method) c m = graphModel (fun _ => MaxProd.maxProductInfer ⟨30, 1 / 2, 1 / 100000⟩) c m := by
  obtain ⟨rfl, -⟩ := (C187_method P s f cw d none st method).1 h
  have : Dispatch.backend P (.name "max-product") = fun _ => MaxProd.maxProductInfer ⟨30, 1 / 2, 1 / 100000⟩ :=
    funext fun r => backend_default P r
  rw [Option.getD_none, this]

/-! ### examples -/

/-- Labels 0 and 1 and three features: ten parameters. -/
example (P : Dispatch.Packages) : ∃ st st', chainInit P none none none none none = .ok (st, .name "max-product") ∧
    Init.initializeCRF st [3] [[0, 1], [1]] = .ok st' ∧ st'.sizeJointFeature = some 10 := by
  obtain ⟨st, st', cw, h1, h2, -, -, -, h3, -⟩ := C187_sizes P 3 [] [[0, 1], [1]] (by simp)
  exact ⟨st, st', h1, h2, h3.trans (by decide +kernel)⟩

/-- A chain of two nodes. -/
example (P : Dispatch.Packages) := C187_exact P (some 2) (some 1) none none _ _ rfl ⟨2, 1, true⟩ (by decide) ⟨2, 1, fun i _ => i⟩ (by decide) rfl
  ⟨6, fun k => k⟩ rfl false

end Verif.Props
