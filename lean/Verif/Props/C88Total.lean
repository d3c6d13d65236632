import Verif.Lemmas.GraphTraining

/-!
# C88 continued: one-slack training of chains returns
-/

namespace Verif.Props

open Finset Verif.Common Verif.GraphCRF Verif.Spec Verif.Learner Verif.MaxProd

/-- **C88, one-slack training, total version.** In the situation of `C88_oneslack`, with two or more states, positive
class weights, a QP solver that is exact and solves every convex problem that has a minimum, `tol ≤ 1`,
`inactive_threshold ≤ 1`, `break_on_bad=False`, and no cache or an output comparison that does not fail, training
does return. -/
theorem C88_oneslack_returns (opts : Opts) (cw : Vec) (m : Model) (hS : 2 ≤ m.nStates) (hc : cw.size = m.nStates)
    (hpos : ∀ c < m.nStates, 0 < cw.get c) (data : List (Mat × Labels)) (hne : data ≠ []) (hd : ChainData m data)
    (qp : QP.Solver) (hqp : QP.Exact qp) (hcomp : QP.Complete qp) (eq : YVal → YVal → Except PyErr Bool)
    (o : OneSlack.Obj YVal) (heq : o.cfg.inferenceCache = 0 ∨ ∀ a b, ∃ r, eq a b = .ok r) (hC : 0 < o.cfg.C)
    (htol : 0 < o.cfg.tol) (htol1 : o.cfg.tol ≤ 1) (hneg : o.cfg.negativity = none)
    (hthr : o.cfg.inactiveThreshold ≤ 1) (hbr : o.cfg.breakOnBad = false) (hwin : o.cfg.inactiveWindow = 0)
    (hmi : o.cfg.maxIter ≠ 0)
    (R : ℚ) (hR0 : 0 ≤ R) (hR : ∀ d ∈ data, featureBound m (chainX d.1) ≤ R)
    (μ : ℚ) (hμ0 : 0 ≤ μ) (hμ1 : 2 * μ ≤ o.cfg.C * data.length * o.cfg.tol) (hμ2 : 2 * R * μ ≤ o.cfg.tol ^ 2)
    (hmax : o.cfg.C * (data.map fun d => ∑ i ∈ range d.2.size, cw.get (d.2.get i)).sum <
      ((o.cfg.maxIter : ℚ) - 1) * μ) :
    ∃ o' a p, OneSlack.fit (graphModel (fun _ => maxProductInfer opts) cw m) qp eq none (fun _ => none) o
        (chainSamples data) .no = .ok o' ∧ o'.attrs = some a ∧
      (chainProblem opts cw m).IsObjective o.cfg.C (chainSamples data) a.w p ∧
      ∀ w obj, (chainProblem opts cw m).IsObjective o.cfg.C (chainSamples data) w obj →
        p ≤ obj + o.cfg.C * data.length * o.cfg.tol := by
  have hS1 : 1 ≤ m.nStates := by omega
  have e : chainSamples data = graphSamples (data.map fun d => (chainX d.1, d.2)) := by
    unfold chainSamples graphSamples
    rw [List.map_map]
    rfl
  have hgd : GraphData m (data.map fun d => (chainX d.1, d.2)) := by
    intro d hd'
    obtain ⟨b, hb, rfl⟩ := List.mem_map.mp hd'
    obtain ⟨h1, h2, h3, h4⟩ := hd b hb
    refine ⟨⟨h1, h2, ?_⟩, h3, h4⟩
    change EdgesIn b.1.rows (makeChainEdges b.1.rows)
    rw [makeChainEdges_eq]
    exact chainEdges_in _
  have hA : AllLabellings m.nStates (chainOutputs m.nStates) (data.map fun d => (chainX d.1, d.2)) := by
    intro d hd' v hv
    obtain ⟨b, hb, rfl⟩ := List.mem_map.mp hd'
    exact ⟨makeChainEdges_eq _, hv⟩
  obtain ⟨o', ho'⟩ := graph_oneslack_returns (fun _ => maxProductInfer opts) cw m hS hc hpos
    (fun _ _ _ h => .inl h.2) (chain_solves opts hS1) _ hA (by simpa using hne) hgd qp hqp hcomp eq o heq
    hC.le hneg hthr hbr htol1 hmi
  rw [← e] at ho'
  obtain ⟨a, p, h1, h2, h3⟩ := C88_oneslack opts cw m hS1 hc (fun c h => (hpos c h).le) data hd qp hqp eq o o' hC htol hneg
    hwin (QP.complete_first hqp hcomp _ _) R hR0 hR μ hμ0 hμ1 hμ2 hmax ho'
  exact ⟨o', a, p, ho', h1, h2, h3⟩

/-- All hypotheses can be met, with the ideal QP solver and the training set of the example for `C88_oneslack`. -/
example : ∃ o' a, OneSlack.fit (graphModel (fun _ => maxProductInfer {}) ⟨2, fun _ => 1⟩ chainExampleModel) QP.ideal
    (fun _ _ => .ok false) none (fun _ => none)
    ⟨⟨1000, 1, false, none, false, 0, 1 / 2, 5, 1 / 10 ^ 5, 0, .auto⟩, none, []⟩ (chainSamples chainExampleData) .no =
      .ok o' ∧ o'.attrs = some a := by
  obtain ⟨o', a, p, h1, h2, -⟩ := C88_oneslack_returns {} ⟨2, fun _ => 1⟩ chainExampleModel (by decide) rfl
    (by decide +kernel) chainExampleData (by decide) chainExample_data QP.ideal QP.ideal_exact.1 QP.ideal_exact.2
    (fun _ _ => .ok false) ⟨⟨1000, 1, false, none, false, 0, 1 / 2, 5, 1 / 10 ^ 5, 0, .auto⟩, none, []⟩
    (.inr fun _ _ => ⟨_, rfl⟩) (by norm_num) (by norm_num)
    (by norm_num) rfl (by norm_num) rfl rfl (by norm_num) 20 (by norm_num) chainExample_bound (1 / 160) (by norm_num)
    (by decide +kernel) (by decide +kernel) (by decide +kernel)
  exact ⟨o', a, h1, h2⟩

end Verif.Props
