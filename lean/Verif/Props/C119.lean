import Verif.Props.C116
import Verif.Props.C41
import Verif.Props.C44

/-!
# C119: the duality gap that the cutting-plane learners report is a certificate
-/

namespace Verif.Props

open Finset Verif.Common Verif.Spec Verif.Learner Verif.Lemmas Verif.Unstructured

variable {X Y : Type}

/-- **C119, one slack.** After any successful fit from scratch the last entry of `primal_objective_curve_` is the
regularised risk of the learned weights, and no weight vector has a risk that is smaller by more than the difference
between the last entries of `primal_objective_curve_` and `objective_curve_`. Nothing is assumed about how well the
QP solver optimises, and sign constraints, pruning, caching and the stopping rule may be set in any way (with the
cache, the model has to be one that does not rescale `C`). -/
theorem C119_one_slack (m : SModel X Y) (outputs : X → Set Y)
    (hLA : (problemOf m outputs).ExactLossAug (fun x y w => m.lossAug x y w true))
    (qp : QP.Solver) (hqp : QP.Sound qp) (eq : Y → Y → Except PyErr Bool) (samples : List (X × Y))
    (hne : samples ≠ []) (hl : (problemOf m outputs).Labelled samples) (o o' : OneSlack.Obj Y)
    (hC : 0 < o.cfg.C) (hcr : o.cfg.inferenceCache = 0 ∨ m.rescaleC = false)
    (h : OneSlack.fit m qp eq none (fun _ => none) o samples .no = .ok o') :
    ∃ a p d, o'.attrs = some a ∧ a.primalCurve.getLast? = some p ∧ a.objectiveCurve.getLast? = some d ∧
      (problemOf m outputs).IsObjective o.cfg.C samples a.w p ∧ d ≤ p ∧
      ∀ w' q, (problemOf m outputs).IsObjective o.cfg.C samples w' q → p ≤ q + (p - d) := by
  obtain ⟨a, ha, hs⟩ := C39_fit m outputs (fun x _ ŷ => ŷ ∈ outputs x) qp hqp eq none (fun _ => none) o o' samples hC
    hne (fun _ _ _ h => h) (fun s hs => hl s hs)
    (fun s hs w => (hLA s.1 s.2 w (hl s hs).1 (hl s hs).2).1) (fun p hp => by cases hp) hcr .no
    (.inl ⟨rfl, fun _ => by simp⟩) h
  obtain ⟨K, -, hK, ws, d, p, cached, -, -, hcur, oK, hoK, rfl⟩ :=
    C116_one_slack m outputs hLA qp eq samples hne hl o o' h
  obtain ⟨oi, a', r, h1, h2, h3, h4, h5, h6, -⟩ := hcur K hK le_rfl
  rw [hoK, Except.ok.injEq] at h1
  subst h1
  have haa : a' = a := by
    have : some a' = some a := h2.symm.trans ha
    exact Option.some.inj this
  subst haa
  have hb := hs.curve (d (K - 1)) (by rw [h5]; simp)
  have hr : (problemOf m outputs).IsObjective o.cfg.C samples a'.w r := by rw [h3]; exact h4
  refine ⟨a', r, d (K - 1), ha, by rw [h6]; simp, by rw [h5]; simp, hr, hb _ _ hr, ?_⟩
  intro w' q hq
  have := hb w' q hq
  linarith

/-- **C119, n slacks.** The same for `NSlackSSVM`, whose `objective_curve_` is the dual value of its working sets, with
any batch size. -/
theorem C119_n_slack (m : SModel X Y) (outputs : X → Set Y)
    (hLA : (problemOf m outputs).ExactLossAug (fun x y w => m.lossAug x y w true))
    (qp : QP.Solver) (hqp : QP.Sound qp) (eq : Y → Y → Bool) (samples : List (X × Y)) (hne : samples ≠ [])
    (hl : (problemOf m outputs).Labelled samples) (o o' : NSlack.Obj Y) (hC : 0 < o.cfg.C) (out : NSlack.Outcome)
    (h : NSlack.fit m qp eq none (fun _ _ => none) o samples none = .ok (o', out)) :
    ∃ a p d, o'.attrs = some a ∧ a.primalCurve.getLast? = some p ∧ a.objectiveCurve.getLast? = some d ∧
      (problemOf m outputs).IsObjective o.cfg.C samples a.w p ∧ d ≤ p ∧
      ∀ w' q, (problemOf m outputs).IsObjective o.cfg.C samples w' q → p ≤ q + (p - d) := by
  obtain ⟨a, ha, -, hs⟩ := C44_lower_bound m outputs qp hqp eq none (fun _ _ => none) o o' samples hC hl
    (fun s hs w => (hLA s.1 s.2 w (hl s hs).1 (hl s hs).2).1) (fun p hp => by cases hp) none
    (fun cs hcs => by cases hcs) (fun hc => absurd rfl hc) out h
  obtain ⟨K, -, hK, -, ws, d, p, -, hcur, oK, hoK, rfl⟩ :=
    C116_n_slack m outputs hLA qp eq samples hne hl o o' out h
  obtain ⟨oi, outi, a', r, h1, h2, h3, h4, h5, h6, -⟩ := hcur (K - 1) (by omega)
  rw [show K - 1 + 1 = K by omega, hoK, Except.ok.injEq, Prod.mk.injEq] at h1
  obtain ⟨h1, -⟩ := h1
  subst h1
  have haa : a' = a := by
    have : some a' = some a := h2.symm.trans ha
    exact Option.some.inj this
  subst haa
  have hb := hs (d (K - 1)) (by rw [h5]; simp)
  have hr : (problemOf m outputs).IsObjective o.cfg.C samples a'.w r := by rw [h3]; exact h4
  refine ⟨a', r, d (K - 1), ha, by rw [h6]; simp, by rw [h5]; simp, hr, hb _ _ hr, ?_⟩
  intro w' q hq
  have := hb w' q hq
  linarith

/-- **C69, what holds.** Sign-constrained weights are not optimal among the weights that satisfy the constraint, but
they satisfy it, and the reported gap bounds by how much their risk exceeds the risk of any weights that satisfy
it. -/
theorem C69_gap_partial (m : SModel X Y) (outputs : X → Set Y)
    (hLA : (problemOf m outputs).ExactLossAug (fun x y w => m.lossAug x y w true))
    (qp : QP.Solver) (hqp : QP.Sound qp) (eq : Y → Y → Except PyErr Bool) (samples : List (X × Y))
    (hne : samples ≠ []) (hl : (problemOf m outputs).Labelled samples) (o o' : OneSlack.Obj Y) (ks : List ℕ)
    (hn : o.cfg.negativity = some ks)
    (hC : 0 < o.cfg.C) (hcr : o.cfg.inferenceCache = 0 ∨ m.rescaleC = false)
    (h : OneSlack.fit m qp eq none (fun _ => none) o samples .no = .ok o') :
    ∃ a p d, o'.attrs = some a ∧ a.primalCurve.getLast? = some p ∧ a.objectiveCurve.getLast? = some d ∧
      (∀ k ∈ ks, a.w k ≤ 0) ∧ (problemOf m outputs).IsObjective o.cfg.C samples a.w p ∧
      ∀ w' q, (∀ k ∈ ks, w' k ≤ 0) → (problemOf m outputs).IsObjective o.cfg.C samples w' q → p ≤ q + (p - d) := by
  obtain ⟨a, p, d, h1, h2, h3, h4, -, h5⟩ :=
    C119_one_slack m outputs hLA qp hqp eq samples hne hl o o' hC hcr h
  obtain ⟨b, hb1, hb2⟩ := C61_one_slack m qp hqp eq none (fun _ => none) o o' samples .no ks hn h
  have hab : b = a := Option.some.inj (hb1.symm.trans h1)
  subst hab
  exact ⟨b, p, d, h1, h2, h3, hb2, h4, fun w' q _ hq => h5 w' q hq⟩

/-- The sign-constrained run of `C69_violated` meets the hypotheses: its solver is sound. -/
example : QP.Sound signSolver ∧ 0 < signOS.cfg.C ∧ signOS.cfg.inferenceCache = 0 ∧
    signOS.cfg.negativity = some [0] ∧
    (problemOf signTable (fun _ => {y | y < 2})).ExactLossAug (fun x y w => signTable.lossAug x y w true) ∧
    (problemOf signTable (fun _ => {y | y < 2})).Labelled [((), 0)] := by
  refine ⟨signSolver_exact.1, by decide +kernel, rfl, rfl,
    tableModel_exact 2 2 (fun y => if y = 1 then vec2 2 2 else vec2 0 0) (fun _ => 1) true, ?_⟩
  intro s hs
  rw [List.mem_singleton] at hs
  subst hs
  exact ⟨(by decide : 0 < 2), by decide +kernel⟩

/-- There the reported gap is `1`, so that the certificate does not exclude the better weights `(0, 1/2)` of
risk `1/8`. -/
example : ∃ o' a, OneSlack.fit signTable signSolver natEq none (fun _ => none) signOS [((), 0)] .no = .ok o' ∧
    o'.attrs = some a ∧ a.primalCurve.getLast? = some 1 ∧ a.objectiveCurve.getLast? = some 0 := by
  obtain ⟨o, h1, h2⟩ := isOkWith_iff (e := OneSlack.fit signTable signSolver natEq none (fun _ => none) signOS
    [((), 0)] .no) (f := fun o => o.attrs.map fun a => (a.primalCurve.getLast?, a.objectiveCurve.getLast?))
    (b := some (some 1, some 0)) (by decide +kernel)
  cases ha : o.attrs with
  | none => rw [ha] at h2; cases h2
  | some a =>
    rw [ha] at h2
    simp only [Option.map_some, Option.some.injEq, Prod.mk.injEq] at h2
    exact ⟨o, a, h1, ha, h2.1, h2.2⟩

/-- The n-slack run of C44 reports a gap of zero: its weights are optimal. -/
example : QP.Sound exampleNSolver ∧ ∃ o' out a p, NSlack.fit exampleTable exampleNSolver natBeq none (fun _ _ => none)
      (exampleNS 10 1 100 50) [((), 0), ((), 0)] none = .ok (o', out) ∧ o'.attrs = some a ∧
      a.primalCurve.getLast? = some p ∧ a.objectiveCurve.getLast? = some p := by
  refine ⟨exampleNSolver_exact.1, ?_⟩
  obtain ⟨r, h1, h2⟩ := isOkWith_iff (e := NSlack.fit exampleTable exampleNSolver natBeq none (fun _ _ => none)
      (exampleNS 10 1 100 50) [((), 0), ((), 0)] none)
    (f := fun r => r.1.attrs.map fun a => (a.primalCurve.getLast?, a.objectiveCurve.getLast?))
    (b := some (some (1 / 8), some (1 / 8))) (by decide +kernel)
  cases ha : r.1.attrs with
  | none => rw [ha] at h2; cases h2
  | some a =>
    rw [ha] at h2
    simp only [Option.map_some, Option.some.injEq, Prod.mk.injEq] at h2
    exact ⟨r.1, r.2, a, _, h1, ha, h2.1, h2.2⟩

end Verif.Props
