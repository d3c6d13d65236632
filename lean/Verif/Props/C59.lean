import Verif.Model.PrimalDS
import Verif.Props.C29
import Verif.Props.C40

/-!
# C59: the objective of the downhill simplex learner
-/

namespace Verif.Props

open Finset Verif.Learner Verif.Spec Verif.PrimalDS

variable {X Y : Type}

theorem foldl_add_sum {α : Type} (f : α → ℚ) (l : List α) (a : ℚ) :
    l.foldl (fun o s => o + f s) a = a + (l.map f).sum := by
  induction l generalizing a with
  | nil => simp
  | cons s l ih => rw [List.foldl_cons, ih, List.map_cons, List.sum_cons]; ring

theorem func_ok (m : SModel X Y) (samples : List (X × Y)) (hne : samples ≠ []) (C : ℚ) (w : W) :
    func m samples C w = .ok ((samples.map (sampleSlack m w)).sum / samples.length +
      (∑ k ∈ range m.dim, w k ^ 2) / C / 2) := by
  unfold func
  simp only
  rw [if_neg (by simpa using hne), foldl_add_sum (fun s : X × Y => (findConstraint m s.1 s.2 w none true true).slack), zero_add]
  rfl

/-- **C59** (the part that holds): for every training set with `n` samples and every `C > 0`, `C` times the
function that is minimised is the regularised structured risk with parameter `C / n`. -/
theorem C59_objective_partial (m : SModel X Y) (outputs : X → Set Y)
    (hLA : (problemOf m outputs).ExactLossAug (fun x y w => m.lossAug x y w true))
    (samples : List (X × Y)) (hl : (problemOf m outputs).Labelled samples) (hne : samples ≠ []) (C : ℚ) (hC : 0 < C)
    (w : W) :
    ∃ v, func m samples C w = .ok v ∧ (problemOf m outputs).IsObjective (C / samples.length) samples w (C * v) ∧
      ∀ variant, objectivePrimal m w samples (C / samples.length) variant = .ok (C * v) := by
  have hn : (samples.length : ℚ) ≠ 0 := by
    simpa using hne
  have hCv : C * ((samples.map (sampleSlack m w)).sum / samples.length + (∑ k ∈ range m.dim, w k ^ 2) / C / 2) =
      (samples.map (sampleSlack m w)).sum * (C / samples.length) + (∑ k ∈ range m.dim, w k ^ 2) / 2 := by
    field_simp
  refine ⟨_, func_ok m samples hne C w, ?_, fun v => ?_⟩
  · obtain ⟨obj, ho, hi⟩ := C30_objective m outputs hLA samples hl hne w (C / samples.length) true
    rw [objectivePrimal_ok m w samples _ _ hne] at ho
    simp only [Except.ok.injEq] at ho
    rw [hCv, ho]
    exact hi
  · rw [objectivePrimal_ok m w samples _ _ hne, hCv]

/-- The minimiser does its job: it returns a point with its value, which is minimal. -/
def Fmin.Exact (fmin : Fmin) (f : W → Except PyErr ℚ) : Prop :=
  ∀ x0, ∃ x v, fmin f x0 = .ok (x, v) ∧ f x = .ok v ∧ ∀ x' v', f x' = .ok v' → v ≤ v'

/-- **C59** (`fit`, the part that holds): if the simplex search finds a minimum, the weights minimise the
regularised structured risk with parameter `C / n`. -/
theorem C59_fit_partial (fmin : Fmin) (m : SModel X Y) (outputs : X → Set Y)
    (hLA : (problemOf m outputs).ExactLossAug (fun x y w => m.lossAug x y w true))
    (samples : List (X × Y)) (hl : (problemOf m outputs).Labelled samples) (hne : samples ≠ []) (C : ℚ) (hC : 0 < C)
    (hex : Fmin.Exact fmin (func m samples C)) :
    ∃ w obj, fit fmin m samples C = .ok w ∧ (problemOf m outputs).IsObjective (C / samples.length) samples w obj ∧
      ∀ w' obj', objectivePrimal m w' samples (C / samples.length) false = .ok obj' → obj ≤ obj' := by
  obtain ⟨x1, v1, h1, hv1, hm1⟩ := hex (fun _ => 1 / 100000 + 1)
  obtain ⟨x2, v2, h2, hv2, hm2⟩ := hex (fun _ => 1 / 100000)
  have key : ∀ x v, func m samples C x = .ok v → (∀ x' v', func m samples C x' = .ok v' → v ≤ v') →
      ∃ obj, (problemOf m outputs).IsObjective (C / samples.length) samples x obj ∧
        ∀ w' obj', objectivePrimal m w' samples (C / samples.length) false = .ok obj' → obj ≤ obj' := by
    intro x v hv hmin
    obtain ⟨u, hu, hobj, _⟩ := C59_objective_partial m outputs hLA samples hl hne C hC x
    refine ⟨_, hobj, fun w' obj' ho' => ?_⟩
    obtain ⟨u', hu', _, hp'⟩ := C59_objective_partial m outputs hLA samples hl hne C hC w'
    rw [hp' false] at ho'
    simp only [Except.ok.injEq] at ho'
    rw [← ho']
    rw [hu] at hv
    simp only [Except.ok.injEq] at hv
    rw [hv]
    exact mul_le_mul_of_nonneg_left (hmin _ _ hu') hC.le
  have hfit : fit fmin m samples C = .ok (if v1 < v2 then x1 else x2) := by
    unfold fit
    simp only
    rw [h1]
    simp only [bind, Except.bind]
    rw [h2]
    rfl
  by_cases hlt : v1 < v2
  · obtain ⟨obj, ho, hmin⟩ := key x1 v1 hv1 hm1
    exact ⟨x1, obj, by rw [hfit, if_pos hlt], ho, hmin⟩
  · obtain ⟨obj, ho, hmin⟩ := key x2 v2 hv2 hm2
    exact ⟨x2, obj, by rw [hfit, if_neg hlt], ho, hmin⟩

/-- **C59** (`fit`, any search): even if the search is not exact, the result is the better of the two. -/
theorem C59_better_of_two (fmin : Fmin) (m : SModel X Y) (samples : List (X × Y)) (C : ℚ) (x1 x2 : W) (v1 v2 : ℚ)
    (h1 : fmin (func m samples C) (fun _ => 1 / 100000 + 1) = .ok (x1, v1)) (hv1 : func m samples C x1 = .ok v1)
    (h2 : fmin (func m samples C) (fun _ => 1 / 100000) = .ok (x2, v2)) (hv2 : func m samples C x2 = .ok v2) :
    ∃ w v, fit fmin m samples C = .ok w ∧ func m samples C w = .ok v ∧ v ≤ v1 ∧ v ≤ v2 := by
  have hfit : fit fmin m samples C = .ok (if v1 < v2 then x1 else x2) := by
    unfold fit
    simp only
    rw [h1]
    simp only [bind, Except.bind]
    rw [h2]
    rfl
  by_cases hlt : v1 < v2
  · exact ⟨x1, v1, by rw [hfit, if_pos hlt], hv1, le_refl _, hlt.le⟩
  · exact ⟨x2, v2, by rw [hfit, if_neg hlt], hv2, not_lt.mp hlt, le_refl _⟩

/-- One feature, two outputs. -/
def simplexTable : SModel Unit ℕ := tableModel 1 2 (fun y => if y = 1 then vec2 1 0 else vec2 0 0) (fun _ => 1)

theorem simplex_labelled : (problemOf simplexTable (fun _ => {y | y < 2})).Labelled [((), 0), ((), 0)] := by
  intro s hs
  have : s = ((), 0) := by simpa using hs
  subst this
  exact ⟨(by decide : 0 < 2), by decide +kernel⟩

theorem simplex_slack_ge (w : W) : max (1 - w 0) 0 ≤ sampleSlack simplexTable w ((), 0) := by
  have hLA := tableModel_exact 1 2 (fun y => if y = 1 then vec2 1 0 else vec2 0 0) (fun _ => 1) true
  obtain ⟨h1, h2, _⟩ := C29_slack simplexTable (fun _ => {y | y < 2}) true hLA () 0 w (by decide : 0 < 2)
    (by decide +kernel)
  refine max_le ?_ h2
  have := h1.2 ⟨1, (by decide : 1 < 2), rfl⟩
  refine le_trans (le_of_eq ?_) this
  simp [Problem.violation, Problem.value, problemOf, simplexTable, tableModel, SModel.lossOf, SModel.feat, vec2]
  ring

/-- **C59 violated**: for two equal samples and `C = 1/4` the weight `1/4` minimises the function of the downhill
simplex learner, but not the objective of the other learners for that `C`. -/
theorem C59_violated : ∃ w w' : W, ∃ v obj obj' : ℚ,
    func simplexTable [((), 0), ((), 0)] (1 / 4) w = .ok v ∧
    (∀ u v', func simplexTable [((), 0), ((), 0)] (1 / 4) u = .ok v' → v ≤ v') ∧
    objectivePrimal simplexTable w [((), 0), ((), 0)] (1 / 4) true = .ok obj ∧
    objectivePrimal simplexTable w' [((), 0), ((), 0)] (1 / 4) true = .ok obj' ∧ obj' < obj := by
  refine ⟨fun _ => 1 / 4, fun _ => 1 / 2, 7 / 8, 13 / 32, 3 / 8, by decide +kernel, fun u v' hu => ?_,
    by decide +kernel, by decide +kernel, by norm_num⟩
  rw [func_ok _ _ (by simp)] at hu
  simp only [Except.ok.injEq] at hu
  rw [← hu]
  have h := simplex_slack_ge u
  have h1 := le_trans (le_max_left _ _) h
  have hd : ∑ k ∈ range simplexTable.dim, u k ^ 2 = u 0 ^ 2 := by
    change ∑ k ∈ range 1, u k ^ 2 = _
    simp
  rw [hd]
  simp only [List.map_cons, List.map_nil, List.sum_cons, List.sum_nil, List.length_cons, List.length_nil]
  push_cast
  nlinarith [sq_nonneg (u 0 - 1 / 4)]

/-- The hypotheses of `C59_fit_partial` can be met: an exact search for the example. -/
example : ∃ fmin : Fmin, Fmin.Exact fmin (func simplexTable [((), 0), ((), 0)] (1 / 4)) := by
  obtain ⟨w, _, v, _, _, h1, h2, _⟩ := C59_violated
  exact ⟨fun _ _ => .ok (w, v), fun _ => ⟨w, v, rfl, h1, h2⟩⟩

end Verif.Props
