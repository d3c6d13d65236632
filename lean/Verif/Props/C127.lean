import Verif.Model.LatentFacade
import Verif.Spec.Attribute
import Verif.Props.C121

/-!
# C127: the attributes of `LatentSSVM` are those of its base learner
-/

namespace Verif.Props

open Verif.Learner Verif.LatentSSVM Verif.Spec

variable {M R X H Y : Type}

/-- everything of a base learner but its weights. -/
def otherAttributes (o : Facade M R) : M × ℚ × ℤ × ℤ × R × ℕ :=
  (o.base.model, o.base.C, o.base.nJobs, o.base.verbose, o.base.rest, o.latentIter)

/-- **C127, delegation.** `model`, `n_jobs` and `verbose` of a `LatentSSVM` are attributes: they can be read and assigned,
what is read is the base learner's value, and assigning one of them changes neither the other ones nor `w`, `C`, the other
attributes of the base learner, or the number of outer iterations. -/
theorem C127_attributes :
    (Attribute (Facade.model (M := M) (R := R)) Facade.setModel ∧
      Attribute (Facade.nJobs (M := M) (R := R)) Facade.setNJobs ∧
      Attribute (Facade.verbose (M := M) (R := R)) Facade.setVerbose) ∧
    ((∀ o : Facade M R, o.model = o.base.model ∧ o.nJobs = o.base.nJobs ∧ o.verbose = o.base.verbose ∧ o.C = o.base.C) ∧
      ∀ o : Facade M R, (∃ v, o.w = .ok v ∧ o.base.w = some v) ∨ o.w = .error .attributeError ∧ o.base.w = none) ∧
    (∀ o : Facade M R, (∀ v, ((o.setModel v).w, (o.setModel v).C, (o.setModel v).nJobs, (o.setModel v).verbose) =
          (o.w, o.C, o.nJobs, o.verbose)) ∧
      (∀ v, ((o.setNJobs v).w, (o.setNJobs v).C, (o.setNJobs v).model, (o.setNJobs v).verbose) =
          (o.w, o.C, o.model, o.verbose)) ∧
      ∀ v, ((o.setVerbose v).w, (o.setVerbose v).C, (o.setVerbose v).model, (o.setVerbose v).nJobs) =
          (o.w, o.C, o.model, o.nJobs)) ∧
    Untouched (fun o : Facade M R => (o.base.rest, o.latentIter)) Facade.setModel ∧
    Untouched (fun o : Facade M R => (o.base.rest, o.latentIter)) Facade.setNJobs ∧
    Untouched (fun o : Facade M R => (o.base.rest, o.latentIter)) Facade.setVerbose := by
  refine ⟨⟨⟨fun _ _ => rfl, fun _ _ _ => rfl, fun _ => rfl⟩, ⟨fun _ _ => rfl, fun _ _ _ => rfl, fun _ => rfl⟩,
    ⟨fun _ _ => rfl, fun _ _ _ => rfl, fun _ => rfl⟩⟩, ⟨fun _ => ⟨rfl, rfl, rfl, rfl⟩, fun o => ?_⟩,
    fun _ => ⟨fun _ => rfl, fun _ => rfl, fun _ => rfl⟩, fun _ _ => rfl, fun _ _ => rfl, fun _ _ => rfl⟩
  unfold Facade.w
  cases o.base.w with
  | none => exact .inr ⟨rfl, rfl⟩
  | some v => exact .inl ⟨v, rfl, rfl⟩

/-- **C127, weights.** The assigned weights can be read, nothing else changes, and objects that differ only in their
weights agree once the same weights are assigned. -/
theorem C127_weights (o : Facade M R) (v : WVal) :
    (o.setW v).w = .ok v ∧ otherAttributes (o.setW v) = otherAttributes o ∧
    ∀ o' : Facade M R, otherAttributes o = otherAttributes o' → o.setW v = o'.setW v := by
  refine ⟨rfl, rfl, fun o' h => ?_⟩
  obtain ⟨⟨m, w, c, j, vb, r⟩, n⟩ := o
  obtain ⟨⟨m', w', c', j', vb', r'⟩, n'⟩ := o'
  simp only [otherAttributes, Prod.mk.injEq] at h
  obtain ⟨rfl, rfl, rfl, rfl, rfl, rfl⟩ := h
  rfl

theorem predictLatent_ok {inf : M → X → Vec → Except PyErr H} {o : Facade M R} {xs : List X} {hs : List H} :
    predictLatent inf o xs = .ok hs ↔ List.Forall₂ (fun x h => inferWith inf o.model o.base.w x = .ok h) xs hs := by
  induction xs generalizing hs with
  | nil =>
    unfold predictLatent
    constructor
    · intro h; injection h with h; subst h; exact .nil
    · intro h; cases h; rfl
  | cons x xs ih =>
    unfold predictLatent
    cases e : inferWith inf o.model o.base.w x with
    | error err =>
      constructor
      · intro h; cases h
      · intro h
        cases h with
        | cons h1 _ => rw [e] at h1; cases h1
    | ok h0 =>
      simp only
      cases e2 : predictLatent inf o xs with
      | error err =>
        constructor
        · intro h; cases h
        · intro h
          cases h with
          | cons h1 h2 => rw [ih.mpr h2] at e2; cases e2
      | ok hs0 =>
        constructor
        · intro h; injection h with h; subst h; exact .cons e (ih.mp e2)
        · intro h
          cases h with
          | cons h1 h2 =>
            rw [e] at h1
            injection h1 with h1
            have := ih.mpr h2
            rw [e2] at this
            injection this with this
            rw [h1, this]

theorem labelAll_ok {lab : M → H → Except PyErr Y} {m : M} {hs : List H} {ys : List Y} :
    labelAll lab m hs = .ok ys ↔ List.Forall₂ (fun h y => lab m h = .ok y) hs ys := by
  induction hs generalizing ys with
  | nil =>
    unfold labelAll
    constructor
    · intro h; injection h with h; subst h; exact .nil
    · intro h; cases h; rfl
  | cons x xs ih =>
    unfold labelAll
    cases e : lab m x with
    | error err =>
      constructor
      · intro h; cases h
      · intro h
        cases h with
        | cons h1 _ => rw [e] at h1; cases h1
    | ok h0 =>
      simp only
      cases e2 : labelAll lab m xs with
      | error err =>
        constructor
        · intro h; cases h
        · intro h
          cases h with
          | cons h1 h2 => rw [ih.mpr h2] at e2; cases e2
      | ok hs0 =>
        constructor
        · intro h; injection h with h; subst h; exact .cons e (ih.mp e2)
        · intro h
          cases h with
          | cons h1 h2 =>
            rw [e] at h1
            injection h1 with h1
            have := ih.mpr h2
            rw [e2] at this
            injection this with this
            rw [h1, this]

/-- **C127, prediction.** With weights in place, `predict_latent` returns the inference of the model for each sample in
order, and `predict` the labels of these states; each of them returns exactly if all the calls do. -/
theorem C127_predict (inf : M → X → Vec → Except PyErr H) (lab : M → H → Except PyErr Y) (o : Facade M R) (v : Vec)
    (hw : o.w = .ok (.array v)) (xs : List X) :
    (∀ hs, predictLatent inf o xs = .ok hs ↔ List.Forall₂ (fun x h => inf o.model x v = .ok h) xs hs) ∧
    ∀ ys, predictLabels inf lab o xs = .ok ys ↔ List.Forall₂ (fun x y => ∃ h, inf o.model x v = .ok h ∧
      lab o.model h = .ok y) xs ys := by
  have hb : o.base.w = some (.array v) := by
    unfold Facade.w at hw
    cases e : o.base.w with
    | none => rw [e] at hw; cases hw
    | some u => rw [e] at hw; injection hw with hw; rw [hw]
  have h1 : ∀ hs, predictLatent inf o xs = .ok hs ↔ List.Forall₂ (fun x h => inf o.model x v = .ok h) xs hs := by
    intro hs
    rw [predictLatent_ok, hb]
    rfl
  refine ⟨h1, fun ys => ?_⟩
  unfold predictLabels
  constructor
  · intro h
    cases e : predictLatent inf o xs with
    | error err => rw [e] at h; cases h
    | ok hs =>
      rw [e] at h
      have a := (h1 hs).mp e
      have b := labelAll_ok.mp h
      clear h e h1
      induction a generalizing ys with
      | nil => cases b; exact .nil
      | cons a1 _ ih =>
        cases b with
        | cons b1 b2 => exact .cons ⟨_, a1, b1⟩ (ih _ b2)
  · intro h
    have : ∃ hs, List.Forall₂ (fun x h => inf o.model x v = .ok h) xs hs ∧
        List.Forall₂ (fun h y => lab o.model h = .ok y) hs ys := by
      clear h1
      induction h with
      | nil => exact ⟨[], .nil, .nil⟩
      | cons a _ ih =>
        obtain ⟨g, b, c⟩ := a
        obtain ⟨gs, d, e⟩ := ih
        exact ⟨g :: gs, .cons b d, .cons c e⟩
    obtain ⟨hs, a, b⟩ := this
    rw [(h1 hs).mpr a]
    exact labelAll_ok.mpr b

/-- **C127 is violated for `C`.** Assigning `C` does not change `C`; it replaces the weights. Afterwards neither
`predict` nor `predict_latent` returns on any nonempty data, and `SubgradientSSVM` as base learner raises when it reads
its weights. -/
theorem C127_violated_C (o : Facade M R) (c : ℚ) :
    (o.setC c).C = o.C ∧ (o.setC c).w = .ok (.number c) ∧ otherAttributes (o.setC c) = otherAttributes o ∧
    (∀ (inf : M → X → Vec → Except PyErr H) (lab : M → H → Except PyErr Y) (x : X) (xs : List X),
      predictLatent inf (o.setC c) (x :: xs) = .error .attributeError ∧
      predictLabels inf lab (o.setC c) (x :: xs) = .error .attributeError) ∧
    ∀ size, subgradientStart size (o.setC c).base.w = .error .attributeError :=
  ⟨rfl, rfl, rfl, fun _ _ _ _ => ⟨rfl, rfl⟩, fun _ => rfl⟩

/-- so `C` of a `LatentSSVM` is not an attribute. -/
theorem C127_violated_C_attribute [Inhabited M] [Inhabited R] :
    ¬ Attribute (Facade.C (M := M) (R := R)) Facade.setC := by
  intro h
  have := h.read ⟨⟨default, none, 1, 1, 0, default⟩, 5⟩ 2
  exact absurd (show (1 : ℚ) = 2 from this) (by norm_num)

theorem latent_fit_congr {σ : Type} {L : LModel X Y H} {B : LatentSSVM.Base σ X H} {same : H → H → Bool} {base base' : σ}
    (h : ∀ data, B.fit base data none false = B.fit base' data none false) (n : ℕ) (samples : List (X × Y))
    (hInit : Option (List H)) :
    LatentSSVM.fit L B same (n + 1) base samples hInit = LatentSSVM.fit L B same (n + 1) base' samples hInit := by
  unfold LatentSSVM.fit LatentSSVM.loop LatentSSVM.iteration LatentSSVM.refit
  rw [if_pos rfl, if_pos rfl]
  simp only [h]

/-- **C127, training ignores the assigned `C`.** Whatever was put in place of the weights of the base learner by assigning
`C`, `LatentSSVM.fit` with `OneSlackSSVM` or `NSlackSSVM` trains as if nothing had been assigned: same completions, same
calls of the base learner with the same weights, same exceptions. -/
theorem C127_violated_C_fit (L : LModel X Y H) (qp : QP.Solver) (eq : H → H → Except PyErr Bool) (eq' : H → H → Bool)
    (same : H → H → Bool) (n : ℕ) (samples : List (X × Y)) (hInit : Option (List H)) (w' : W) :
    (∀ o : OneSlack.Obj H, LatentSSVM.fit L (oneSlackBase L.m qp eq) same (n + 1)
        { o with attrs := o.attrs.map fun a => { a with w := w' } } samples hInit =
      LatentSSVM.fit L (oneSlackBase L.m qp eq) same (n + 1) o samples hInit) ∧
    ∀ o : NSlack.Obj H, LatentSSVM.fit L (nSlackBase L.m qp eq') same (n + 1)
        { o with attrs := o.attrs.map fun a => { a with w := w' } } samples hInit =
      LatentSSVM.fit L (nSlackBase L.m qp eq') same (n + 1) o samples hInit := by
  refine ⟨fun o => latent_fit_congr (fun data => ?_) _ _ _, fun o => latent_fit_congr (fun data => ?_) _ _ _⟩
  · change OneSlack.fit L.m qp eq none (fun _ => none) _ data .no = OneSlack.fit L.m qp eq none (fun _ => none) o data .no
    have hc : ((o.attrs.map fun a => { a with w := w' }).bind fun a => a.constraints) =
        o.attrs.bind fun a => a.constraints := by
      cases o.attrs <;> rfl
    unfold OneSlack.fit OneSlack.start
    simp only [hc]
  · change nSlackFit L.m qp eq' _ data none = nSlackFit L.m qp eq' o data none
    unfold nSlackFit NSlack.fit NSlack.start
    rfl

/-- Training depends on `C`, so that ignoring the assignment matters: with the other value of `C` the learned weights are
different. One sample, two outputs. -/
example :
    (OneSlack.fit exampleTable exampleSolver natEq none (fun _ => none) (exampleOS 10 1 0 50) [((), 0)] .no).map
      (fun o => o.attrs.map fun a => a.w 0) ≠
    (OneSlack.fit exampleTable exampleSolver natEq none (fun _ => none) (exampleOS 10 (1 / 4) 0 50) [((), 0)] .no).map
      (fun o => o.attrs.map fun a => a.w 0) := by
  decide +kernel

/-- A fitted object. -/
example : predictLabels (M := ℕ) (R := Unit) (X := ℕ) (H := ℕ) (Y := ℕ)
    (fun m x v => if v.size = m then .ok (x + v.size) else .error .valueError) (fun _ h => .ok (h / 2))
    ((⟨⟨3, none, 1, 1, 0, ()⟩, 5⟩ : Facade ℕ Unit).setW (.array ⟨3, fun _ => 0⟩)) [0, 1, 2] = .ok [1, 2, 2] := by
  decide +kernel

end Verif.Props
