import Verif.Lemmas.GraphCRF

/-!
# C24: loss augmentation adds exactly the loss
-/

namespace Verif.Props

open Finset Verif.Common Verif.Loss

/-- Weighted Hamming loss, spelled out: every vertex whose label is wrong costs the weight of its true
label. -/
def weightedHamming (n : ℕ) (c : ℕ → ℚ) (y yhat : ℕ → ℕ) : ℚ :=
  ∑ i ∈ range n, if y i = yhat i then 0 else c (y i)

theorem loss_some_ok {n : ℕ} {c : Vec} {y yhat : Labels} (hy : y.size = n) (hyh : yhat.size = n)
    (hc : ∀ i < n, y.get i < c.size) :
    loss (some c) y yhat = .ok (weightedHamming n c.get y.get yhat.get) := by
  unfold loss weightedHamming
  rw [if_neg (by omega)]
  subst hy
  simp only
  rw [if_pos hc]
  congr 1
  apply sum_congr rfl
  intro i _
  by_cases h : y.get i = yhat.get i <;> simp [h]

theorem loss_none_ok {n : ℕ} {y yhat : Labels} (hy : y.size = n) (hyh : yhat.size = n) :
    loss none y yhat = .ok (weightedHamming n (fun _ => 1) y.get yhat.get) := by
  unfold loss weightedHamming
  rw [if_neg (by omega)]
  subst hy
  simp only
  congr 1
  apply sum_congr rfl
  intro i _
  by_cases h : y.get i = yhat.get i <;> simp [h]

theorem augment_ok {U : Mat} {y : Labels} {cw : Vec} (hy : y.size = U.rows)
    (hc : ∀ i < U.rows, y.get i < cw.size) :
    lossAugmentUnaries U y cw = .ok ⟨U.rows, U.cols,
      fun i s => if s = y.get i then U.get i s else U.get i s + cw.get (y.get i)⟩ := by
  unfold lossAugmentUnaries
  rw [if_neg (by omega), if_neg (not_not.mpr hc)]

/-- the identity on the level of scores. -/
theorem score_augment (n : ℕ) (edges : List (ℕ × ℕ)) (U : ℕ → ℕ → ℚ) (P : ℕ → ℕ → ℕ → ℚ)
    (c : ℕ → ℚ) (y yhat : ℕ → ℕ) :
    Spec.score n edges (fun i s => if s = y i then U i s else U i s + c (y i)) P yhat =
      Spec.score n edges U P yhat + weightedHamming n c y yhat := by
  unfold Spec.score weightedHamming
  have : ∀ i, (if yhat i = y i then U i (yhat i) else U i (yhat i) + c (y i)) =
      U i (yhat i) + (if y i = yhat i then 0 else c (y i)) := by
    intro i
    by_cases h : yhat i = y i
    · rw [if_pos h, if_pos h.symm, add_zero]
    · rw [if_neg h, if_neg (Ne.symm h)]
  simp only [this, sum_add_distrib]
  ring

/-- **C24.** Let `y` be the true and `yhat` any labelling of a graph. Augmenting the unary potentials
succeeds, keeps their shape, and the energy of `yhat` under the augmented potentials is its energy
under the original ones plus `loss(y, yhat)`, which is the class-weighted Hamming loss. -/
theorem C24_augmented_energy (U : Mat) (pw : Pairwise) (t : Ten) (edges : Edges) (y yhat : Labels)
    (cw : Vec)
    (hp : validateParams U pw edges.length = .ok (U.cols, t)) (hy : y.size = U.rows)
    (hyh : yhat.size = U.rows) (hcw : ∀ i < U.rows, y.get i < cw.size)
    (hv : Spec.Valid U.rows U.cols yhat.get) (he : Spec.EdgesIn U.rows edges) :
    ∃ U' E L, lossAugmentUnaries U y cw = .ok U' ∧ U'.rows = U.rows ∧ U'.cols = U.cols ∧
      computeEnergy U pw edges yhat = .ok E ∧ loss (some cw) y yhat = .ok L ∧
      L = weightedHamming U.rows cw.get y.get yhat.get ∧
      computeEnergy U' pw edges yhat = .ok (E + L) := by
  refine ⟨_, _, _, augment_ok hy hcw, rfl, rfl, computeEnergy_ok U pw edges yhat t hp hyh hv he,
    loss_some_ok hy hyh hcw, rfl, ?_⟩
  rw [← score_augment]
  exact computeEnergy_ok ⟨U.rows, U.cols, _⟩ pw edges yhat t
    (by unfold validateParams at hp ⊢; exact hp) hyh hv he

/-- Without explicit class weights the model sets all of them to one
(`StructuredModel._set_class_weight`); the added loss is then the number of wrong vertices, which is
also what `loss` of a model without class weights returns. -/
theorem C24_unit_weights (y yhat : Labels) (S : ℕ) (hyh : yhat.size = y.size)
    (hv : ∀ i < y.size, y.get i < S) :
    loss (some ⟨S, fun _ => 1⟩) y yhat = loss none y yhat := by
  rw [loss_some_ok rfl hyh hv, loss_none_ok rfl hyh]

/-- concrete instance: two vertices, class weights 5 and 7, both labels wrong. -/
example : (do
    let U : Mat := ⟨2, 2, fun i s => if s = 1 then (if i = 0 then 1 else 10) else 0⟩
    let y : Labels := ⟨2, fun i => 1 - i⟩
    let yhat : Labels := ⟨2, fun i => i⟩
    let U' ← lossAugmentUnaries U y ⟨2, fun s => if s = 0 then 5 else 7⟩
    let e ← computeEnergy U (.mat ⟨2, 2, fun a b => if a = 0 ∧ b = 1 then 100 else 0⟩) [(0, 1)] yhat
    let e' ← computeEnergy U' (.mat ⟨2, 2, fun a b => if a = 0 ∧ b = 1 then 100 else 0⟩)
      [(0, 1)] yhat
    pure (e, e')) = (.ok (110, 122) : Except PyErr (ℚ × ℚ)) := by decide +kernel

end Verif.Props
