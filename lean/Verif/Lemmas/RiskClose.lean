import Verif.Lemmas.RiskMin
import Verif.Spec.NearOptimal

/-!
# Weights whose risk is nearly minimal are close to each other
-/

namespace Verif.Lemmas

open Finset Verif.Spec

variable {X Y : Type}

theorem violation_mid (P : Spec.Problem X Y) (w v : ℕ → ℚ) (x : X) (y ŷ : Y) :
    P.violation (fun k => (w k + v k) / 2) x y ŷ = (P.violation w x y ŷ + P.violation v x y ŷ) / 2 := by
  have h : ∀ z, P.value (fun k => (w k + v k) / 2) x y z = (P.value w x y z + P.value v x y z) / 2 := by
    intro z
    unfold Spec.Problem.value
    rw [← sum_add_distrib, sum_div]
    exact sum_congr rfl fun k _ => by ring
  unfold Spec.Problem.violation
  rw [h, h]
  ring

/-- The risk of the midpoint is below the mean by an eighth of the squared distance. -/
theorem objective_mid {P : Spec.Problem X Y} {C : ℚ} (hC : 0 ≤ C) {samples : List (X × Y)} {w v : ℕ → ℚ} {a b c : ℚ}
    (ha : P.IsObjective C samples w a) (hb : P.IsObjective C samples v b)
    (hc : P.IsObjective C samples (fun k => (w k + v k) / 2) c) :
    c + (∑ k ∈ range P.dim, (w k - v k) ^ 2) / 8 ≤ (a + b) / 2 := by
  obtain ⟨ξ, h1, rfl⟩ := objective_iff.mp ha
  obtain ⟨η, h2, rfl⟩ := objective_iff.mp hb
  obtain ⟨ζ, h3, rfl⟩ := objective_iff.mp hc
  have h4 : ∀ i, ζ i ≤ (ξ i + η i) / 2 := by
    intro i
    obtain ⟨ŷ, hy, he⟩ := (h3 i).1
    rw [he, violation_mid]
    have e1 := (h1 i).2 ⟨ŷ, hy, rfl⟩
    have e2 := (h2 i).2 ⟨ŷ, hy, rfl⟩
    linarith
  have h5 : ∑ i, ζ i ≤ (∑ i, ξ i + ∑ i, η i) / 2 := by
    rw [← sum_add_distrib, sum_div]
    exact sum_le_sum fun i _ => h4 i
  have h6 := mul_le_mul_of_nonneg_left h5 hC
  have h7 : (∑ k ∈ range P.dim, (w k + v k) / 2 * ((w k + v k) / 2)) / 2 + (∑ k ∈ range P.dim, (w k - v k) ^ 2) / 8 =
      ((∑ k ∈ range P.dim, w k * w k) / 2 + (∑ k ∈ range P.dim, v k * v k) / 2) / 2 := by
    simp only [sum_div]
    rw [← sum_add_distrib, ← sum_add_distrib, sum_div]
    exact sum_congr rfl fun k _ => by ring
  linarith

theorem objective_exists {P : Spec.Problem X Y} {samples : List (X × Y)}
    (hex : ∀ s ∈ samples, ∀ w, ∃ v, P.IsHinge w s.1 s.2 v) (C : ℚ) (w : ℕ → ℚ) : ∃ a, P.IsObjective C samples w a := by
  obtain ⟨ξ, hξ⟩ := Classical.axiom_of_choice (r := fun (i : Fin samples.length) v => P.IsHinge w samples[i].1 samples[i].2 v)
    fun i => hex _ (List.getElem_mem _) w
  exact ⟨_, objective_iff.mpr ⟨ξ, hξ, rfl⟩⟩

theorem near_close {P : Spec.Problem X Y} {C : ℚ} (hC : 0 ≤ C) {samples : List (X × Y)}
    (hex : ∀ s ∈ samples, ∀ w, ∃ v, P.IsHinge w s.1 s.2 v) {ε δ : ℚ} {w v : ℕ → ℚ} (hw : P.NearOptimal C samples ε w)
    (hv : P.NearOptimal C samples δ v) : ∑ k ∈ range P.dim, (w k - v k) ^ 2 ≤ 4 * (ε + δ) := by
  obtain ⟨a, h1, h2⟩ := hw
  obtain ⟨b, h3, h4⟩ := hv
  obtain ⟨c, h5⟩ := objective_exists hex C fun k => (w k + v k) / 2
  have h6 := objective_mid hC h1 h3 h5
  have h7 := h2 _ _ h5
  have h8 := h4 _ _ h5
  linarith

end Verif.Lemmas
