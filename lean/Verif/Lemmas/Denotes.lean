import Verif.Spec.PairwiseParam

namespace Verif.Common

open Verif.Spec

/-- well-shaped pairwise parameters pass validation and keep their meaning. -/
theorem validateParams_denotes {unary : Mat} {pw : Pairwise} {E : ℕ} {P : ℕ → ℕ → ℕ → ℚ}
    (h : Denotes unary.cols E pw P) :
    validateParams unary pw E = .ok (unary.cols, ⟨E, unary.cols, unary.cols, P⟩) := by
  match pw, h with
  | .mat m, ⟨h1, h2, h3⟩ =>
    unfold validateParams
    simp only
    rw [if_pos ⟨h1, h2⟩]
    have : P = fun _ a b => m.get a b := by
      funext e a b; exact h3 e a b
    rw [this]
  | .ten ⟨d0, d1, d2, g⟩, ⟨h1, h2, h3, h4⟩ =>
    simp only at h1 h2 h3 h4
    subst h1 h2 h3
    unfold validateParams
    simp only
    rw [if_pos (by simp)]
    have : P = g := by
      funext e a b; exact h4 e a b
    rw [this]

end Verif.Common
