import Verif.Spec.LatentPrediction

/-!
# Specification: relaxed labellings of graphs and images whose vertices have hidden states
-/

namespace Verif.Spec

open Finset Verif.Common Verif.LatentGrid

/-- The states belong to one label. -/
def SameLabel (sizes : List ℕ) (s s' : ℕ) : Prop := ∃ l < sizes.length, OwnsState sizes l s ∧ OwnsState sizes l s'

instance (sizes : List ℕ) (s s' : ℕ) : Decidable (SameLabel sizes s s') := by unfold SameLabel; infer_instance

/-- Mass that the marginals `μ` of `n` vertices put on states of labels other than that of the true state. -/
def otherMass (sizes : List ℕ) (S n : ℕ) (h : ℕ → ℕ) (μ : ℕ → ℕ → ℚ) : ℚ :=
  ∑ i ∈ range n, ∑ s ∈ range S, if SameLabel sizes (h i) s then 0 else μ i s

/-- Marginals of the pixels of an image: indicators of states, or the first component of a tuple. -/
def pixelMarg (z : ImageVal) (r c s : ℕ) : ℚ :=
  match z with
  | .discrete a => if s = a.get r c then 1 else 0
  | .relaxed u _ => u.get r c s

/-- The same for images. -/
def pixelMass (sizes : List ℕ) (S h w : ℕ) (a : ℕ → ℕ → ℕ) (z : ImageVal) : ℚ :=
  ∑ r ∈ range h, ∑ c ∈ range w, ∑ s ∈ range S, if SameLabel sizes (a r c) s then 0 else pixelMarg z r c s

/-- Images of states, and relaxed ones: points of the local polytope of the image, whose vertices are the pixels in row-major
order. -/
def IsRelaxedImage (h w S : ℕ) (edges : List (ℕ × ℕ)) (z : ImageVal) : Prop :=
  (∃ a, z = .discrete a ∧ a.rows = h ∧ a.cols = w ∧ ValidImage h w S a.get) ∨
  ∃ u p, z = .relaxed u p ∧ u.d0 = h ∧ u.d1 = w ∧ u.d2 = S ∧ p.size = edges.length * S ^ 2 ∧
    LocalPolytope (h * w) S edges (fun i s => u.get (i / w) (i % w) s) (fun e a b => p.get ((e * S + a) * S + b))

end Verif.Spec
