import Verif.Spec.GraphOutputs

/-!
# Specification: graphs whose vertices have hidden states

Every label owns a block of consecutive states; a completion of a label array gives every vertex a state of its label.
-/

namespace Verif.Spec

open Finset Verif.Common

/-- State `s` belongs to label `l` if the states are handed out to the labels in consecutive blocks of the given sizes. -/
def OwnsState (sizes : List ℕ) (l s : ℕ) : Prop :=
  (sizes.take l).sum ≤ s ∧ s < (sizes.take l).sum + sizes.getD l 0

/-- Latent labellings of `n` vertices that complete the label array `y`. -/
def Completes (sizes : List ℕ) (n : ℕ) (y : Labels) (v : YVal) : Prop :=
  ∃ h, v = .discrete h ∧ h.size = n ∧ ∀ i < n, y.get i < sizes.length ∧ OwnsState sizes (y.get i) (h.get i)

/-- The states at vertex `i` belong to different labels. -/
def Differ (sizes : List ℕ) (h g : Labels) (i : ℕ) : Prop :=
  ∀ l < sizes.length, ¬ (OwnsState sizes l (h.get i) ∧ OwnsState sizes l (g.get i))

/-- Number of edges at vertex `i`. -/
def degree (edges : List (ℕ × ℕ)) (i : ℕ) : ℕ :=
  ((range edges.length).filter fun e => (edges.getD e (0, 0)).1 = i ∨ (edges.getD e (0, 0)).2 = i).card

/-- The graphs have vertices, the right number of features and edges between their vertices, and there is one label per
vertex. -/
def LatentData (sizes : List ℕ) (nFeatures : ℕ) (data : List (GraphCRF.X × Labels)) : Prop :=
  ∀ d ∈ data, 1 ≤ d.1.features.rows ∧ d.1.features.cols = nFeatures ∧ EdgesIn d.1.features.rows d.1.edges ∧
    d.2.size = d.1.features.rows ∧ ∀ i < d.1.features.rows, d.2.get i < sizes.length

end Verif.Spec
