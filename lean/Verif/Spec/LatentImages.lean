import Verif.Spec.LatentGraphs
import Verif.Spec.Grid

/-!
# Specification: images whose pixels have hidden states
-/

namespace Verif.Spec

open Finset Verif.Common

instance (sizes : List ℕ) (l s : ℕ) : Decidable (OwnsState sizes l s) := by unfold OwnsState; infer_instance

/-- All pixels of an image of height `h` and width `w` have existing states. -/
def ValidImage (h w S : ℕ) (z : ℕ → ℕ → ℕ) : Prop := ∀ r < h, ∀ c < w, z r c < S

/-- Every pixel has a state that belongs to its label. -/
def CompletesImage (sizes : List ℕ) (h w : ℕ) (y z : ℕ → ℕ → ℕ) : Prop :=
  ∀ r < h, ∀ c < w, y r c < sizes.length ∧ OwnsState sizes (y r c) (z r c)

/-- Number of pixels at which the states belong to different labels. -/
def wrongPixels (sizes : List ℕ) (h w : ℕ) (a b : ℕ → ℕ → ℕ) : ℚ :=
  ∑ r ∈ range h, ∑ c ∈ range w,
    if ∃ l < sizes.length, OwnsState sizes l (a r c) ∧ OwnsState sizes l (b r c) then 0 else 1

/-- The inference method returns some labelling for all potentials that are the same for all edges. -/
def Answers (S : ℕ) (inf : Mat → Pairwise → Edges → Except PyErr YVal) : Prop :=
  ∀ n edges, 1 ≤ n → EdgesIn n edges → ∀ U P : ℕ → ℕ → ℚ,
    ∃ h : Labels, inf ⟨n, S, U⟩ (.mat ⟨S, S, P⟩) edges = .ok (.discrete h) ∧ h.size = n ∧ Valid n S h.get

/-- The inference method returns some labelling for all potentials with one table per edge. -/
def AnswersEdges (S : ℕ) (inf : Mat → Pairwise → Edges → Except PyErr YVal) : Prop :=
  ∀ n edges, 1 ≤ n → EdgesIn n edges → ∀ (U : ℕ → ℕ → ℚ) (P : ℕ → ℕ → ℕ → ℚ),
    ∃ h : Labels, inf ⟨n, S, U⟩ (.ten ⟨edges.length, S, S, P⟩) edges = .ok (.discrete h) ∧ h.size = n ∧ Valid n S h.get

end Verif.Spec
