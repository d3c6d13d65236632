import Verif.Model.Common

/-!
# Specification: what pairwise parameters mean
-/

namespace Verif.Spec

open Verif.Common

/-- The array `pw` denotes the edge potentials `P e a b`: either one `S × S` matrix used for each of the
`E` edges, or one matrix per edge. -/
def Denotes (S E : ℕ) (pw : Pairwise) (P : ℕ → ℕ → ℕ → ℚ) : Prop :=
  match pw with
  | .mat m => m.rows = S ∧ m.cols = S ∧ ∀ e a b, P e a b = m.get a b
  | .ten t => t.d0 = E ∧ t.d1 = S ∧ t.d2 = S ∧ ∀ e a b, P e a b = t.get e a b
  | .other => False

end Verif.Spec
