import Verif.Spec.Reordered

/-!
# Methods of inference that are given arrays
-/

namespace Verif.Spec

open Verif.Common

/-- a method of inference whose result depends on nothing but the entries of the two arrays of potentials and the edges. -/
def ReadsArrays {α : Type} (inf : Mat → Pairwise → Edges → α) : Prop :=
  ∀ u u' P P' E, SameArray u u' → SameArray P P' → inf u' (.mat P') E = inf u (.mat P) E

/-- the same for methods that are given one array of pairwise potentials per edge; here these are the same. -/
def ReadsUnaries {α : Type} (inf : Mat → Pairwise → Edges → α) : Prop :=
  ∀ u u' P E, SameArray u u' → inf u' P E = inf u P E

end Verif.Spec
