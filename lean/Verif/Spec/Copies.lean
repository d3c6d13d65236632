import Mathlib.Data.List.Flatten
import Mathlib.Data.Rat.Defs

/-!
# Data sets with the same distribution
-/

namespace Verif.Spec

/-- `l'` is `l` repeated `k` times, in any order. -/
def Repeated {α : Type} (k : ℕ) (l l' : List α) : Prop := l'.Perm (List.replicate k l).flatten

end Verif.Spec
