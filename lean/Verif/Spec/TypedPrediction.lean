import Verif.Spec.Typed

/-!
# Specification: labels by type

What a user of a graph with several types of nodes sees: one list of labels per type, counted from zero.
-/

namespace Verif.Spec

open Finset

/-- Lists of labels by type fit: one list per type, one label per node, labels of type `t` are the numbers below `S[t]`. -/
def LabelLists (S n : List ℕ) (ys : List (List ℤ)) : Prop :=
  ys.map List.length = n ∧ ∀ t < n.length, ∀ l ∈ ys.getD t [], 0 ≤ l ∧ l < (S.getD t 0 : ℤ)

/-- Label of the `i`-th node of type `t`. -/
def labelAt (ys : List (List ℤ)) (t i : ℕ) : ℕ := ((ys.getD t []).getD i 0).toNat

/-- Weight of all nodes. -/
def listsWeight (T : ℕ) (n : List ℕ) (c : ℕ → ℕ → ℚ) (ys : List (List ℤ)) : ℚ :=
  ∑ t ∈ range T, ∑ i ∈ range (n.getD t 0), c t (labelAt ys t i)

/-- Weight of the nodes where the prediction `zs` is wrong. -/
def listsWrong (T : ℕ) (n : List ℕ) (c : ℕ → ℕ → ℚ) (ys zs : List (List ℤ)) : ℚ :=
  ∑ t ∈ range T, ∑ i ∈ range (n.getD t 0), if labelAt zs t i = labelAt ys t i then 0 else c t (labelAt ys t i)

end Verif.Spec
