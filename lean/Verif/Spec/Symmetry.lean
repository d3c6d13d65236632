import Verif.Basic.Arr
import Mathlib.Logic.Equiv.Defs
import Mathlib.Data.List.Perm.Basic
import Mathlib.Data.Rat.Defs

/-!
# Specification: the same graph with its nodes and edges numbered differently

None of these definitions refers to a model of the code. `σ` gives every node its new number, `ρ` every edge its
new position, `τ` every state its new name.
-/

namespace Verif.Spec

/-- `σ` only exchanges numbers below `n`. -/
def Renumbering (n : ℕ) (σ : Equiv.Perm ℕ) : Prop := ∀ i, σ i < n ↔ i < n

/-- `A'` consists of the rows of `A`, row `i` having moved to position `σ i`. -/
def RowsMoved (σ : Equiv.Perm ℕ) (A A' : Mat) : Prop :=
  A'.rows = A.rows ∧ A'.cols = A.cols ∧ ∀ i < A.rows, ∀ f, A'.get (σ i) f = A.get i f

/-- `e'` is edge `e` after renumbering; if `flip` holds it may have been turned round. -/
def EdgeMoved (σ : Equiv.Perm ℕ) (flip : Prop) (e e' : ℕ × ℕ) : Prop :=
  e' = (σ e.1, σ e.2) ∨ (flip ∧ e' = (σ e.2, σ e.1))

/-- `E'` lists the edges of `E` after renumbering, in any order; if `flip` holds some may have been turned
round. -/
def EdgesMoved (σ : Equiv.Perm ℕ) (flip : Prop) (E E' : List (ℕ × ℕ)) : Prop :=
  ∃ E₁, List.Forall₂ (EdgeMoved σ flip) E E₁ ∧ E'.Perm E₁

/-- `y'` gives every node `i < n` under its new number `σ i` the label it has in `y`. -/
def LabelsMoved (σ : Equiv.Perm ℕ) (n : ℕ) (y y' : ℕ → ℕ) : Prop := ∀ i < n, y' (σ i) = y i

/-- Edges with features: edge `e` has moved to position `ρ e` with its end points renumbered. Either it keeps its
direction and its features, or it has been turned round, each of its features being in the list `sym` and unchanged
or in the list `anti` and of opposite sign. -/
def EdgesWithFeaturesMoved (σ ρ : Equiv.Perm ℕ) (sym anti : List ℕ) (E E' : List (ℕ × ℕ)) (F F' : Mat) : Prop :=
  E'.length = E.length ∧ F'.rows = F.rows ∧ F'.cols = F.cols ∧ ∀ e < E.length,
    (E'.getD (ρ e) (0, 0) = (σ (E.getD e (0, 0)).1, σ (E.getD e (0, 0)).2) ∧
      ∀ k < F.cols, F'.get (ρ e) k = F.get e k) ∨
    (E'.getD (ρ e) (0, 0) = (σ (E.getD e (0, 0)).2, σ (E.getD e (0, 0)).1) ∧
      ∀ k < F.cols, (k ∈ sym ∧ F'.get (ρ e) k = F.get e k) ∨ (k ∈ anti ∧ F'.get (ρ e) k = -F.get e k))

/-- Two computations come to the same end: they raise the same exception, or return vectors of the same length
with the same entries. -/
def SameEnd (r r' : Except PyErr Vec) : Prop :=
  match r, r' with
  | .error e, .error e' => e' = e
  | .ok v, .ok v' => v'.size = v.size ∧ ∀ k < v.size, v'.get k = v.get k
  | _, _ => False

end Verif.Spec
