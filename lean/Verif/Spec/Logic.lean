import Mathlib.Data.List.Count

/-!
# Specification: logical constraints on labellings

What the operators mean which the documentation of `inference_ad3plus` lists (`pystruct/inference/inference_methods.py` lines 475-487).
-/

namespace Verif.Spec

/-- The operator `op` holds of a list of truth values. For the operators with an output the output is the last one. -/
def OpHolds (op : String) (l : List Bool) : Prop :=
  match op with
  | "XOR" => l.count true = 1
  | "ATMOSTONE" => l.count true ≤ 1
  | "OR" => true ∈ l
  | "XOROUT" => ∃ ins out, l = ins ++ [out] ∧ ins.count true = out.toNat
  | "OROUT" => ∃ ins out, l = ins ++ [out] ∧ (out = true ↔ true ∈ ins)
  | "ANDOUT" => ∃ ins out, l = ins ++ [out] ∧ (out = true ↔ ∀ b ∈ ins, b = true)
  | "IMPLY" => ∃ ins out, l = ins ++ [out] ∧ ((∀ b ∈ ins, b = true) → out = true)
  | _ => False

/-- The truth value of "a node labelled `l` has the state `s`", negated if asked for. -/
def literal (l s : ℕ) (negated : Bool) : Bool := xor (decide (l = s)) negated

/-- A labelling `y` of one type of nodes satisfies a constraint. -/
def SatSingle (op : String) (nodes : List ℕ) (s : ℕ) (negated : Bool) (y : ℕ → ℕ) : Prop :=
  OpHolds op (nodes.map fun n => literal (y n) s negated)

/-- A labelling `y t n` of the nodes `n` of all types `t` satisfies a constraint, whose variables are listed type by type. Types without
nodes in the constraint need neither state nor flag. -/
def SatMulti (op : String) (nodes : List (List ℕ)) (s : List (Option ℕ)) (negated : List (Option Bool)) (y : ℕ → ℕ → ℕ) : Prop :=
  (∀ t < nodes.length, nodes.getD t [] ≠ [] → (∃ a, s.getD t none = some a) ∧ ∃ b, negated.getD t none = some b) ∧
  OpHolds op ((List.range nodes.length).flatMap fun t =>
    (nodes.getD t []).map fun n => literal (y t n) ((s.getD t none).getD 0) ((negated.getD t none).getD false))

/-- Exactly one of the nodes `0, …, n - 1` is labelled `s`. -/
def OnlyOne (n : ℕ) (y : ℕ → ℕ) (s : ℕ) : Prop := ∃ i < n, y i = s ∧ ∀ j < n, y j = s → j = i

/-- At most one of the nodes `0, …, n - 1` is labelled `s`. -/
def NotTwo (n : ℕ) (y : ℕ → ℕ) (s : ℕ) : Prop := ∀ i < n, ∀ j < n, y i = s → y j = s → i = j

end Verif.Spec
