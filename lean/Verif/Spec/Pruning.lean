import Mathlib.Data.Rat.Lemmas

/-!
# Pruning by total inactivity

A machine for working sets in which every element carries the complete list of the multipliers that it had in the
quadratic programs solved since it was added.
-/

namespace Verif.Spec

variable {α : Type}

/-- In how many of the programs the multiplier was below the threshold. -/
def idle (thr : ℚ) (l : List ℚ) : ℕ := (l.filter fun x => decide (x < thr)).length

/-- After a program: the multipliers are noted down, and elements that were idle in more than `window` programs in
total are removed. -/
def afterProgram (thr : ℚ) (window : ℕ) (h : List (α × List ℚ)) (multipliers : List ℚ) : List (α × List ℚ) :=
  (List.zipWith (fun p x => (p.1, p.2 ++ [x])) h multipliers).filter fun p => decide (idle thr p.2 ≤ window)

/-- The working sets of `n` samples that can be reached: starting with empty ones, each sample gets at most one new
element, the program of all elements is solved, and the multipliers of each sample are used to prune its set. -/
inductive Reached (answers : (ℕ → List α) → List ℚ → Prop) (thr : ℚ) (window n : ℕ) :
    (ℕ → List (α × List ℚ)) → Prop where
  | start : Reached answers thr window n (fun _ => [])
  | program (h : ℕ → List (α × List ℚ)) (new : ℕ → Option α) (x : List ℚ) (mult : ℕ → List ℚ) :
      Reached answers thr window n h →
      answers (fun i => (h i).map Prod.fst ++ (new i).toList) x →
      (List.range n).flatMap mult = x →
      (∀ i < n, (mult i).length = (h i).length + (new i).toList.length) →
      Reached answers thr window n fun i =>
        afterProgram thr window (h i ++ (new i).toList.map fun c => (c, [])) (mult i)

end Verif.Spec
