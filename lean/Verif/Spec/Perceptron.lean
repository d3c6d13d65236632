import Verif.Spec.Learning

/-!
# Specification: the run of a perceptron

The weights after a number of steps, written as a recursion on the number of steps; nothing here refers
to the model of the learner.
-/

namespace Verif.Spec

open Finset

variable {X Y : Type}

/-- Weights after `t` samples have been visited in turn, cyclically: a wrong prediction moves the weights
towards the true output and away from the predicted one. `lr e` is the step length in epoch `e`. -/
def Problem.onlineRun (P : Problem X Y) (inf : X → (ℕ → ℚ) → Y) (lr : ℕ → ℚ)
    (samples : List (X × Y)) : ℕ → ℕ → ℚ
  | 0 => fun _ => 0
  | t + 1 =>
    let w := P.onlineRun inf lr samples t
    match samples[t % samples.length]? with
    | none => w
    | some (x, y) =>
      if P.loss y (inf x w) = 0 then w
      else fun k => w k + lr (t / samples.length) * (P.feat x y y k - P.feat x (inf x w) y k)

/-- Loss of the prediction made at visit `t`. -/
def Problem.onlineLoss (P : Problem X Y) (inf : X → (ℕ → ℚ) → Y) (lr : ℕ → ℚ)
    (samples : List (X × Y)) (t : ℕ) : ℚ :=
  match samples[t % samples.length]? with
  | none => 0
  | some (x, y) => P.loss y (inf x (P.onlineRun inf lr samples t))

/-- Weights after `e` epochs in which all samples are predicted with the weights at the start of the
epoch. -/
def Problem.batchRun (P : Problem X Y) (inf : X → (ℕ → ℚ) → Y) (lr : ℕ → ℚ)
    (samples : List (X × Y)) : ℕ → ℕ → ℚ
  | 0 => fun _ => 0
  | e + 1 =>
    let w := P.batchRun inf lr samples e
    fun k => w k + lr e * (samples.map fun s =>
      if P.loss s.2 (inf s.1 w) = 0 then 0 else P.feat s.1 s.2 s.2 k - P.feat s.1 (inf s.1 w) s.2 k).sum

end Verif.Spec
