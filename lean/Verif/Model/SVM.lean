import Verif.Model.QP

/-!
# Model of `pystruct/learners/svm.py` (the binary SVM without structure)
-/

namespace Verif.SVM

open Finset Verif.QP

/-- The quadratic program of `SVM.fit`, `pystruct/learners/svm.py` lines 12-25 (integer labels, which `cvxopt`
rejects as a constraint matrix, are not distinguished from floats). -/
def qpOf (C : ℚ) (X : Mat) (y : Vec) : QP.Problem where
  P := (List.range X.rows).map fun i => (List.range X.rows).map fun j =>
    dot X.cols (fun k => X.get i k * y.get i) (fun k => X.get j k * y.get j)
  q := (List.range X.rows).map fun _ => -1
  G := ((List.range X.rows).map fun i => (List.range X.rows).map fun j => if i = j then -1 else 0) ++
    (List.range X.rows).map fun i => (List.range X.rows).map fun j => if i = j then 1 else 0
  h := (List.range X.rows).map (fun _ => 0) ++ (List.range X.rows).map fun _ => C
  A := [(List.range X.rows).map y.get]
  b := [0]

/-- The attributes set by `fit` that are used afterwards; `sv` are the positions of the support
vectors in the training data (the code keeps the rows themselves). `pystruct/learners/svm.py` lines
34-49. -/
structure Fitted where
  sv : List ℕ
  a : ℕ → ℚ
  b : ℚ
  w : Vec

/-- `sv = a > 1e-5`, `pystruct/learners/svm.py` line 34. -/
def supportVectors (n : ℕ) (a : List ℚ) : List ℕ :=
  (List.range n).filter fun i => decide (1 / 10 ^ 5 < a.getD i 0)

/-- `pystruct/learners/svm.py` lines 47-49. -/
def weights (X : Mat) (y : Vec) (sv : List ℕ) (a : ℕ → ℚ) : Vec :=
  ⟨X.cols, fun k => (sv.map fun i => a i * y.get i * X.get i k).sum⟩

/-- `pystruct/learners/svm.py` lines 41-44: the sum whose mean is the intercept. -/
def interceptSum (X : Mat) (y : Vec) (sv : List ℕ) (a : ℕ → ℚ) : ℚ :=
  (sv.map fun n => y.get n - (sv.map fun i => a i * y.get i * dot X.cols (X.get i) (X.get n)).sum).sum

/-- `SVM.fit`, `pystruct/learners/svm.py` lines 11-49 (without printing). Labels of another length
than `X` raise `ValueError` (broadcasting of a single label is not modelled); a failing solver is a
`ValueError`; without support vectors line 45 divides the integer 0 by 0. -/
def fit (qp : QP.Solver) (C : ℚ) (X : Mat) (y : Vec) : Except PyErr Fitted :=
  if y.size ≠ X.rows then .error .valueError
  else
    match qp (qpOf C X y) with
    | none => .error .valueError
    | some s =>
      let sv := supportVectors X.rows s.x
      let a := fun i => s.x.getD i 0
      if sv = [] then .error .zeroDivisionError
      else .ok ⟨sv, a, interceptSum X y sv a / sv.length, weights X y sv a⟩

/-- `decision_function`, `pystruct/learners/svm.py` lines 51-52. -/
def decisionFunction (f : Fitted) (X : Mat) : Except PyErr Vec :=
  if X.cols ≠ f.w.size then .error .valueError
  else .ok ⟨X.rows, fun i => dot X.cols (X.get i) f.w.get + f.b⟩

/-- `predict`, `pystruct/learners/svm.py` lines 54-55: `np.sign`, which is 0 on the separating
hyperplane. -/
def predict (f : Fitted) (X : Mat) : Except PyErr Vec :=
  match decisionFunction f X with
  | .error err => .error err
  | .ok d => .ok ⟨d.size, fun i => if 0 < d.get i then 1 else if d.get i < 0 then -1 else 0⟩

end Verif.SVM
