import Verif.Basic.Arr

/-!
# The interface to `cvxopt.solvers.qp`

`cvxopt.solvers.qp(P, q, G, h, A, b)` is an external solver: minimise `½ xᵀPx + qᵀx` subject to `Gx ≤ h` and
`Ax = b`. It is a parameter of the models of the learners.
-/

namespace Verif.QP

/-- Arguments of `cvxopt.solvers.qp(P, q, G, h, A, b)` as used in `pystruct/learners/one_slack_ssvm.py` lines
186-193 and `pystruct/learners/n_slack_ssvm.py` lines 170-186; without equality constraint `A` is empty. -/
structure Problem where
  P : List (List ℚ)
  q : List ℚ
  G : List (List ℚ)
  h : List ℚ
  A : List (List ℚ)
  b : List ℚ
  deriving DecidableEq

/-- The entries `'x'` and `'primal objective'` of the dictionary that the solver returns.
`pystruct/learners/one_slack_ssvm.py` lines 204 and 216. -/
structure Solution where
  x : List ℚ
  primalObjective : ℚ

/-- The solver; `none` stands for a `ValueError` or for a status other than `optimal`.
`pystruct/learners/one_slack_ssvm.py` lines 191-201. -/
abbrev Solver := Problem → Option Solution

/-- Inner product of a row with a vector. The meaning of `cvxopt.solvers.qp`,
`pystruct/learners/one_slack_ssvm.py` lines 192 and 199. -/
def rowDot (r x : List ℚ) : ℚ := (List.zipWith (· * ·) r x).sum

/-- `½ xᵀPx + qᵀx`. The meaning of `cvxopt.solvers.qp`, `pystruct/learners/one_slack_ssvm.py` lines
192 and 199. -/
def Problem.value (p : Problem) (x : List ℚ) : ℚ :=
  rowDot (p.P.map fun r => rowDot r x) x / 2 + rowDot p.q x

/-- `x` has the right length and satisfies the constraints. The meaning of `cvxopt.solvers.qp`,
`pystruct/learners/one_slack_ssvm.py` lines 192 and 199. -/
def Problem.Feasible (p : Problem) (x : List ℚ) : Prop :=
  x.length = p.q.length ∧ List.Forall₂ (fun r h => rowDot r x ≤ h) p.G p.h ∧
    List.Forall₂ (fun r b => rowDot r x = b) p.A p.b

/-- The solver returns feasible points, and reports their objective. An assumption on the call in
`pystruct/learners/one_slack_ssvm.py` lines 192 and 199. -/
def Sound (qp : Solver) : Prop :=
  ∀ p s, qp p = some s → p.Feasible s.x ∧ s.primalObjective = p.value s.x

/-- The solver returns exact optima, and reports their objective. An assumption on the call in
`pystruct/learners/one_slack_ssvm.py` lines 192 and 199. -/
def Exact (qp : Solver) : Prop :=
  Sound qp ∧ ∀ p s, qp p = some s → ∀ x, p.Feasible x → s.primalObjective ≤ p.value x

end Verif.QP
