import Verif.Model.GraphCRF

/-!
# Model of `pystruct/inference/linear_programming.py` and of `inference_lp`
-/

namespace Verif.LP

open Finset Verif.Common

/-- One entry of the sparse constraint matrix: value, row, column.
`pystruct/inference/linear_programming.py` line 30. -/
structure Trip where
  val : ℚ
  row : ℕ
  col : ℕ

/-- "summation constraints", `pystruct/inference/linear_programming.py` lines 32-37. -/
def summationTriples (nNodes nStates : ℕ) : List Trip :=
  (List.range nNodes).flatMap fun i => (List.range nStates).map fun j => ⟨1, i, i * nStates + j⟩

/-- One iteration of the "edge marginalization constraint" loop,
`pystruct/inference/linear_programming.py` lines 43-70; the state is the triples collected so far
and `row_idx`. -/
def edgeStep (nNodes nStates : ℕ) (edges : Edges) (st : List Trip × ℕ) (i : ℕ) :
    List Trip × ℕ :=
  let e := i / (2 * nStates)
  let state := i % nStates
  let vertexInEdge := i % (2 * nStates) / nStates
  let vertex := if vertexInEdge = 0 then (edge edges e).1 else (edge edges e).2
  if vertexInEdge = 1 ∧ state = nStates - 1 then st
  else
    let rowIdx := st.2
    let edgeVarIndex := nNodes * nStates + e * nStates ^ 2
    let first : Trip := ⟨-1, rowIdx, vertex * nStates + state⟩
    let rest : List Trip :=
      if vertexInEdge = 0 then
        (List.range nStates).map fun j => ⟨1, rowIdx, edgeVarIndex + state * nStates + j⟩
      else
        (List.range nStates).map fun j => ⟨1, rowIdx, edgeVarIndex + j * nStates + state⟩
    (st.1 ++ first :: rest, rowIdx + 1)

/-- All triples, `pystruct/inference/linear_programming.py` lines 30-70. -/
def triples (nNodes nStates : ℕ) (edges : Edges) : List Trip :=
  ((List.range (2 * edges.length * nStates)).foldl (edgeStep nNodes nStates edges)
    (summationTriples nNodes nStates, nNodes)).1

/-- The linear program handed to the solver: minimise `c·x` subject to `x ≥ 0` (the pair `G`, `h`)
and `A x = b`, where `A` is a sparse matrix given by triples (entries at the same position add up).
`pystruct/inference/linear_programming.py` lines 72-86. -/
structure Program where
  nVars : ℕ
  c : Vec
  A : List Trip
  aRows : ℕ
  aCols : ℕ
  b : ℕ → ℚ

/-- Row `r` of `A` times `x`. `pystruct/inference/linear_programming.py` line 82. -/
def rowDot (A : List Trip) (x : ℕ → ℚ) (r : ℕ) : ℚ :=
  (A.map fun t => if t.row = r then t.val * x t.col else 0).sum

/-- The program built by `lp_general_graph`, `pystruct/inference/linear_programming.py` lines 7-86:
three shape checks, then the program; `A.size` is determined by the largest row and column
(`cvxopt.spmatrix` without explicit size), and the row count is asserted. -/
def build (unaries : Mat) (edges : Edges) (ew : Ten) : Except PyErr Program :=
  if unaries.cols ≠ ew.d1 then .error .valueError
  else if ew.d1 ≠ ew.d2 then .error .valueError
  else if ew.d0 ≠ edges.length then .error .valueError
  else
    let nNodes := unaries.rows
    let nStates := unaries.cols
    let nVariables := nNodes * nStates + edges.length * nStates ^ 2
    let nConstraints := nNodes + edges.length * (2 * nStates - 1)
    let A := triples nNodes nStates edges
    let aRows := (A.map Trip.row).foldl max 0 + 1
    let aCols := (A.map Trip.col).foldl max 0 + 1
    if nConstraints ≠ aRows then .error .assertionError
    else .ok
      { nVars := nVariables
        c := unaries.ravel.append ew.ravel
        A := A
        aRows := aRows
        aCols := aCols
        b := fun r => if r < nNodes then 1 else 0 }

/-- Semantics of the program: feasible points (`G x ≤ h` with `G = -1`, `h = 0`, and `A x = b`),
`pystruct/inference/linear_programming.py` lines 77-86 and 91. -/
def Program.Feasible (p : Program) (x : ℕ → ℚ) : Prop :=
  (∀ k < p.nVars, 0 ≤ x k) ∧ ∀ r < p.aRows, rowDot p.A x r = p.b r

/-- Semantics of the program: optimal points of `min c·x`. The meaning of the call in
`pystruct/inference/linear_programming.py` line 91. -/
def Program.Optimal (p : Program) (x : ℕ → ℚ) : Prop :=
  p.Feasible x ∧ ∀ x', p.Feasible x' → dot p.nVars p.c.get x ≤ dot p.nVars p.c.get x'

/-- The LP solver (`cvxopt.solvers.lp`, not modelled): returns some vector.
`pystruct/inference/linear_programming.py` line 91. -/
abbrev Solver := Program → ℕ → ℚ

/-- `lp_general_graph`, `pystruct/inference/linear_programming.py` lines 6-99: unary marginals,
pairwise marginals and objective, read off the solver's answer; the two closing assertions check
that marginals sum to one (up to `1e-4`).  `result['primal objective']` is modelled as `c·x`. -/
def lpGeneralGraph (solver : Solver) (unaries : Mat) (edges : Edges) (ew : Ten) :
    Except PyErr (Mat × Mat × ℚ) :=
  match build unaries edges ew with
  | .error err => .error err
  | .ok p =>
    let x := solver p
    let n := unaries.rows
    let S := unaries.cols
    let u : Mat := ⟨n, S, fun i s => x (i * S + s)⟩
    let q : Mat := ⟨edges.length, S ^ 2, fun e k => x (n * S + (e * S ^ 2 + k))⟩
    if ¬ ∀ i < n, |∑ s ∈ range S, u.get i s - 1| < 1 / 10000 then .error .assertionError
    else if ¬ ∀ e < edges.length, |∑ k ∈ range (S ^ 2), q.get e k - 1| < 1 / 10000 then
      .error .assertionError
    else .ok (u, q, dot p.nVars p.c.get x)

/-- `inference_lp`, `pystruct/inference/inference_methods.py` lines 284-335, for two-dimensional
unaries: labelling (relaxed or rounded) and energy. -/
def inferenceLP (solver : Solver) (unary : Mat) (pw : Pairwise) (edges : Edges) (relaxed : Bool) :
    Except PyErr (YVal × ℚ) :=
  match validateParams unary pw edges.length with
  | .error err => .error err
  | .ok (_, t) =>
    match lpGeneralGraph solver ⟨unary.rows, unary.cols, fun i s => - unary.get i s⟩ edges
        ⟨t.d0, t.d1, t.d2, fun e a b => - t.get e a b⟩ with
    | .error err => .error err
    | .ok (u, q, energy) =>
      if relaxed then .ok (.relaxed u.ravel q.ravel, energy)
      else .ok (.discrete ⟨unary.rows, fun i => argmaxN (u.get i) u.cols⟩, energy)

end Verif.LP
