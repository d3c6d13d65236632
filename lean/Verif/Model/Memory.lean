import Verif.Model.Viterbi
import Verif.Model.Loss
import Verif.Model.Unstructured

/-!
# The compiled parts, access by access

`src/utils.pyx` and `pystruct/inference/_viterbi.pyx` are compiled without bounds checks. Here they are executed access by
access; an access outside an array, or a read of a cell that was never written, ends the run with `undefinedRead`. Labels
may be negative. Not modelled: labels that do not fit the C type `int` of the local variable `y` (`src/utils.pyx` line 15),
NaN.
-/

namespace Verif.Memory

open Verif.Unstructured Verif.Viterbi

/-- The index `i` lies inside an axis of length `n`; negative indices do not wrap around.
`src/utils.pyx` lines 1-2, `pystruct/inference/_viterbi.pyx` lines 14-15. -/
def Inside (i : ℤ) (n : ℕ) : Prop := 0 ≤ i ∧ i < n

instance (i : ℤ) (n : ℕ) : Decidable (Inside i n) := inferInstanceAs (Decidable (_ ∧ _))

/-- `out[y, j] += X[i, j]` for `out` of shape `(rows, cols)`, `src/utils.pyx` line 19. -/
def csCell (X : Mat) (rows cols : ℕ) (y : ℤ) (i : ℕ) (out : ℕ → ℕ → ℚ) (j : ℕ) : Except PyErr (ℕ → ℕ → ℚ) :=
  if i < X.rows ∧ j < X.cols ∧ Inside y rows ∧ j < cols then
    .ok (upd2 out y.toNat j (out y.toNat j + X.get i j))
  else .error .undefinedRead

/-- `y = Y[i]` and the loop over `j`, `src/utils.pyx` lines 17-19. -/
def csRow (X : Mat) (rows cols : ℕ) (Y : ILabels) (out : ℕ → ℕ → ℚ) (i : ℕ) : Except PyErr (ℕ → ℕ → ℚ) :=
  if i < Y.size then (List.range X.cols).foldlM (csCell X rows cols (Y.get i) i) out
  else .error .undefinedRead

/-- `crammer_singer_joint_feature`, `src/utils.pyx` lines 14-19. -/
def csRun (X : Mat) (Y : ILabels) (out : Mat) : Except PyErr (ℕ → ℕ → ℚ) :=
  (List.range X.rows).foldlM (csRow X out.rows out.cols Y) out.get

/-- The body of the loops, `src/utils.pyx` lines 26-28, for unary potentials of shape `(rows, cols)`. -/
def laCell (rows cols : ℕ) (y : ILabels) (cw : Vec) (i : ℕ) (U : ℕ → ℕ → ℚ) (s : ℕ) : Except PyErr (ℕ → ℕ → ℚ) :=
  if i < y.size then
    if (s : ℤ) = y.get i then .ok U
    else if i < rows ∧ s < cols ∧ Inside (y.get i) cw.size then
      .ok (upd2 U i s (U i s + cw.get (y.get i).toNat))
    else .error .undefinedRead
  else .error .undefinedRead

/-- The loop over `s`, `src/utils.pyx` lines 25-28. -/
def laRow (rows cols : ℕ) (y : ILabels) (cw : Vec) (U : ℕ → ℕ → ℚ) (i : ℕ) : Except PyErr (ℕ → ℕ → ℚ) :=
  (List.range cols).foldlM (laCell rows cols y cw i) U

/-- `loss_augment_unaries`, `src/utils.pyx` lines 21-28. -/
def laRun (U : Mat) (y : ILabels) (cw : Vec) : Except PyErr (ℕ → ℕ → ℚ) :=
  (List.range U.rows).foldlM (laRow U.rows U.cols y cw) U.get

/-- The arrays of the forward recursion; `none` in `backp` are cells that were never written (`np.empty`).
`pystruct/inference/_viterbi.pyx` lines 41-55. -/
structure VState where
  score : ℕ → ℕ → WithBot ℚ
  backp : ℕ → ℕ → Option ℕ

/-- Shape of `score` and of `trans_score`. `pystruct/inference/_viterbi.pyx` lines 16-17. -/
structure VShape where
  n : ℕ
  S : ℕ
  t0 : ℕ
  t1 : ℕ
  t2 : ℕ

/-- The reads `score[i - 1, j]`, `score[i, k]` and `trans_score[i - 1, j, k]` are inside the arrays.
`pystruct/inference/_viterbi.pyx` line 49. -/
def VRead (z : VShape) (i k j : ℕ) : Prop :=
  Inside ((i : ℤ) - 1) z.n ∧ j < z.S ∧ i < z.n ∧ k < z.S ∧ Inside ((i : ℤ) - 1) z.t0 ∧ j < z.t1 ∧ k < z.t2

instance (z : VShape) (i k j : ℕ) : Decidable (VRead z i k j) := inferInstanceAs (Decidable (_ ∧ _))

/-- The loop over `j`, `pystruct/inference/_viterbi.pyx` lines 46-52. -/
def vPrev (z : VShape) (score : ℕ → ℕ → WithBot ℚ) (trans : ℕ → ℕ → ℕ → WithBot ℚ) (i k : ℕ) :
    Except PyErr (ℕ × WithBot ℚ) :=
  (List.range z.S).foldlM (fun acc j =>
    if VRead z i k j then
      .ok (if acc.2 < score (i - 1) j + score i k + trans (i - 1) j k then
        (j, score (i - 1) j + score i k + trans (i - 1) j k) else acc)
    else .error .undefinedRead) (0, ⊥)

/-- The body of the loop over `k`, `pystruct/inference/_viterbi.pyx` lines 46-55; `score` and `backp` have the same
shape. -/
def vCell (z : VShape) (trans : ℕ → ℕ → ℕ → WithBot ℚ) (i : ℕ) (st : VState) (k : ℕ) : Except PyErr VState :=
  match vPrev z st.score trans i k with
  | .error err => .error err
  | .ok b =>
    if i < z.n ∧ k < z.S then .ok ⟨upd2 st.score i k b.2, upd2 st.backp i k (some b.1)⟩
    else .error .undefinedRead

/-- The loop over `k`, `pystruct/inference/_viterbi.pyx` lines 45-55. -/
def vRow (z : VShape) (trans : ℕ → ℕ → ℕ → WithBot ℚ) (st : VState) (i : ℕ) : Except PyErr VState :=
  (List.range z.S).foldlM (vCell z trans i) st

/-- The forward recursion, `pystruct/inference/_viterbi.pyx` lines 41-55. -/
def vForward (z : VShape) (score : ℕ → ℕ → WithBot ℚ) (trans : ℕ → ℕ → ℕ → WithBot ℚ) : Except PyErr VState :=
  ((List.range (z.n - 1)).map (· + 1)).foldlM (vRow z trans) ⟨score, fun _ _ => none⟩

/-- `path[i] = backp[i + 1, path[i + 1]]`, `pystruct/inference/_viterbi.pyx` line 62; `none` in `path` are cells that
were never written. -/
def vBack (z : VShape) (st : VState) (path : ℕ → Option ℕ) (i : ℕ) : Except PyErr (ℕ → Option ℕ) :=
  match (if i + 1 < z.n then path (i + 1) else none) with
  | none => .error .undefinedRead
  | some p =>
    match (if i + 1 < z.n ∧ p < z.S then st.backp (i + 1) p else none) with
    | none => .error .undefinedRead
    | some b => .ok fun i' => if i' = i then some b else path i'

/-- `viterbi(score, trans_score)`, `pystruct/inference/_viterbi.pyx` lines 16-64. `score[n_samples - 1, :]` is an index
operation of numpy, which raises `IndexError` if there are no rows; `argmax` of an empty row raises `ValueError`
(line 59). -/
def vRun (z : VShape) (score : ℕ → ℕ → WithBot ℚ) (trans : ℕ → ℕ → ℕ → WithBot ℚ) :
    Except PyErr (ℕ → Option ℕ) :=
  match vForward z score trans with
  | .error err => .error err
  | .ok st =>
    if z.n = 0 then .error .indexError
    else if z.S = 0 then .error .valueError
    else (List.range (z.n - 1)).reverse.foldlM (vBack z st)
      fun i' => if i' = z.n - 1 then some (argmaxN (st.score (z.n - 1)) z.S) else none

end Verif.Memory
