import Verif.Basic.Arr
import Mathlib.Algebra.Order.Monoid.WithTop
import Mathlib.Algebra.Order.Monoid.Unbundled.WithTop

/-!
# Model of `pystruct/inference/_viterbi.pyx`
-/

namespace Verif.Viterbi

/-- Writing one cell of a two-dimensional array in place (`a[i, k] = v`).
`pystruct/inference/_viterbi.pyx` lines 54-55. -/
def upd2 {α : Type*} (a : ℕ → ℕ → α) (i k : ℕ) (v : α) : ℕ → ℕ → α :=
  fun i' k' => if i' = i ∧ k' = k then v else a i' k'

/-- Mutable state of the forward recursion: the `score` table (overwritten in place) and `backp`.
`pystruct/inference/_viterbi.pyx` lines 41-55. -/
structure State where
  score : ℕ → ℕ → WithBot ℚ
  backp : ℕ → ℕ → ℕ

/-- The loop over `j`, `pystruct/inference/_viterbi.pyx` lines 46-52: returns `(maxind, maxval)`,
starting from `(0, -inf)` and replacing on strictly larger candidates. -/
def bestPrev (S : ℕ) (score : ℕ → ℕ → WithBot ℚ) (trans : ℕ → ℕ → ℕ → WithBot ℚ) (i k : ℕ) :
    ℕ × WithBot ℚ :=
  (List.range S).foldl (fun acc j =>
    let candidate := score (i - 1) j + score i k + trans (i - 1) j k
    if acc.2 < candidate then (j, candidate) else acc) (0, ⊥)

/-- Body of the loop over `k`, `pystruct/inference/_viterbi.pyx` lines 46-55. -/
def stepCell (S : ℕ) (trans : ℕ → ℕ → ℕ → WithBot ℚ) (i : ℕ) (st : State) (k : ℕ) : State :=
  let b := bestPrev S st.score trans i k
  { score := upd2 st.score i k b.2, backp := upd2 st.backp i k b.1 }

/-- The loop over `k` for one row, `pystruct/inference/_viterbi.pyx` lines 45-55. -/
def stepRow (S : ℕ) (trans : ℕ → ℕ → ℕ → WithBot ℚ) (st : State) (i : ℕ) : State :=
  (List.range S).foldl (stepCell S trans i) st

/-- The forward recursion, `pystruct/inference/_viterbi.pyx` lines 41-55 (`range(1, n_samples)`).
`backp` is allocated uninitialised; its initial content is modelled as `0` and never read. -/
def forward (n S : ℕ) (score : ℕ → ℕ → WithBot ℚ) (trans : ℕ → ℕ → ℕ → WithBot ℚ) : State :=
  ((List.range (n - 1)).map (· + 1)).foldl (stepRow S trans) ⟨score, fun _ _ => 0⟩

/-- Path backtracking, `pystruct/inference/_viterbi.pyx` lines 57-62: the last entry is the argmax
of the last row, then `path[i] = backp[i+1, path[i+1]]` for `i = n-2, …, 0`. -/
def backtrack (n S : ℕ) (st : State) : ℕ → ℕ :=
  ((List.range (n - 1)).reverse).foldl
    (fun path i => fun i' => if i' = i then st.backp (i + 1) (path (i + 1)) else path i')
    (fun i' => if i' = n - 1 then argmaxN (st.score (n - 1)) S else 0)

/-- `viterbi(score, trans_score)`, `pystruct/inference/_viterbi.pyx` lines 16-64, on arrays of shape
`(n, S)` and `(nTrans, S, S)`.  The code is compiled with `boundscheck(False)`: reading
`trans_score[i-1]` for `i - 1 ≥ nTrans` is an out-of-bounds read, modelled as `undefinedRead`;
`score[n-1, :]` for `n = 0` raises `IndexError`.  `argmax` of an empty row raises `ValueError`. The returned path is an
array of length `n`. -/
def viterbi (n S nTrans : ℕ) (score : ℕ → ℕ → WithBot ℚ) (trans : ℕ → ℕ → ℕ → WithBot ℚ) :
    Except PyErr (ℕ → ℕ) :=
  if n = 0 then .error .indexError
  else if S = 0 then .error .valueError
  else if nTrans < n - 1 then .error .undefinedRead
  else .ok (backtrack n S (forward n S score trans))

end Verif.Viterbi
