import Verif.Model.Common
import Verif.Model.Viterbi

/-!
# Model of `pystruct/inference/maxprod.py` and `pystruct/utils/graph_functions.py`
-/

namespace Verif.MaxProd

open Finset Verif.Common

/-- Entry of the adjacency list of a vertex: index of the edge, whether the edge is traversed
against its orientation (then the transposed pairwise matrix is used), and the other end point.
`pystruct/inference/maxprod.py` lines 71-75. -/
structure Nbr where
  edge : ℕ
  flip : Bool
  dst : ℕ
  deriving DecidableEq, Repr

/-- Adjacency lists: `neighbors` and `pairwise_weights`,
`pystruct/inference/maxprod.py` lines 69-75 and `pystruct/utils/graph_functions.py` lines 10-13.
For every edge in order, `edge[1]` is appended to the list of `edge[0]` and then `edge[0]` to the list
of `edge[1]`. -/
def neighbors (edges : Edges) (v : ℕ) : List Nbr :=
  (List.range edges.length).flatMap fun e =>
    (if (edge edges e).1 = v then [⟨e, false, (edge edges e).2⟩] else []) ++
    (if (edge edges e).2 = v then [⟨e, true, (edge edges e).1⟩] else [])

/-- State of the graph search: `visited`, `parents` (`none` is the code's `-1`), the edge through
which a vertex was reached (this determines `pw_forward`), the `queue` and the `traversal` order.
`pystruct/inference/maxprod.py` lines 67-88. Also `pystruct/utils/graph_functions.py` lines 8-20. -/
structure St where
  visited : ℕ → Bool
  parents : ℕ → Option ℕ
  via : ℕ → ℕ × Bool
  queue : List ℕ
  traversal : List ℕ

/-- Initial state: nothing visited, all parents `-1`. `pystruct/inference/maxprod.py` lines 67-68.
-/
def St.init : St := ⟨fun _ => false, fun _ => none, fun _ => (0, false), [], []⟩

/-- The loop over the neighbours of `node`:
`pystruct/inference/maxprod.py` lines 95-103 (`fifo = true`) and
`pystruct/utils/graph_functions.py` lines 26-32 (`fifo = false`, where `none` is `return False`).
The queue is kept such that its head is the next element to be popped: `queue.append` adds at the end
for `pop(0)` and in front for `pop()`. `none` means that a visited vertex other than the parent was
met. -/
def scan (fifo : Bool) (node : ℕ) : List Nbr → St → Option St
  | [], st => some st
  | nb :: rest, st =>
    if st.visited nb.dst = false then
      scan fifo node rest
        { visited := fun v => if v = nb.dst then true else st.visited v
          parents := fun v => if v = nb.dst then some node else st.parents v
          via := fun v => if v = nb.dst then (nb.edge, nb.flip) else st.via v
          queue := if fifo then st.queue ++ [nb.dst] else nb.dst :: st.queue
          traversal := st.traversal }
    else if st.parents node = some nb.dst then scan fifo node rest st
    else none

/-- `while queue:` loop, `pystruct/inference/maxprod.py` lines 92-103 and
`pystruct/utils/graph_functions.py` lines 24-32, with a bound on the number of iterations
(`Verif.MaxProd.explore_queue_nil` shows the bound used in `explore` is never reached). -/
def loop (fifo : Bool) (edges : Edges) : ℕ → St → Option St
  | 0, st => some st
  | k + 1, st =>
    match st.queue with
    | [] => some st
    | node :: q =>
      match scan fifo node (neighbors edges node)
          { st with queue := q, traversal := st.traversal ++ [node] } with
      | none => none
      | some st' => loop fifo edges k st'

/-- One step of the outer loop: start a new component at `i` unless `i` is visited already.
`pystruct/inference/maxprod.py` lines 83-103. -/
def visit (fifo : Bool) (edges : Edges) (n : ℕ) (st : St) (i : ℕ) : Option St :=
  if st.visited i then some st
  else loop fifo edges n
    { st with visited := fun v => if v = i then true else st.visited v, queue := [i] }

/-- Search of the whole graph, `pystruct/inference/maxprod.py` lines 66-103 and
`pystruct/utils/graph_functions.py` lines 8-33. The outer `while lonely < n_vertices` loop with its
inner search for the next unvisited vertex is written as one loop over all vertices. -/
def explore (fifo : Bool) (edges : Edges) (n : ℕ) : Option St :=
  (List.range n).foldl (fun o i => o.bind fun st => visit fifo edges n st i) (some St.init)

/-- Largest vertex mentioned in an edge list (`np.max(edges)`), `0` for the empty list.
`pystruct/utils/graph_functions.py` line 7. -/
def maxVertex (edges : Edges) : ℕ := edges.foldl (fun m e => max m (max e.1 e.2)) 0

/-- `is_forest`, `pystruct/utils/graph_functions.py` lines 4-33. `np.max` of an empty edge array raises
`ValueError`. -/
def isForest (edges : Edges) (nVertices : Option ℕ) : Except PyErr Bool :=
  if (match nVertices with
      | some n => decide ((n : ℤ) - 1 < (edges.length : ℤ))
      | none => false) then .ok false
  else if edges = [] then .error .valueError
  else .ok (explore false edges (maxVertex edges + 1)).isSome

/-- `np.all(a == b)` for one-dimensional integer arrays with numpy broadcasting: arrays of equal
length are compared entrywise, an array of length one is repeated, and other combinations compare as
`False` (numpy < 1.25, the versions which still provide `np.float`, used by the same module).
`pystruct/inference/maxprod.py` lines 18-19. -/
def allEq (a b : List ℕ) : Bool :=
  if a.length = b.length then decide (a = b)
  else if a.length = 1 then b.all fun v => decide (v = a.getD 0 0)
  else if b.length = 1 then a.all fun v => decide (v = b.getD 0 0)
  else false

/-- `is_chain`, `pystruct/inference/maxprod.py` lines 16-19. -/
def isChain (edges : Edges) (n : ℕ) : Bool :=
  allEq (edges.map Prod.fst) (List.range' 0 (n - 1)) &&
  allEq (edges.map Prod.snd) (List.range' 1 (n - 1))

/-- `pw_forward[v]`, `pystruct/inference/maxprod.py` lines 73, 75, 100: the pairwise matrix between the
parent (rows) and `v` (columns). -/
def pwForward (P : ℕ → ℕ → ℕ → ℚ) (st : St) (v a b : ℕ) : ℚ :=
  if (st.via v).2 then P (st.via v).1 b a else P (st.via v).1 a b

/-- `np.max(messages_backward[node] + unary_potentials[node] + pw_forward[node], axis=1)`,
`pystruct/inference/maxprod.py` lines 108-109 and 118-120: for each parent state the best child state. -/
def upMax (S : ℕ) (U : ℕ → ℕ → ℚ) (P : ℕ → ℕ → ℕ → ℚ) (st : St) (B : ℕ → ℕ → ℚ) (v s : ℕ) : ℚ :=
  maxN (fun t => B v t + U v t + pwForward P st v s t) S

/-- One upward step, `pystruct/inference/maxprod.py` lines 105-111. -/
def upStep (S : ℕ) (U : ℕ → ℕ → ℚ) (P : ℕ → ℕ → ℕ → ℚ) (st : St) (B : ℕ → ℕ → ℚ) (v : ℕ) :
    ℕ → ℕ → ℚ :=
  match st.parents v with
  | none => B
  | some p =>
    let message := upMax S U P st B v
    let mx := maxN message S
    fun v' s => if v' = p then B v' s + (message s - mx) else B v' s

/-- One downward step, `pystruct/inference/maxprod.py` lines 113-123. -/
def downStep (S : ℕ) (U : ℕ → ℕ → ℚ) (P : ℕ → ℕ → ℕ → ℚ) (st : St) (B : ℕ → ℕ → ℚ)
    (F : ℕ → ℕ → ℚ) (v : ℕ) : ℕ → ℕ → ℚ :=
  match st.parents v with
  | none => F
  | some p =>
    let message := fun t => maxN (fun s =>
      F p s + U p s + pwForward P st v s t + (B p s - upMax S U P st B v s)) S
    let mx := maxN message S
    fun v' t => if v' = v then F v' t + (message t - mx) else F v' t

/-- `tree_max_product`, `pystruct/inference/maxprod.py` lines 65-125. -/
def treeMaxProduct (U : Mat) (P : ℕ → ℕ → ℕ → ℚ) (edges : Edges) : Except PyErr Labels :=
  if ¬ ∀ e ∈ edges, e.1 < U.rows ∧ e.2 < U.rows then .error .indexError
  else match explore true edges U.rows with
    | none => .error .valueError
    | some st =>
      if U.cols = 0 then .error .valueError
      else
        let B := st.traversal.reverse.foldl (upStep U.cols U.get P st) (fun _ _ => 0)
        let F := st.traversal.foldl (downStep U.cols U.get P st B) (fun _ _ => 0)
        .ok ⟨U.rows, fun v => argmaxN (fun s => U.get v s + F v s + B v s) U.cols⟩

/-- State of loopy message passing: `messages[e, 0]`, `messages[e, 1]`, `all_incoming`, `diff`.
`pystruct/inference/maxprod.py` lines 132-135. -/
structure LSt where
  msg0 : ℕ → ℕ → ℚ
  msg1 : ℕ → ℕ → ℚ
  inc : ℕ → ℕ → ℚ
  diff : ℚ

/-- First half of the body of the edge loop (message from `edge[0]` to `edge[1]`),
`pystruct/inference/maxprod.py` lines 137-148. -/
def loopyHalf0 (S : ℕ) (U : ℕ → ℕ → ℚ) (P : ℕ → ℕ → ℕ → ℚ) (edges : Edges) (damping : ℚ)
    (st : LSt) (e : ℕ) : LSt :=
  let a := (edge edges e).1
  let b := (edge edges e).2
  let raw := fun t => maxN (fun s => st.inc a s + P e s t + U a s - st.msg1 e s) S
  let mx := maxN raw S
  let new := fun t => damping * st.msg0 e t + (1 - damping) * (raw t - mx)
  let update := fun t => new t - st.msg0 e t
  { msg0 := fun e' t => if e' = e then new t else st.msg0 e' t
    msg1 := st.msg1
    inc := fun v t => if v = b then st.inc v t + update t else st.inc v t
    diff := st.diff + ∑ t ∈ range S, |update t| }

/-- Second half (message from `edge[1]` to `edge[0]`), `pystruct/inference/maxprod.py` lines 150-161.
As in the code the normalisation subtracts the maximum of the *old* message. -/
def loopyHalf1 (S : ℕ) (U : ℕ → ℕ → ℚ) (P : ℕ → ℕ → ℕ → ℚ) (edges : Edges) (damping : ℚ)
    (st : LSt) (e : ℕ) : LSt :=
  let a := (edge edges e).1
  let b := (edge edges e).2
  let raw := fun s => maxN (fun t => st.inc b t + P e s t + U b t - st.msg0 e t) S
  let mx := maxN (st.msg1 e) S
  let new := fun s => damping * st.msg1 e s + (1 - damping) * (raw s - mx)
  let update := fun s => new s - st.msg1 e s
  { msg0 := st.msg0
    msg1 := fun e' s => if e' = e then new s else st.msg1 e' s
    inc := fun v s => if v = a then st.inc v s + update s else st.inc v s
    diff := st.diff + ∑ s ∈ range S, |update s| }

/-- One pass over all edges, `pystruct/inference/maxprod.py` lines 135-161. -/
def loopyPass (S : ℕ) (U : ℕ → ℕ → ℚ) (P : ℕ → ℕ → ℕ → ℚ) (edges : Edges) (damping : ℚ)
    (st : LSt) : LSt :=
  (List.range edges.length).foldl
    (fun st e => loopyHalf1 S U P edges damping (loopyHalf0 S U P edges damping st e) e)
    { st with diff := 0 }

/-- The outer loop with its stopping rule, `pystruct/inference/maxprod.py` lines 134-163. -/
def loopyIter (S : ℕ) (U : ℕ → ℕ → ℚ) (P : ℕ → ℕ → ℕ → ℚ) (edges : Edges) (damping tol : ℚ) :
    ℕ → LSt → LSt
  | 0, st => st
  | k + 1, st =>
    let st' := loopyPass S U P edges damping st
    if st'.diff < tol then st' else loopyIter S U P edges damping tol k st'

/-- `iterative_max_product`, `pystruct/inference/maxprod.py` lines 128-164. -/
def iterativeMaxProduct (U : Mat) (P : ℕ → ℕ → ℕ → ℚ) (edges : Edges) (maxIter : ℕ)
    (damping tol : ℚ) : Except PyErr Labels :=
  if U.cols = 0 then .error .valueError
  else if ¬ ∀ e ∈ edges, e.1 < U.rows ∧ e.2 < U.rows then
    -- node indices are only used inside the loop; without iterations nothing is indexed
    if maxIter = 0 then .ok ⟨U.rows, fun v => argmaxN (fun s => 0 + U.get v s) U.cols⟩
    else .error .indexError
  else
    let st := loopyIter U.cols U.get P edges damping tol maxIter
      ⟨fun _ _ => 0, fun _ _ => 0, fun _ _ => 0, 0⟩
    .ok ⟨U.rows, fun v => argmaxN (fun s => st.inc v s + U.get v s) U.cols⟩

/-- Options of `inference_max_product`. `pystruct/inference/maxprod.py` lines 22-23. -/
structure Opts where
  maxIter : ℕ := 30
  damping : ℚ := 1 / 2
  tol : ℚ := 1 / 100000

/-- `inference_max_product`, `pystruct/inference/maxprod.py` lines 22-62.  As in the code the option `tol`
is not passed on; `iterative_max_product` uses its default `1e-5`. -/
def inferenceMaxProduct (opts : Opts) (U : Mat) (pw : Pairwise) (edges : Edges) :
    Except PyErr Labels :=
  match validateParams U pw edges.length with
  | .error err => .error err
  | .ok (_, t) =>
    if isChain edges U.rows then
      match Viterbi.viterbi U.rows U.cols t.d0 (fun i s => ((U.get i s : ℚ) : WithBot ℚ))
          (fun e a b => ((t.get e a b : ℚ) : WithBot ℚ)) with
      | .error err => .error err
      | .ok path => .ok ⟨U.rows, path⟩
    else match isForest edges (some U.rows) with
      | .error err => .error err
      | .ok true => treeMaxProduct U t.get edges
      | .ok false => iterativeMaxProduct U t.get edges opts.maxIter opts.damping (1 / 100000)

end Verif.MaxProd
