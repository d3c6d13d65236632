import Verif.Model.Typed
import Verif.Model.Snakes

/-!
# Model of the data preparation of `examples/plot_hidden_short_snakes_typed.py`

Two types of nodes: the pixels of an image and the image itself.
-/

namespace Verif.TypedSnakes

open Verif.Common Verif.Snakes Verif.Typed

/-- The pixels `np.where` finds. `examples/plot_hidden_short_snakes_typed.py` lines 137 and 146. -/
def whereIn (x : Pict) (p : ℕ → ℕ → Bool) : List (ℕ × ℕ) :=
  (List.range x.h).flatMap fun i => (List.range x.w).filterMap fun j => if p i j then some (i, j) else none

/-- The pixels of a colour. `examples/plot_hidden_short_snakes_typed.py` line 137. -/
def coloured (x : Pict) (k : ℕ) : List (ℕ × ℕ) := whereIn x fun i j => decide (x.get i j k = 1)

/-- The pixels that are not background. `examples/plot_hidden_short_snakes_typed.py` line 146. -/
def foreground (x : Pict) : List (ℕ × ℕ) := whereIn x fun i j => decide (x.get i j 3 ≠ 1)

/-- `max(a) - min(a)`; `ValueError` for an empty list. `examples/plot_hidden_short_snakes_typed.py` lines 147-148. -/
def extent (a : List ℕ) : Except PyErr ℚ :=
  match a.max?, a.min? with
  | some M, some m => .ok ((M : ℚ) - m)
  | _, _ => .error .valueError

/-- The body of the loop of `prepare_picture_data`, `examples/plot_hidden_short_snakes_typed.py` lines 125-150: numbers of pixels of
the five colours, height and width of the foreground. -/
def pictureFeature (x : Pict) : Except PyErr Mat := do
  let height ← extent ((foreground x).map Prod.fst)
  let width ← extent ((foreground x).map Prod.snd)
  .ok ⟨1, 7, fun _ f => if f < 5 then (coloured x f).length else if f = 5 then height else width⟩

/-- `prepare_picture_data`, `examples/plot_hidden_short_snakes_typed.py` lines 120-152. -/
def preparePictureData (X : List Pict) : Except PyErr (List Mat) := X.mapM pictureFeature

/-- One element of the zipped lists given to `convertToTwoType`: the image, the instance for its pixels, the labels of the pixels as an
array with as many rows and columns as the image, the features of the image, its label.
`examples/plot_hidden_short_snakes_typed.py` lines 185-189. -/
structure Sample where
  pict : Pict
  pixels : EdgeFeature.X
  labels : ℕ → ℕ → ℤ
  features : Mat
  label : ℤ

/-- The edges from all pixels to the image. `examples/plot_hidden_short_snakes_typed.py` lines 192-193. -/
def pixelPictEdges (n : ℕ) : RawEdges := (List.range n).map fun i : ℕ => ((i : ℤ), 0)

/-- The edges between pixels as integers. `examples/plot_hidden_short_snakes_typed.py` line 198. -/
def rawEdges (es : Edges) : RawEdges := es.map fun e => ((e.1 : ℤ), (e.2 : ℤ))

/-- The labels of the pixels, row by row, and the label of the image, counted from `nCell + 1`.
`examples/plot_hidden_short_snakes_typed.py` lines 208-210. -/
def flatLabels (nCell : ℕ) (s : Sample) : List ℤ :=
  (List.range (s.pict.h * s.pict.w)).map (fun i => s.labels (i / s.pict.w) (i % s.pict.w)) ++ [s.label + nCell + 1]

/-- The body of the loop of `convertToTwoType`, `examples/plot_hidden_short_snakes_typed.py` lines 185-215. -/
def convertOne (nCell : ℕ) (s : Sample) : Except PyErr (Typed.X × List ℤ) := do
  let features ← neighborhoodFeature s.pict
  .ok (⟨[some s.pixels.features, some s.features],
      [some (rawEdges s.pixels.edges), some (pixelPictEdges s.pixels.features.rows), none, none],
      [some s.pixels.edgeFeatures, some features, none, none]⟩, flatLabels nCell s)

/-- `convertToTwoType`, `examples/plot_hidden_short_snakes_typed.py` lines 154-217, for lists of the same length. -/
def convertToTwoType (nCell : ℕ) (l : List Sample) : Except PyErr (List Typed.X × List (List ℤ)) := do
  let r ← l.mapM (convertOne nCell)
  .ok (r.map Prod.fst, r.map Prod.snd)

/-- `l[i]` for a list, `i ≥ 0`. `examples/plot_hidden_short_snakes_typed.py` lines 235, 240 and 249. -/
def at? {α : Type} (l : List α) (i : ℕ) : Except PyErr α :=
  match l[i]? with
  | some a => .ok a
  | none => .error .indexError

/-- `a[i]` for an array and an integer that may be negative. `examples/plot_hidden_short_snakes_typed.py` line 252. (Indexing an empty
array by an empty one, for a data set without nodes, changes the type of the result only.) -/
def npAt (l : List ℕ) (i : ℤ) : Except PyErr ℕ :=
  if 0 ≤ i then at? l i.toNat else if -(l.length : ℤ) ≤ i then at? l (i + l.length).toNat else .error .indexError

/-- `[l[i] for i in l_perm]`. `examples/plot_hidden_short_snakes_typed.py` lines 235 and 240. -/
def pick {α : Type} (l : List α) (perm : List ℕ) : Except PyErr (List α) := perm.mapM (at? l)

/-- `[l[i*n_types+j] for i in l_perm for j in l_perm]`. `examples/plot_hidden_short_snakes_typed.py` lines 254-255. -/
def pickPairs {α : Type} (T : ℕ) (l : List α) (perm : List ℕ) : Except PyErr (List α) :=
  (perm.flatMap fun i => perm.map fun j => i * T + j).mapM (at? l)

/-- `a_cumsum_n_state`, `examples/plot_hidden_short_snakes_typed.py` lines 231 and 236. -/
def cumStates (S : List ℕ) : List ℕ := (List.range S.length).map fun i => (S.take i).sum

/-- `a_delta_y_by_y`, the first label of the type of a label. `examples/plot_hidden_short_snakes_typed.py` line 232. -/
def deltas (S : List ℕ) : List ℕ := (List.range S.length).flatMap fun i => List.replicate (S.getD i 0) (S.take i).sum

/-- `a_typ_by_y`, the type of a label. `examples/plot_hidden_short_snakes_typed.py` line 233. -/
def types (S : List ℕ) : List ℕ := (List.range S.length).flatMap fun i => List.replicate (S.getD i 0) i

/-- `nf.shape[0]`; `None` has no shape. `examples/plot_hidden_short_snakes_typed.py` lines 244-245. -/
def rowCount : Option Mat → Except PyErr ℕ
  | some M => .ok M.rows
  | none => .error .attributeError

/-- `dst[a:b] = src`; a source of length one is repeated. `examples/plot_hidden_short_snakes_typed.py` line 250. -/
def assignSlice (dst : List ℤ) (a b : ℕ) (src : List ℤ) : Except PyErr (List ℤ) :=
  let k := min b dst.length - min a dst.length
  if src.length = k then .ok (dst.take a ++ src ++ dst.drop (min a dst.length + k))
  else if src.length = 1 then .ok (dst.take a ++ List.replicate k (src.getD 0 0) ++ dst.drop (min a dst.length + k))
  else .error .valueError

/-- One step of the loop that moves the labels. `examples/plot_hidden_short_snakes_typed.py` lines 248-250. -/
def moveStep (perm n n' : List ℕ) (y acc : List ℤ) (i : ℕ) : Except PyErr (List ℤ) := do
  let j ← at? perm i
  if n'.length ≤ j then .error .indexError
  else assignSlice acc (n'.take j).sum (n'.take (j + 1)).sum (slice y (n.take i).sum (n.getD i 0))

/-- The labels in the order of the new types, not renumbered yet. `examples/plot_hidden_short_snakes_typed.py` lines 242-250. -/
def moveLabels (perm n n' : List ℕ) (y : List ℤ) : Except PyErr (List ℤ) :=
  (List.range n.length).foldlM (moveStep perm n n' y) (List.replicate y.length 0)

/-- A label in the new numbering. `examples/plot_hidden_short_snakes_typed.py` line 252. -/
def relabel (perm S S' : List ℕ) (l : ℤ) : Except PyErr ℤ := do
  let d ← npAt (deltas S) l
  let t ← npAt (types S) l
  let j ← at? perm t
  let c ← at? (cumStates S') j
  .ok (l - d + c)

/-- The body of the loop of `swap_node_types`, `examples/plot_hidden_short_snakes_typed.py` lines 238-258. -/
def swapOne (perm S : List ℕ) (p : Typed.X × List ℤ) : Except PyErr (Typed.X × List ℤ) := do
  let S' ← pick S perm
  let nodes ← pick p.1.nodeFeatures perm
  let n ← p.1.nodeFeatures.mapM rowCount
  let n' ← nodes.mapM rowCount
  let y ← moveLabels perm n n' p.2
  let y ← y.mapM (relabel perm S S')
  let edges ← pickPairs S.length p.1.edges perm
  let efeat ← pickPairs S.length p.1.edgeFeatures perm
  .ok (⟨nodes, edges, efeat⟩, y)

/-- A constraint `(op, l_l_unary, l_l_state, l_lnegated)`; the entries per type are left abstract.
`examples/plot_hidden_short_snakes_typed.py` line 265. -/
structure Constraint (α β γ : Type) where
  op : String
  unary : List α
  state : List β
  negated : List γ

/-- The constraint with the types permuted. `examples/plot_hidden_short_snakes_typed.py` lines 267-269. -/
def swapConstraint {α β γ : Type} (perm : List ℕ) (c : Constraint α β γ) : Except PyErr (Constraint α β γ) := do
  let u ← pick c.unary perm
  let s ← pick c.state perm
  let n ← pick c.negated perm
  .ok ⟨c.op, u, s, n⟩

/-- `for ... in _lConstraints: ...; _lConstraints.append(...)`: the list grows while the loop runs over it. `k` is the position of the
iterator; `none` if the loop has not ended after `fuel` rounds. `examples/plot_hidden_short_snakes_typed.py` lines 265-270. -/
def constraintLoop {α β γ : Type} (perm : List ℕ) : ℕ → ℕ → List (Constraint α β γ) → Option (Except PyErr (List (Constraint α β γ)))
  | 0, _, _ => none
  | fuel + 1, k, l =>
    match l[k]? with
    | none => some (.ok l)
    | some c =>
      match swapConstraint perm c with
      | .error e => some (.error e)
      | .ok c' => constraintLoop perm fuel (k + 1) (l ++ [c'])

/-- The loop over the lists of constraints; the second list is the one processed last. `none` if `fuel` rounds are not enough for one of
the lists. `examples/plot_hidden_short_snakes_typed.py` lines 264-270. -/
def constraintLists {α β γ : Type} (perm : List ℕ) (fuel : ℕ) :
    List (List (Constraint α β γ)) → List (Constraint α β γ) → Option (Except PyErr (List (Constraint α β γ)))
  | [], last => some (.ok last)
  | c :: cs, _ =>
    match constraintLoop perm fuel 0 c with
    | none => none
    | some (.error e) => some (.error e)
    | some (.ok l) => constraintLists perm fuel cs l

/-- `_constraints`: `None` without constraints; else the list that was processed last, alone (line 271 is not part of the loop).
`examples/plot_hidden_short_snakes_typed.py` lines 260-271. The outer result is `none` if `fuel` rounds are not enough for one of the
lists. -/
def swapConstraints {α β γ : Type} (perm : List ℕ) (fuel : ℕ) (l : List (List (Constraint α β γ))) :
    Option (Except PyErr (Option (List (List (Constraint α β γ))))) :=
  if l.isEmpty then some (.ok none)
  else (constraintLists perm fuel l []).map fun r => r.map fun last => some [last]

/-- `swap_node_types`, `examples/plot_hidden_short_snakes_typed.py` lines 219-273, without constraints. -/
def swapNodeTypes (perm S : List ℕ) (l : List (Typed.X × List ℤ)) : Except PyErr (List (Typed.X × List ℤ)) :=
  l.mapM (swapOne perm S)

end Verif.TypedSnakes
