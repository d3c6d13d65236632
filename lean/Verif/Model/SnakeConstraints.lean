import Verif.Model.TypedSnakes

/-!
# Model of the hard constraints of the snake examples

`examples/plot_snakes_constraints.py`, `examples/plot_hidden_snakes.py` and `examples/plot_hidden_short_snakes_typed.py` build lists of
logical constraints for `predict`.
-/

namespace Verif.SnakeConstraints

open Verif.Common Verif.TypedSnakes Verif.Typed

/-- A constraint for a graph with one type of nodes: the operator, the nodes, one state for all of them and one flag for all of them.
`examples/plot_snakes_constraints.py` line 131. -/
structure Single where
  op : String
  nodes : List ℕ
  state : ℕ
  negated : Bool

/-- `[(sLogicOp, range(n_nodes), i, False) for i in range(1, last + 1)]`. `examples/plot_snakes_constraints.py` lines 127 and 131 (where
`last` is 9), `examples/plot_hidden_snakes.py` lines 305 and 309 (where it is `NCELL`). -/
def perGraph (bOne : Bool) (last n : ℕ) : List Single :=
  (List.range' 1 last).map fun i => ⟨if bOne then "XOR" else "ATMOSTONE", List.range n, i, false⟩

/-- `buildConstraints`, `examples/plot_snakes_constraints.py` lines 113-133. -/
def buildConstraints (bOne : Bool) (X : List EdgeFeature.X) : List (List Single) :=
  X.map fun x => perGraph bOne 9 x.features.rows

/-- `convertToSingleTypeX`, `examples/plot_hidden_snakes.py` lines 143-148. -/
def convertToSingleTypeX (X : List EdgeFeature.X) : List Typed.X :=
  X.map fun x => ⟨[some x.features], [some (rawEdges x.edges)], [some x.edgeFeatures]⟩

/-- `([nf], [e], [ef])` and `nf.shape[0]`: lists of another length raise `ValueError`, `None` has no shape.
`examples/plot_hidden_snakes.py` lines 307-308. -/
def singleRows (x : Typed.X) : Except PyErr ℕ :=
  match x.nodeFeatures, x.edges, x.edgeFeatures with
  | [nf], [_], [_] => rowCount nf
  | _, _, _ => .error .valueError

/-- `buildConstraintsFromSingleTyped`, `examples/plot_hidden_snakes.py` lines 293-311. -/
def buildConstraintsFromSingleTyped (nCell : ℕ) (bOne : Bool) (X : List Typed.X) : Except PyErr (List (List Single)) :=
  X.mapM fun x => do
    let n ← singleRows x
    .ok (perGraph bOne nCell n)

/-- A constraint for several types of nodes: for every type a list of nodes, a state or `None`, and a flag or `None`.
`examples/plot_hidden_short_snakes_typed.py` lines 283-287 and 309-311. -/
abbrev Multi := Constraint (List ℕ) (Option ℕ) (Option Bool)

/-- `nf_pixel, nf_pict = _lNF` and `len(nf_pixel)`: lists that have not two elements raise `ValueError`, `None` has no length.
`examples/plot_hidden_short_snakes_typed.py` lines 281-282 and 304-305. -/
def nbPixels (x : Typed.X) : Except PyErr ℕ :=
  match x.nodeFeatures with
  | [some nf, _] => .ok nf.rows
  | [none, _] => .error .typeError
  | _ => .error .valueError

/-- The constraints of one instance, `examples/plot_hidden_short_snakes_typed.py` lines 283-294. -/
def snakeOrNot (nCell n : ℕ) : List Multi :=
  ⟨"ANDOUT", [List.range n, [0]], [some 0, some 0], [some false, some false]⟩ ::
    (List.range' 1 nCell).map fun s => ⟨"XOROUT", [List.range n, [0]], [some s, some 1], [some false, some false]⟩

/-- `listConstraints`, `examples/plot_hidden_short_snakes_typed.py` lines 275-296. -/
def listConstraints (nCell : ℕ) (X : List Typed.X) : Except PyErr (List (List Multi)) :=
  X.mapM fun x => do
    let n ← nbPixels x
    .ok (snakeOrNot nCell n)

/-- The constraints of one instance, `examples/plot_hidden_short_snakes_typed.py` lines 307-313. -/
def atMostOneEach (nCell n : ℕ) : List Multi :=
  (List.range' 1 nCell).map fun s => ⟨"ATMOSTONE", [List.range n, []], [some s, none], [some false, none]⟩

/-- `listConstraints_ATMOSTONE`, `examples/plot_hidden_short_snakes_typed.py` lines 298-316. -/
def listConstraintsAtMostOne (nCell : ℕ) (X : List Typed.X) : Except PyErr (List (List Multi)) :=
  X.mapM fun x => do
    let n ← nbPixels x
    .ok (atMostOneEach nCell n)

end Verif.SnakeConstraints
