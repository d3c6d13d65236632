import Verif.Model.GraphCRF
import Verif.Model.MaxProd
import Verif.Model.LP
import Verif.Model.Unaries

/-!
# Model of `inference_dispatch` and of the wrappers around external solvers
(`pystruct/inference/inference_methods.py`)

External packages (`pyqpbo`, `opengm`, `ad3`, and `cvxopt` behind `lp`) are parameters; `none` means that the
import fails. The compiled extension `_viterbi` is part of the package and can always be imported. Printing
(`verbose`) is not modelled.
-/

namespace Verif.MaxProd

open Verif.Common

/-- The branch `"max-product"` of `inference_dispatch`, `pystruct/inference/inference_methods.py` lines
117-119, as an inference backend of the CRF models (without `return_energy`, options as given). -/
def maxProductInfer (opts : Opts) : GraphCRF.Infer := fun U pw edges =>
  match inferenceMaxProduct opts U pw edges with
  | .error err => .error err
  | .ok y => .ok (.discrete y)

end Verif.MaxProd

namespace Verif.Dispatch

open Verif.Common

/-- Values of keyword arguments; `obj` is any other object, with its truth value.
`pystruct/inference/inference_methods.py` lines 38-39 and 92-98. -/
inductive KVal where
  | none
  | bool (b : Bool)
  | num (q : ℚ)
  | str (s : String)
  | obj (truthy : Bool) (id : ℕ)
  deriving DecidableEq

/-- Python's truth value of a keyword argument. `pystruct/inference/inference_methods.py` lines 333,
387 and 405. -/
def KVal.truthy : KVal → Bool
  | .none => false
  | .bool b => b
  | .num q => decide (q ≠ 0)
  | .str s => decide (s ≠ "")
  | .obj t _ => t

/-- A dictionary of keyword arguments. `pystruct/inference/inference_methods.py` lines 39 and 97-98.
-/
abbrev KW := List (String × KVal)

/-- `kwargs.get(name)`. `pystruct/inference/inference_methods.py` lines 97-98. -/
def KW.val (k : KW) (name : String) : Option KVal := List.lookup name k

/-- `kwargs = kwargs.copy(); kwargs.update(d)`, `pystruct/inference/inference_methods.py` lines 97-98. -/
def KW.update (k d : KW) : KW := d ++ k.filter fun p => !(d.map Prod.fst).contains p.1

/-- Truth value of an option with a default. `pystruct/inference/inference_methods.py` lines 285,
333 and 339. -/
def KW.flag (k : KW) (name : String) (default : Bool) : Bool :=
  match k.val name with
  | some v => v.truthy
  | Option.none => default

/-- Calling a function with three positional arguments (names `pos`), the keyword arguments
`explicit` and `**kwargs`: `TypeError` for an argument given twice, and, if the function has no
`**kwargs` itself, for a name that is not in `named`. `pystruct/inference/inference_methods.py`
lines 99-119. -/
def bindArgs (pos named : List String) (varKw : Bool) (explicit kwargs : KW) : Except PyErr KW :=
  if kwargs.any fun p => pos.contains p.1 then .error .typeError
  else if kwargs.any fun p => (explicit.map Prod.fst).contains p.1 then .error .typeError
  else if !varKw && kwargs.any fun p => !named.contains p.1 then .error .typeError
  else .ok (explicit ++ kwargs)

/-- What `inference_dispatch` returns: a labelling, or a labelling and an energy.
`pystruct/inference/inference_methods.py` lines 333-335. -/
inductive Res where
  | plain (y : YVal)
  | pair (y : YVal) (energy : ℚ)

/-- `if return_energy: return y, energy` / `return y`. `pystruct/inference/inference_methods.py`
lines 333-335 and 430-432. -/
def Res.mk (returnEnergy : Bool) (y : YVal) (energy : ℚ) : Res :=
  if returnEnergy then .pair y energy else .plain y

/-- The result of AD3: marginals, energy, and whether the status is `"fractional"` or `"unsolved"`.
`pystruct/inference/inference_methods.py` lines 397-401. -/
structure AD3Result where
  unary : Mat
  pairwise : Mat
  energy : ℚ
  unsolved : Bool

/-- Integer potentials as handed to `pyqpbo`. `pystruct/inference/inference_methods.py` lines
275-278. -/
structure IntPotentials where
  nNodes : ℕ
  nStates : ℕ
  nEdges : ℕ
  unary : ℕ → ℕ → ℤ
  pairwise : ℕ → ℕ → ℕ → ℤ

/-- External packages. `ad3` are `general_graph` and `general_constrained_graph`; `ogm` gets the
negated potentials, the algorithm and the starting point, and `ogmEnergy` is `gm.evaluate`.
`pystruct/inference/inference_methods.py` lines 204-239, 279-280, 325, 389-399 and 507-511. -/
structure Packages where
  qpbo : Option (Edges → IntPotentials → Labels)
  lp : LP.Solver
  ad3 : Option ((Mat → Edges → Ten → (exact : Bool) → AD3Result) ×
    (Mat → Edges → Pairwise → (constraints : KVal) → (exact : Bool) → AD3Result))
  ogm : Option ((Mat → Ten → Edges → (alg : String) → (init : KVal) → Labels) ×
    (Mat → Ten → Edges → Labels → ℚ))

/-- `(-1000 * a).astype(np.int32)`: truncation towards zero; overflow is not modelled.
`pystruct/inference/inference_methods.py` lines 275 and 277. -/
def scaled (q : ℚ) : ℤ := Int.tdiv (-1000 * q).num (-1000 * q).den

/-- `inference_qpbo`, `pystruct/inference/inference_methods.py` lines 242-281. -/
def inferenceQpbo (P : Packages) (U : Mat) (pw : Pairwise) (edges : Edges) : Except PyErr YVal :=
  match P.qpbo with
  | Option.none => .error .importError
  | some solve =>
    match validateParams U pw edges.length with
    | .error err => .error err
    | .ok (_, t) => .ok (.discrete (solve edges ⟨U.rows, U.cols, t.d0, fun i s => scaled (U.get i s),
        fun e a b => scaled (t.get e a b)⟩))

/-- The algorithms known to `inference_ogm`, `pystruct/inference/inference_methods.py` lines
202-227. -/
def ogmAlgs : List String :=
  ["bp", "dd", "trws", "trw", "gibbs", "lf", "icm", "dyn", "fm", "gc", "loc", "mqpbo", "alphaexp"]

/-- The algorithm selected by `alg`, default `'dd'`; other values leave the variable `inference`
unbound (`pystruct/inference/inference_methods.py` line 231). -/
def ogmAlg : Option KVal → Except PyErr String
  | Option.none => .ok "dd"
  | some (.str s) => if ogmAlgs.contains s then .ok s else .error .unboundLocalError
  | some _ => .error .unboundLocalError

/-- `inference_ogm`, `pystruct/inference/inference_methods.py` lines 125-239. -/
def inferenceOgm (P : Packages) (U : Mat) (pw : Pairwise) (edges : Edges) (kw : KW) : Except PyErr Res :=
  match P.ogm with
  | Option.none => .error .importError
  | some (solve, evaluate) =>
    match validateParams U pw edges.length with
    | .error err => .error err
    | .ok (_, t) =>
      match ogmAlg (kw.val "alg") with
      | .error err => .error err
      | .ok alg =>
        let u : Mat := ⟨U.rows, U.cols, fun i s => -U.get i s⟩
        let p : Ten := ⟨t.d0, t.d1, t.d2, fun e a b => -t.get e a b⟩
        let y := solve u p edges alg ((kw.val "init").getD .none)
        .ok (Res.mk (kw.flag "return_energy" false) (.discrete y) (evaluate u p edges y))

/-- `np.argmax(marginals, axis=-1)`. `pystruct/inference/inference_methods.py` lines 331, 428 and
535. -/
def decodeRows (m : Mat) : Except PyErr YVal :=
  if m.cols = 0 then .error .valueError
  else .ok (.discrete ⟨m.rows, fun i => argmaxN (m.get i) m.cols⟩)

/-- `inference_ad3` for a single node type, `pystruct/inference/inference_methods.py` lines 386-432:
fractional solutions are returned as marginals if `relaxed`, otherwise (and if the solution is
integral) rows are decoded. `inference_exception` is not looked at for a single type. -/
def inferenceAd3 (P : Packages) (U : Mat) (pw : Pairwise) (edges : Edges) (kw : KW) : Except PyErr Res :=
  match P.ad3 with
  | Option.none => .error .importError
  | some (solve, _) =>
    match validateParams U pw edges.length with
    | .error err => .error err
    | .ok (_, t) =>
      let r := solve U edges t (kw.flag "branch_and_bound" false)
      if r.unsolved && kw.flag "relaxed" false then
        match r.unary.ravel.reshape2 U.rows U.cols with
        | .error err => .error err
        | .ok u => .ok (Res.mk (kw.flag "return_energy" false) (.relaxed u.ravel r.pairwise.ravel) (-r.energy))
      else
        match decodeRows r.unary with
        | .error err => .error err
        | .ok y => .ok (Res.mk (kw.flag "return_energy" false) y (-r.energy))

/-- `inference_ad3plus` for a single node type, `pystruct/inference/inference_methods.py` lines
496-539; the potentials are not validated here. -/
def inferenceAd3plus (P : Packages) (U : Mat) (pw : Pairwise) (edges : Edges) (kw : KW) : Except PyErr Res :=
  match P.ad3 with
  | Option.none => .error .importError
  | some (_, solve) =>
    let r := solve U edges pw ((kw.val "constraints").getD .none) (kw.flag "branch_and_bound" false)
    if r.unsolved && kw.flag "relaxed" false then
      .ok (Res.mk (kw.flag "return_energy" false) (.relaxed r.unary.ravel r.pairwise.ravel) (-r.energy))
    else if r.unsolved && kw.flag "inference_exception" false then .error .inferenceException
    else
      match decodeRows r.unary with
      | .error err => .error err
      | .ok y => .ok (Res.mk (kw.flag "return_energy" false) y (-r.energy))

/-- A numeric option; `TypeError` for values that are not numbers (simplification: the code only
notices when the value is used). `pystruct/inference/inference_methods.py` lines 339-340 and
437-438. -/
def KW.number (k : KW) (name : String) (default : ℚ) : Except PyErr ℚ :=
  match k.val name with
  | Option.none => .ok default
  | some (.num q) => .ok q
  | some (.bool b) => .ok (if b then 1 else 0)
  | some _ => .error .typeError

/-- The options of `inference_max_product`; `range(max_iter)` needs an integer, and is empty for a
negative one. `pystruct/inference/maxprod.py` lines 22-23. -/
def maxProductOpts (kw : KW) : Except PyErr MaxProd.Opts :=
  match kw.number "max_iter" 30, kw.number "damping" (1 / 2), kw.number "tol" (1 / 100000) with
  | .ok m, .ok d, .ok t => if m.den ≠ 1 then .error .typeError else .ok ⟨m.num.toNat, d, t⟩
  | .error err, _, _ => .error err
  | _, .error err, _ => .error err
  | _, _, .error err => .error err

/-- The first three parameters of most functions, and of `inference_ad3plus`.
`pystruct/inference/inference_methods.py` lines 125, 242, 284, 338 and 543. -/
def posArgs : List String := ["unary_potentials", "pairwise_potentials", "edges"]
/-- See `posArgs`. `pystruct/inference/inference_methods.py` line 435. -/
def posArgsPlus : List String := ["l_unary_potentials", "l_pairwise_potentials", "l_edges"]

/-- A labelling without energy. `pystruct/inference/inference_methods.py` lines 281 and 578. -/
def plainOf : Except PyErr YVal → Except PyErr Res
  | .error err => .error err
  | .ok y => .ok (.plain y)

/-- The branches of `inference_dispatch`, `pystruct/inference/inference_methods.py` lines 98-122. -/
def branch (P : Packages) (U : Mat) (pw : Pairwise) (edges : Edges) (name : String) (returnEnergy : Bool)
    (kwargs : KW) : Except PyErr Res :=
  if name = "qpbo" then do
    let _ ← bindArgs posArgs [] true [] kwargs
    plainOf (inferenceQpbo P U pw edges)
  else if name = "lp" then do
    let kw ← bindArgs posArgs ["relaxed", "return_energy"] true [("return_energy", .bool returnEnergy)] kwargs
    match LP.inferenceLP P.lp U pw edges (kw.flag "relaxed" false) with
    | .error err => .error err
    | .ok (y, energy) => .ok (Res.mk (kw.flag "return_energy" false) y energy)
  else if name = "ad3" then do
    let kw ← bindArgs posArgs ["relaxed", "verbose", "return_energy", "branch_and_bound", "inference_exception"]
      false [("return_energy", .bool returnEnergy)] kwargs
    inferenceAd3 P U pw edges kw
  else if name = "ad3+" then do
    let kw ← bindArgs posArgsPlus ["relaxed", "verbose", "return_energy", "branch_and_bound", "constraints",
      "inference_exception"] false [("return_energy", .bool returnEnergy)] kwargs
    inferenceAd3plus P U pw edges kw
  else if name = "ogm" then do
    let kw ← bindArgs posArgs ["return_energy", "alg", "init", "reserveNumFactorsPerVariable"] true
      [("return_energy", .bool returnEnergy)] kwargs
    inferenceOgm P U pw edges kw
  else if name = "unary" then do
    let _ ← bindArgs posArgs ["verbose"] true [] kwargs
    plainOf ((inferenceUnaries U pw edges).map .discrete)
  else if name = "max-product" then do
    let kw ← bindArgs posArgs ["max_iter", "damping", "tol", "relaxed"] false [] kwargs
    let opts ← maxProductOpts kw
    plainOf (MaxProd.maxProductInfer opts U pw edges)
  else .error .valueError

/-- The argument `inference_method`: a name, or a name with options.
`pystruct/inference/inference_methods.py` lines 92-94. -/
inductive Method where
  | name (s : String)
  | withOpts (s : String) (opts : KW)

/-- `inference_dispatch`, `pystruct/inference/inference_methods.py` lines 38-122, for a single node type.
`kwargs` does not contain the names of its own parameters. -/
def dispatch (P : Packages) (U : Mat) (pw : Pairwise) (edges : Edges) (method : Method) (returnEnergy : Bool)
    (kwargs : KW) : Except PyErr Res :=
  match method with
  | .name s => branch P U pw edges s returnEnergy kwargs
  | .withOpts s d => branch P U pw edges s returnEnergy (kwargs.update d)

/-- The loop of `get_installed`, `pystruct/inference/inference_methods.py` lines 12-26: each method is tried
on a graph with one node, one state and no edges; methods that raise `ImportError` are left out. -/
def getInstalled (P : Packages) : List String → Except PyErr (List String)
  | [] => .ok []
  | s :: rest =>
    let pw : Pairwise := if s ≠ "ad3+" then .mat ⟨1, 1, fun _ _ => 0⟩ else .ten ⟨0, 1, 1, fun _ _ _ => 0⟩
    match dispatch P ⟨1, 1, fun _ _ => 0⟩ pw [] (.name s) false [] with
    | .ok _ =>
      match getInstalled P rest with
      | .error err => .error err
      | .ok l => .ok (s :: l)
    | .error err => if err = .importError then getInstalled P rest else .error err

/-- The default inference method of a CRF, `pystruct/models/crf.py` lines 13-15 (`IndexError` if nothing is
installed). -/
def defaultMethod (P : Packages) : Except PyErr String :=
  match getInstalled P ["ad3", "max-product", "lp"] with
  | .error err => .error err
  | .ok [] => .error .indexError
  | .ok (s :: _) => .ok s

/-- The keyword arguments of `CRF.inference`, `pystruct/models/crf.py` lines 171-183: constraints are passed
on if they are not empty. -/
def inferenceKW (relaxed : KVal) (constraints : KVal) : KW :=
  if constraints.truthy then [("relaxed", relaxed), ("constraints", constraints)] else [("relaxed", relaxed)]

/-- `CRF.inference` of a `GraphCRF` with all its arguments, `pystruct/models/crf.py` lines 165-183. -/
def crfInference (P : Packages) (method : Method) (m : GraphCRF.Model) (x : GraphCRF.X) (w : Vec)
    (relaxed : KVal) (returnEnergy : Bool) (constraints : KVal) : Except PyErr Res := do
  GraphCRF.checkSizeW (GraphCRF.sizeJointFeature m) w
  let unary ← GraphCRF.unaryPotentials m x w
  let pairwise ← GraphCRF.pairwisePotentials m x w
  dispatch P unary (.mat pairwise) x.edges method returnEnergy (inferenceKW relaxed constraints)

/-- `CRF.loss_augmented_inference` of a `GraphCRF` with all its arguments, `pystruct/models/crf.py` lines
108-118. -/
def crfLossAugmented (P : Packages) (method : Method) (cw : Vec) (m : GraphCRF.Model) (x : GraphCRF.X)
    (y : Labels) (w : Vec) (relaxed : KVal) (returnEnergy : Bool) : Except PyErr Res := do
  GraphCRF.checkSizeW (GraphCRF.sizeJointFeature m) w
  let unary ← GraphCRF.unaryPotentials m x w
  let pairwise ← GraphCRF.pairwisePotentials m x w
  let unary ← Loss.lossAugmentUnaries unary y cw
  dispatch P unary (.mat pairwise) x.edges method returnEnergy [("relaxed", relaxed)]

/-- The labelling of a result. `pystruct/inference/inference_methods.py` lines 333-335. -/
def Res.labels : Res → YVal
  | .plain y => y
  | .pair y _ => y

/-- The inference method of a `CRF` as learners call it through `inference` and `loss_augmented_inference`
(`pystruct/models/crf.py` lines 115-118 and 171-183): without `return_energy` and without constraints. -/
def backend (P : Packages) (method : Method) (relaxed : Bool) : GraphCRF.Infer := fun U pw edges =>
  match dispatch P U pw edges method false [("relaxed", .bool relaxed)] with
  | .error err => .error err
  | .ok r => .ok r.labels

end Verif.Dispatch
