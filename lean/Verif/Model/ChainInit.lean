import Verif.Model.Dispatch
import Verif.Model.Init

/-!
# Model of the constructors of `GraphCRF` and `ChainCRF` with their inference method
-/

namespace Verif.ChainInit

open Verif.Common Verif.Dispatch

/-- The attribute `inference_method` set by `CRF.__init__`; `none` stands for `None`. `pystruct/models/crf.py` lines 13-16. -/
def chooseMethod (P : Packages) (method : Option Method) : Except PyErr Method :=
  match method with
  | none =>
    match defaultMethod P with
    | .error err => .error err
    | .ok s => .ok (.name s)
  | some m => .ok m

/-- `CRF.__init__` of a `GraphCRF` for given values of all arguments, `pystruct/models/crf.py` lines 10-21: the sizes and weights, and
the inference method. -/
def crfInit (P : Packages) (nStates nFeatures : Option ℕ) (method : Option Method) (classWeight : Option Vec) (directed : Bool) :
    Except PyErr (Init.State × Method) :=
  match chooseMethod P method with
  | .error err => .error err
  | .ok m =>
    match Init.construct nStates nFeatures classWeight directed with
    | .error err => .error err
    | .ok st => .ok (st, m)

/-- `GraphCRF.__init__`; `none` stands for an argument that is not given. `pystruct/models/graph_crf.py` lines 88-92. -/
def graphInit (P : Packages) (nStates nFeatures : Option ℕ) (method : Option Method) (classWeight : Option Vec) (directed : Option Bool) :
    Except PyErr (Init.State × Method) :=
  crfInit P nStates nFeatures method classWeight (directed.getD false)

/-- `ChainCRF.__init__`; `none` stands for an argument that is not given. `pystruct/models/chain_crf.py` lines 48-54. -/
def chainInit (P : Packages) (nStates nFeatures : Option ℕ) (method : Option Method) (classWeight : Option Vec) (directed : Option Bool) :
    Except PyErr (Init.State × Method) :=
  graphInit P nStates nFeatures (some (method.getD (.name "max-product"))) classWeight (some (directed.getD true))

end Verif.ChainInit
