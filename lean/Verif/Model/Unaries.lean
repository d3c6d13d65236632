import Verif.Model.GraphCRF

/-!
# Model of `inference_unaries`
-/

namespace Verif.Dispatch

open Verif.Common

/-- `inference_unaries`, `pystruct/inference/inference_methods.py` lines 543-578, for two-dimensional
unaries: the pairwise potentials are validated and otherwise ignored. `np.argmax` over an empty axis
raises `ValueError`. -/
def inferenceUnaries (unary : Mat) (pw : Pairwise) (edges : Edges) : Except PyErr Labels :=
  match validateParams unary pw edges.length with
  | .error err => .error err
  | .ok _ =>
    if unary.cols = 0 then .error .valueError
    else .ok ⟨unary.rows, fun i => argmaxN (unary.get i) unary.cols⟩

end Verif.Dispatch
