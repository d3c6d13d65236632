import Verif.Model.InitMore
import Verif.Model.Logger

/-!
# Model of the printed forms (`__repr__`) of models and loggers

Text is a `String`; numbers of states and features are natural numbers or `None`. The inference method is its
printed form (a name, or the `repr` of a pair).
-/

namespace Verif.Repr

open Verif.Common

/-- `%s` of an attribute that is a number or `None`. `pystruct/models/crf.py` lines 44-46. -/
def percentS : Option ℕ → String
  | none => "None"
  | some n => toString n

/-- `%d` of an attribute that is a number or `None`: `TypeError` for `None`.
`pystruct/models/edge_feature_graph_crf.py` lines 103-106. -/
def percentD : Option ℕ → Except PyErr String
  | none => .error .typeError
  | some n => .ok (toString n)

/-- `CRF.__repr__`, `pystruct/models/crf.py` lines 43-46; `cls` is the name of the class. -/
def crf (cls : String) (nStates : Option ℕ) (method : String) : String :=
  cls ++ "(n_states: " ++ percentS nStates ++ ", inference_method: " ++ method ++ ")"

/-- `EdgeFeatureGraphCRF.__repr__`, `pystruct/models/edge_feature_graph_crf.py` lines 102-106, which
`DirectionalGridCRF` and `LatentDirectionalGridCRF` inherit. -/
def edgeFeature (cls : String) (nStates : Option ℕ) (method : String) (nFeatures nEdgeFeatures : Option ℕ) :
    Except PyErr String := do
  let s ← percentD nStates
  let f ← percentD nFeatures
  let e ← percentD nEdgeFeatures
  pure (cls ++ "(n_states: " ++ s ++ ", inference_method: " ++ method ++ ", n_features: " ++ f ++
    ", n_edge_features: " ++ e ++ ")")

/-- `EdgeFeatureGraphCRF.__repr__` of a model or of a `DirectionalGridCRF`.
`pystruct/models/edge_feature_graph_crf.py` lines 102-106. -/
def ofEF (cls method : String) (st : Init.EFState) : Except PyErr String :=
  edgeFeature cls st.nStates method st.nFeatures st.nEdgeFeatures

/-- `__repr__` of a `LatentDirectionalGridCRF`: the first class after it in the order of its bases that has one is
`EdgeFeatureGraphCRF`. `pystruct/models/edge_feature_graph_crf.py` lines 102-106, `latent_grid_crf.py` line 54. -/
def ofLatentDirectional (method : String) (st : Init.LGState) : Except PyErr String :=
  edgeFeature "LatentDirectionalGridCRF" st.nStates method st.nFeatures st.nEdgeFeatures

/-- `BinaryClf.__repr__`, `pystruct/models/unstructured_svm.py` lines 40-42. -/
def binary (size : Option ℕ) : Except PyErr String := do
  let n ← percentD size
  pure ("BinaryClf, n_features: " ++ n)

/-- `MultiClassClf.__repr__`, `pystruct/models/unstructured_svm.py` lines 197-199. -/
def multiClass (cls : String) (st : Init.MCState) : Except PyErr String := do
  let f ← percentD st.nFeatures
  let s ← percentD st.nStates
  pure (cls ++ "(n_features=" ++ f ++ ", n_classes=" ++ s ++ ")")

/-- `StructuredModel.__repr__`, `pystruct/models/base.py` lines 10-12. -/
def structured (cls : String) (size : Option ℕ) : Except PyErr String := do
  let n ← percentD size
  pure (cls ++ ", size_joint_feature: " ++ n)

/-- `SaveLogger.__repr__`, `pystruct/utils/logging.py` lines 31-33. -/
def saveLogger (lg : Logger.SaveLogger) : String :=
  "SaveLogger(file_name=\"" ++ String.ofList lg.fileName ++ "\", save_every=" ++ toString lg.saveEvery ++ ")"

end Verif.Repr
