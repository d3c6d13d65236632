import Verif.Model.Batch
import Verif.Model.Dispatch

/-!
# Model of `BaseSSVM.predict` with its argument `constraints`

A model is seen through two methods, `inference` and `batch_inference`. A keyword argument is `none` if it is not passed.
Calling a method with a keyword argument it does not have raises `TypeError`.
-/

namespace Verif.PredictConstraints

open Verif.Common Verif.Batch Verif.Dispatch

/-- The methods of a model that `predict` calls, for weights `w`: `inference(x, w, relaxed=…,
constraints=…)` and `batch_inference(X, w, constraints=…)`. The optional arguments are `none` if not
passed. `pystruct/learners/ssvm.py` lines 37-57. -/
structure Methods (X Y : Type) where
  inference : X → (relaxed : Option KVal) → (constraints : Option KVal) → Except PyErr Y
  batch : List X → (constraints : Option (List KVal)) → Except PyErr (List Y)

/-- `utils.inference.inference`, `pystruct/utils/inference.py` lines 103-107: constraints are only passed if they are truthy. -/
def utilInference {X Y : Type} (inference : X → Option KVal → Option KVal → Except PyErr Y) (x : X) (c : KVal) : Except PyErr Y :=
  if c.truthy then inference x none (some c) else inference x none none

/-- `StructuredModel.batch_inference`, `pystruct/models/base.py` lines 52-58; `constraints` is a list (`None` and the empty list
are falsy). -/
def defaultBatch {X Y : Type} (inference : X → Option KVal → Option KVal → Except PyErr Y) (X : List X)
    (constraints : Option (List KVal)) : Except PyErr (List Y) :=
  match constraints with
  | some (c :: cs) => comprehension (fun p => inference p.1 (some .none) (some p.2)) (X.zip (c :: cs))
  | _ => comprehension (fun x => inference x (some .none) none) X

/-- The methods of a subclass of `CRF`: `inference(x, w, relaxed=False, return_energy=False, constraints=None)`,
`pystruct/models/crf.py` lines 120-121, and the inherited `batch_inference`. `inf x relaxed constraints` is its body. -/
def crfMethods {X Y : Type} (inf : X → KVal → KVal → Except PyErr Y) : Methods X Y :=
  let inference := fun x (relaxed constraints : Option KVal) => inf x (relaxed.getD (.bool false)) (constraints.getD .none)
  ⟨inference, defaultBatch inference⟩

/-- The methods of `GridCRF` and its subclasses: `inference(x, w, relaxed=False, return_energy=False)`,
`pystruct/models/grid_crf.py` line 64, and the inherited `batch_inference`. -/
def gridMethods {X Y : Type} (inf : X → KVal → Except PyErr Y) : Methods X Y :=
  let inference := fun x (relaxed constraints : Option KVal) =>
    if constraints.isSome then .error .typeError else inf x (relaxed.getD (.bool false))
  ⟨inference, defaultBatch inference⟩

/-- The methods of `BinaryClf` and `MultiClassClf`: neither `inference` (`pystruct/models/unstructured_svm.py` lines 70 and 253)
nor `batch_inference` (lines 95 and 327) has a parameter `constraints`. -/
def clfMethods {X Y : Type} (inf : X → Except PyErr Y) (batch : List X → Except PyErr (List Y)) : Methods X Y :=
  ⟨fun x _ constraints => if constraints.isSome then .error .typeError else inf x,
    fun X constraints => if constraints.isSome then .error .typeError else batch X⟩

/-- `BaseSSVM.predict`, `pystruct/learners/ssvm.py` lines 21-57; `constraints` is `none` or a list. Every model has a method
`batch_inference`. The parallel map returns the results in the order of the samples (`Batch.parallelRun`); if several samples raise,
which exception is seen depends on timing, here it is the first one (simplification). -/
def predict {X Y : Type} (M : Methods X Y) (nJobs : ℤ) (X : List X) (constraints : Option (List KVal)) : Except PyErr (List Y) :=
  match constraints with
  | some (c :: cs) =>
    if nJobs ≠ 1 then comprehension (fun p => utilInference M.inference p.1 p.2) (X.zip (c :: cs))
    else M.batch X (some (c :: cs))
  | _ => if nJobs ≠ 1 then comprehension (fun x => utilInference M.inference x .none) X else M.batch X none

end Verif.PredictConstraints
