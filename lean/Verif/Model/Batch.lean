import Verif.Model.Common

/-!
# Model of the generic batch operations of `pystruct/models/base.py` and of `BaseSSVM.predict`
-/

namespace Verif.Batch

open Finset Verif.Common

/-- `acc += v` for one-dimensional arrays; unequal lengths raise `ValueError` (broadcasting of a
one-element array is not modelled). `pystruct/models/base.py` lines 37 and 40. -/
def addInto (acc v : Vec) : Except PyErr Vec :=
  if acc.size ≠ v.size then .error .valueError
  else .ok ⟨acc.size, fun k => acc.get k + v.get k⟩

/-- The loops of `StructuredModel.batch_joint_feature`, `pystruct/models/base.py` lines 35-41: the
samples (already zipped with labels, and with true labels under `rescale_C`) are processed in order,
each joint feature is added to the accumulator. -/
def batchLoop {α : Type} (jf : α → Except PyErr Vec) : List α → Vec → Except PyErr Vec
  | [], acc => .ok acc
  | a :: as, acc =>
    match jf a with
    | .error err => .error err
    | .ok v =>
      match addInto acc v with
      | .error err => .error err
      | .ok acc' => batchLoop jf as acc'

/-- `StructuredModel.batch_joint_feature`, `pystruct/models/base.py` lines 33-41. -/
def batchJointFeature {α : Type} (size : ℕ) (jf : α → Except PyErr Vec) (samples : List α) :
    Except PyErr Vec :=
  batchLoop jf samples ⟨size, fun _ => 0⟩

/-- A list comprehension `[f(a) for a in l]` whose body may raise. It models
`StructuredModel.batch_inference` (`pystruct/models/base.py` lines 52-58),
`batch_loss` (lines 68-70) and `batch_loss_augmented_inference` (lines 95-98), which are
comprehensions over the samples (zipped with labels or constraints). -/
def comprehension {α β : Type} (f : α → Except PyErr β) : List α → Except PyErr (List β)
  | [] => .ok []
  | a :: as =>
    match f a with
    | .error err => .error err
    | .ok b =>
      match comprehension f as with
      | .error err => .error err
      | .ok bs => .ok (b :: bs)

/-- `joblib.Parallel(n_jobs)(delayed(f)(a) for a in l)`: the tasks finish in some order `schedule`
(which depends on `n_jobs` and timing); each finished task stores its result in the slot of its
sample and the slots are returned in order of submission. Joblib itself is trusted to behave this
way. `none` is a slot not filled in. `pystruct/learners/ssvm.py` lines 40-45. The scheduling itself
is joblib and is an assumption. -/
def parallelSlots {α β : Type} (f : α → β) (l : List α) (schedule : List ℕ) : ℕ → Option β :=
  schedule.foldl (fun slots i => fun j => if j = i then (l[i]?).map f else slots j) (fun _ => none)

/-- The returned list of a parallel run. `pystruct/learners/ssvm.py` lines 40-46. -/
def parallelRun {α β : Type} (f : α → β) (l : List α) (schedule : List ℕ) : List (Option β) :=
  (List.range l.length).map (parallelSlots f l schedule)

/-- `BaseSSVM.predict` without constraints, `pystruct/learners/ssvm.py` lines 21-57, for a model whose
inference does not raise: `n_jobs != 1` runs in parallel, otherwise the model's `batch_inference`
is used (every `StructuredModel` has one). -/
def predict {X Y : Type} (inference : X → Y) (batchInference : List X → List Y) (nJobs : ℤ)
    (schedule : List ℕ) (l : List X) : List (Option Y) :=
  if nJobs ≠ 1 then parallelRun inference l schedule
  else (batchInference l).map some

end Verif.Batch
