import Verif.Basic.Arr
import Mathlib.Data.Nat.Digits.Defs

/-!
# Model of `pystruct/utils/logging.py` (`SaveLogger`)

The learner is an arbitrary state together with the attribute `inference_cache_`, which may be missing. Files
are a function from names (lists of characters) to contents. Opening a file and pickling may fail; a failing
`pickle.dump` leaves a broken file. `verbose` (printing) is not modelled.
-/

namespace Verif.Logger

/-- A learner: `cache = none` means that there is no attribute `inference_cache_`, `some none` that
it is `None`. `pystruct/utils/logging.py` lines 58-65. -/
structure Learner (σ γ : Type) where
  state : σ
  cache : Option (Option γ)

/-- Contents of a file. `pystruct/utils/logging.py` lines 57 and 69. -/
inductive File (σ γ : Type) where
  | absent
  | broken
  | pickled (l : Learner σ γ)

/-- Names of files. `pystruct/utils/logging.py` lines 27 and 57. -/
abbrev Name := List Char

/-- All files. `pystruct/utils/logging.py` lines 57 and 69. -/
abbrev Files (σ γ : Type) := Name → File σ γ

/-- The environment: which files can be opened for writing, and which learners can be pickled.
`pystruct/utils/logging.py` lines 57-65. -/
structure Env (σ γ : Type) where
  canOpen : Name → Bool
  canDump : Learner σ γ → Bool

/-- `SaveLogger.__init__`, `pystruct/utils/logging.py` lines 26-29 (`save_every` as a natural number). -/
structure SaveLogger where
  fileName : Name
  saveEvery : ℕ

/-- The argument `iteration`. `pystruct/utils/logging.py` lines 35 and 47. -/
inductive Iter where
  | num (n : ℕ)
  | final
  deriving DecidableEq

/-- Decimal notation of a number. `pystruct/utils/logging.py` line 50. -/
def decimal (n : ℕ) : List Char := if n = 0 then ['0'] else ((Nat.digits 10 n).map Nat.digitChar).reverse

/-- `"%d" in file_name`. `pystruct/utils/logging.py` line 49. -/
def hasD : Name → Bool
  | '%' :: 'd' :: _ => true
  | _ :: rest => hasD rest
  | [] => false

/-- `file_name % iteration`: `used` tells whether the argument has been consumed. A second `%d`, an
unused argument and a string argument raise `TypeError`. Simplification: conversions other than `%d`
and `%%` are treated as `ValueError`. `pystruct/utils/logging.py` line 50. -/
def format (it : Iter) : Name → (used : Bool) → Except PyErr Name
  | [], true => .ok []
  | [], false => .error .typeError
  | '%' :: 'd' :: rest, false =>
    match it with
    | .final => .error .typeError
    | .num n =>
      match format it rest true with
      | .error err => .error err
      | .ok s => .ok (decimal n ++ s)
  | '%' :: 'd' :: _, true => .error .typeError
  | '%' :: '%' :: rest, used =>
    match format it rest used with
    | .error err => .error err
    | .ok s => .ok ('%' :: s)
  | '%' :: _, _ => .error .valueError
  | c :: rest, used =>
    match format it rest used with
    | .error err => .error err
    | .ok s => .ok (c :: s)

/-- What a call leaves behind: files, the learner in memory, and an exception if there was one.
`pystruct/utils/logging.py` lines 47-65. -/
structure Outcome (σ γ : Type) where
  files : Files σ γ
  learner : Learner σ γ
  result : Except PyErr Unit

/-- Change one file. `pystruct/utils/logging.py` lines 57-65. -/
def Files.set {σ γ : Type} (files : Files σ γ) (name : Name) (c : File σ γ) : Files σ γ :=
  fun n => if n = name then c else files n

/-- `SaveLogger.save`, `pystruct/utils/logging.py` lines 55-65: the file is truncated first; the cache is set
to `None` for pickling and put back afterwards, but not when pickling raises. -/
def save {σ γ : Type} (env : Env σ γ) (files : Files σ γ) (l : Learner σ γ) (name : Name) : Outcome σ γ :=
  if env.canOpen name = false then ⟨files, l, .error .exception⟩
  else
    match l.cache with
    | none =>
      if env.canDump l then ⟨files.set name (.pickled l), l, .ok ()⟩
      else ⟨files.set name .broken, l, .error .exception⟩
    | some c =>
      let stripped : Learner σ γ := ⟨l.state, some none⟩
      if env.canDump stripped then ⟨files.set name (.pickled stripped), ⟨l.state, some c⟩, .ok ()⟩
      else ⟨files.set name .broken, stripped, .error .exception⟩

/-- Whether the call saves: `iteration == 'final' or not iteration % self.save_every`,
`pystruct/utils/logging.py` line 47. -/
def due (lg : SaveLogger) : Iter → Except PyErr Bool
  | .final => .ok true
  | .num n => if lg.saveEvery = 0 then .error .zeroDivisionError else .ok (n % lg.saveEvery = 0)

/-- `SaveLogger.__call__`, `pystruct/utils/logging.py` lines 35-53. -/
def call {σ γ : Type} (env : Env σ γ) (lg : SaveLogger) (files : Files σ γ) (l : Learner σ γ) (it : Iter) :
    Outcome σ γ :=
  match due lg it with
  | .error err => ⟨files, l, .error err⟩
  | .ok false => ⟨files, l, .ok ()⟩
  | .ok true =>
    if hasD lg.fileName then
      match format it lg.fileName false with
      | .error err => ⟨files, l, .error err⟩
      | .ok name => save env files l name
    else save env files l lg.fileName

/-- `SaveLogger.load`, `pystruct/utils/logging.py` lines 67-71: opens the file name as it is. -/
def load {σ γ : Type} (lg : SaveLogger) (files : Files σ γ) : Except PyErr (Learner σ γ) :=
  match files lg.fileName with
  | .pickled l => .ok l
  | _ => .error .exception

/-- The calls a learner makes while it is trained (e.g. `pystruct/learners/subgradient_ssvm.py` lines
224-236): one per iteration with the learner of that moment; an exception ends the training. -/
def run {σ γ : Type} (env : Env σ γ) (lg : SaveLogger) :
    Files σ γ → List (Learner σ γ × Iter) → Except PyErr (Files σ γ)
  | files, [] => .ok files
  | files, (l, it) :: rest =>
    match (call env lg files l it).result with
    | .error err => .error err
    | .ok _ => run env lg (call env lg files l it).files rest

end Verif.Logger
