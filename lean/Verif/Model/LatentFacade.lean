import Verif.Model.LatentBases

/-!
# Attributes of `LatentSSVM` that belong to its base learner

`pystruct/learners/latent_structured_svm.py` lines 52-55, 129-134 and 160-198.
-/

namespace Verif.LatentSSVM

open Verif.Learner

/-- What the attribute `w` of a learner can hold: an array, as after `fit`, or a Python number, as after the
assignment in `pystruct/learners/latent_structured_svm.py` line 182. -/
inductive WVal where
  | array (v : Vec)
  | number (c : ℚ)

/-- The attributes of a base learner that `LatentSSVM` hands on (`pystruct/learners/ssvm.py` lines 11-19) and all its
other attributes `rest`; `w` does not exist before the first `fit`. -/
structure BaseAttrs (M R : Type) where
  model : M
  w : Option WVal
  C : ℚ
  nJobs : ℤ
  verbose : ℤ
  rest : R

/-- A `LatentSSVM` object, `pystruct/learners/latent_structured_svm.py` lines 52-55 (the logger is left out). -/
structure Facade (M R : Type) where
  base : BaseAttrs M R
  latentIter : ℕ

/-- The property `model`, `pystruct/learners/latent_structured_svm.py` lines 160-162. -/
def Facade.model {M R : Type} (o : Facade M R) : M := o.base.model

/-- Assignment to `model`, `pystruct/learners/latent_structured_svm.py` lines 164-166. -/
def Facade.setModel {M R : Type} (o : Facade M R) (m : M) : Facade M R := { o with base := { o.base with model := m } }

/-- The property `w`, `pystruct/learners/latent_structured_svm.py` lines 168-170: `AttributeError` before the first
`fit`. -/
def Facade.w {M R : Type} (o : Facade M R) : Except PyErr WVal :=
  match o.base.w with
  | none => .error .attributeError
  | some v => .ok v

/-- Assignment to `w`, `pystruct/learners/latent_structured_svm.py` lines 172-174. -/
def Facade.setW {M R : Type} (o : Facade M R) (v : WVal) : Facade M R := { o with base := { o.base with w := some v } }

/-- The property `C`, `pystruct/learners/latent_structured_svm.py` lines 176-178. -/
def Facade.C {M R : Type} (o : Facade M R) : ℚ := o.base.C

/-- Assignment to `C`, `pystruct/learners/latent_structured_svm.py` lines 180-182: the value is stored in the attribute
`w` of the base learner. -/
def Facade.setC {M R : Type} (o : Facade M R) (c : ℚ) : Facade M R :=
  { o with base := { o.base with w := some (.number c) } }

/-- The property `n_jobs`, `pystruct/learners/latent_structured_svm.py` lines 184-186. -/
def Facade.nJobs {M R : Type} (o : Facade M R) : ℤ := o.base.nJobs

/-- Assignment to `n_jobs`, `pystruct/learners/latent_structured_svm.py` lines 188-190. -/
def Facade.setNJobs {M R : Type} (o : Facade M R) (n : ℤ) : Facade M R := { o with base := { o.base with nJobs := n } }

/-- The property `verbose`, `pystruct/learners/latent_structured_svm.py` lines 192-194. -/
def Facade.verbose {M R : Type} (o : Facade M R) : ℤ := o.base.verbose

/-- Assignment to `verbose`, `pystruct/learners/latent_structured_svm.py` lines 196-198. -/
def Facade.setVerbose {M R : Type} (o : Facade M R) (v : ℤ) : Facade M R :=
  { o with base := { o.base with verbose := v } }

/-- `model.inference(x, w)` with what the attribute `w` holds: `_check_size_w` reads `w.shape`
(`pystruct/models/base.py` lines 21-24), and a Python number has no attribute `shape`. `inf` is the inference of the
model for an array. -/
def inferWith {M X H : Type} (inf : M → X → Vec → Except PyErr H) (m : M) (w : Option WVal) (x : X) : Except PyErr H :=
  match w with
  | none => .error .attributeError
  | some (.number _) => .error .attributeError
  | some (.array v) => inf m x v

/-- `predict_latent`, `pystruct/learners/latent_structured_svm.py` lines 133-134: `predict` of the base learner,
`pystruct/learners/ssvm.py` lines 48-57. The parallel version (lines 38-46) returns the same list
(`Verif.Batch.parallelRun`). -/
def predictLatent {M R X H : Type} (inf : M → X → Vec → Except PyErr H) (o : Facade M R) : List X → Except PyErr (List H)
  | [] => .ok []
  | x :: xs =>
    match inferWith inf o.model o.base.w x with
    | .error err => .error err
    | .ok h =>
      match predictLatent inf o xs with
      | .error err => .error err
      | .ok hs => .ok (h :: hs)

/-- The list `[self.model.label_from_latent(h) for h in prediction]`,
`pystruct/learners/latent_structured_svm.py` line 131. -/
def labelAll {M H Y : Type} (lab : M → H → Except PyErr Y) (m : M) : List H → Except PyErr (List Y)
  | [] => .ok []
  | h :: hs =>
    match lab m h with
    | .error err => .error err
    | .ok y =>
      match labelAll lab m hs with
      | .error err => .error err
      | .ok ys => .ok (y :: ys)

/-- `predict`, `pystruct/learners/latent_structured_svm.py` lines 129-131. -/
def predictLabels {M R X H Y : Type} (inf : M → X → Vec → Except PyErr H) (lab : M → H → Except PyErr Y)
    (o : Facade M R) (xs : List X) : Except PyErr (List Y) :=
  match predictLatent inf o xs with
  | .error err => .error err
  | .ok hs => labelAll lab o.model hs

/-- The weights `SubgradientSSVM.fit` starts from, `pystruct/learners/subgradient_ssvm.py` lines 182-183:
`getattr(self, "w", np.zeros(...)).copy()`. A Python number has no attribute `copy`. -/
def subgradientStart (size : ℕ) (w : Option WVal) : Except PyErr Vec :=
  match w with
  | none => .ok ⟨size, fun _ => 0⟩
  | some (.number _) => .error .attributeError
  | some (.array v) => .ok v

end Verif.LatentSSVM
