import Verif.Model.LatentSSVM
import Verif.Model.Subgradient
import Verif.Model.Perceptron

/-!
# The learners of the library as base learners of `LatentSSVM`

`pystruct/learners/latent_structured_svm.py` lines 118-125 call `fit(X, H, constraints=…, warm_start="soft",
initialize=False)`, in the first iteration without `warm_start`. `KeyboardInterrupt`s and the parameter `switch_to`
(which changes the model) are left out.
-/

namespace Verif.LatentSSVM

open Verif.Learner Verif.NSlack

/-- `SubgradientSSVM.fit`, `pystruct/learners/subgradient_ssvm.py` line 154: `constraints` is ignored, every nonempty
string is a warm start. `order data` are the shuffles of the data. -/
def subgradientBase {X H : Type} (m : SModel X H) (order : List (X × H) → ℕ → List (X × H)) :
    Base Subgradient.Obj X H where
  fit := fun o data _ warm => Subgradient.fit m (order data) o data warm
  w := fun o => o.w.getD fun _ => 0
  constraints := fun _ => none

/-- `OneSlackSSVM.fit`, `pystruct/learners/one_slack_ssvm.py` line 398: `constraints` is ignored. -/
def oneSlackBase {X H : Type} (m : SModel X H) (qp : QP.Solver) (eq : H → H → Except PyErr Bool) :
    Base (OneSlack.Obj H) X H where
  fit := fun o data _ warm =>
    OneSlack.fit m qp eq none (fun _ => none) o data (if warm then .soft else .no)
  w := fun o => (o.attrs.map OneSlack.Attrs.w).getD fun _ => 0
  constraints := fun _ => none

/-- The base learner after `NSlackSSVM.fit`, `pystruct/learners/n_slack_ssvm.py` lines 240-400. -/
def nSlackFit {X H : Type} (m : SModel X H) (qp : QP.Solver) (eq : H → H → Bool) (o : NSlack.Obj H)
    (data : List (X × H)) (constraints : Option (List (List (NCon H)))) : Except PyErr (NSlack.Obj H) :=
  match NSlack.fit m qp eq none (fun _ _ => none) o data constraints with
  | .error err => .error err
  | .ok r => .ok r.1

/-- `NSlackSSVM.fit`, `pystruct/learners/n_slack_ssvm.py` line 240: `warm_start` is ignored; `constraints_` is an
attribute. -/
def nSlackBase {X H : Type} (m : SModel X H) (qp : QP.Solver) (eq : H → H → Bool) : Base (NSlack.Obj H) X H where
  fit := fun o data constraints _ => nSlackFit m qp eq o data constraints
  w := fun o => (o.attrs.map NSlack.Attrs.w).getD fun _ => 0
  constraints := fun o => o.attrs.map fun a => (List.range a.n).map a.constraints

/-- `StructuredPerceptron.fit(X, Y, initialize=True)`, `pystruct/learners/structured_perceptron.py` line 82, has no
parameter `constraints`. -/
def perceptronBase {X H : Type} : Base Perceptron.Obj X H where
  fit := fun _ _ _ _ => .error .typeError
  w := fun o => o.w
  constraints := fun _ => none

end Verif.LatentSSVM
