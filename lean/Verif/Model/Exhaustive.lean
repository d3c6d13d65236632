import Verif.Model.GraphCRF

/-!
# Model of the exhaustive inference functions of `pystruct/utils/inference.py`
-/

namespace Verif.Exhaustive

open Verif.Common

/-- `itertools.product(range(S), repeat=n)`: all tuples in lexicographic order.
`pystruct/utils/inference.py` lines 134 and 154. -/
def product (S : ℕ) : ℕ → List (List ℕ)
  | 0 => [[]]
  | n + 1 => (List.range S).flatMap fun a => (product S n).map (a :: ·)

/-- `np.array(y_hat)` of a tuple. `pystruct/utils/inference.py` lines 135 and 155. -/
def ofTuple (l : List ℕ) : Labels := ⟨l.length, fun i => l.getD i 0⟩

/-- One iteration of the search loop, `pystruct/utils/inference.py` lines 157-161 (and 137-141): the state
is the best energy so far with its labelling, `none` standing for `best_energy = inf`,
`best_y = None`; `energy` may raise. -/
def step (energy : Labels → Except PyErr ℚ) (best : Option (ℚ × Labels)) (l : List ℕ) :
    Except PyErr (Option (ℚ × Labels)) :=
  match energy (ofTuple l) with
  | .error err => .error err
  | .ok e =>
    match best with
    | none => .ok (some (e, ofTuple l))
    | some (b, y) => if e < b then .ok (some (e, ofTuple l)) else .ok (some (b, y))

/-- The loop over all labellings, `pystruct/utils/inference.py` lines 154-161. -/
def search (energy : Labels → Except PyErr ℚ) :
    List (List ℕ) → Option (ℚ × Labels) → Except PyErr (Option (ℚ × Labels))
  | [], best => .ok best
  | l :: ls, best =>
    match step energy best l with
    | .error err => .error err
    | .ok best' => search energy ls best'

/-- `-np.dot(w, joint_feature)`, `pystruct/utils/inference.py` lines 157-158. -/
def energyOf (jointFeature : Labels → Except PyErr Vec) (w : Vec) (y : Labels) : Except PyErr ℚ :=
  match jointFeature y with
  | .error err => .error err
  | .ok ψ =>
    match w.dot ψ with
    | .error err => .error err
    | .ok d => .ok (-d)

/-- `-model.loss(y, y_hat) - np.dot(w, joint_feature)`, `pystruct/utils/inference.py` lines 137-138. -/
def energyLossOf (jointFeature : Labels → Except PyErr Vec) (loss : Labels → Except PyErr ℚ)
    (w : Vec) (yhat : Labels) : Except PyErr ℚ :=
  match jointFeature yhat with
  | .error err => .error err
  | .ok ψ =>
    match loss yhat with
    | .error err => .error err
    | .ok l =>
      match w.dot ψ with
      | .error err => .error err
      | .ok d => .ok (-l - d)

/-- `exhaustive_inference`, `pystruct/utils/inference.py` lines 145-162, for a one-dimensional labelling of
`size` nodes (`feats.shape[:-1]`; grids differ only by a reshape). `none` is Python's `None`. -/
def exhaustiveInference (nStates size : ℕ) (jointFeature : Labels → Except PyErr Vec) (w : Vec) :
    Except PyErr (Option Labels) :=
  match search (energyOf jointFeature w) (product nStates size) none with
  | .error err => .error err
  | .ok best => .ok (best.map Prod.snd)

/-- `exhaustive_loss_augmented_inference`, `pystruct/utils/inference.py` lines 130-142. -/
def exhaustiveLossAugmented (nStates size : ℕ) (jointFeature : Labels → Except PyErr Vec)
    (loss : Labels → Except PyErr ℚ) (w : Vec) : Except PyErr (Option Labels) :=
  match search (energyLossOf jointFeature loss w) (product nStates size) none with
  | .error err => .error err
  | .ok best => .ok (best.map Prod.snd)

end Verif.Exhaustive
