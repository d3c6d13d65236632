import Verif.Model.Common

/-!
# Model of the loss functions (`pystruct/models/base.py`) and loss augmentation (`src/utils.pyx`)
-/

namespace Verif.Loss

open Finset Verif.Common

/-- `StructuredModel.loss` on discrete labellings, `pystruct/models/base.py` lines 60-66: weighted Hamming
loss if the model has class weights (indexing with the true labels), plain Hamming loss otherwise.
Arrays of unequal length are modelled as `ValueError` (simplification: numpy's behaviour depends on
its version). -/
def loss (cw : Option Vec) (y yhat : Labels) : Except PyErr ℚ :=
  if y.size ≠ yhat.size then .error .valueError
  else match cw with
    | some c =>
      if ∀ i < y.size, y.get i < c.size then
        .ok (∑ i ∈ range y.size, c.get (y.get i) * (if y.get i ≠ yhat.get i then 1 else 0))
      else .error .indexError
    | none => .ok (∑ i ∈ range y.size, if y.get i ≠ yhat.get i then 1 else 0)

/-- `StructuredModel.max_loss`, `pystruct/models/base.py` lines 72-76. -/
def maxLoss (cw : Option Vec) (y : Labels) : Except PyErr ℚ :=
  match cw with
  | some c =>
    if ∀ i < y.size, y.get i < c.size then .ok (∑ i ∈ range y.size, c.get (y.get i))
    else .error .indexError
  | none => .ok y.size

/-- `StructuredModel.continuous_loss` for one-dimensional `y`, `pystruct/models/base.py` lines 78-89.
(`y.ndim == 2` raises `ValueError`; not modelled since labels are one-dimensional here.) -/
def continuousLoss (cw : Option Vec) (y : Labels) (marg : Mat) : Except PyErr ℚ :=
  if marg.rows < y.size then .error .indexError
  else if ¬ ∀ i < y.size, y.get i < marg.cols then .error .indexError
  else match cw with
    | some c =>
      if ∀ i < y.size, y.get i < c.size then
        .ok (∑ i ∈ range y.size, c.get (y.get i) * (1 - marg.get i (y.get i)))
      else .error .indexError
    | none => .ok (∑ i ∈ range y.size, (1 - marg.get i (y.get i)))

/-- `loss_augment_unaries`, `src/utils.pyx` lines 21-28 (called from `CRF.loss_augment_unaries`,
`pystruct/models/crf.py` lines 55-60): in row `i` the weight of the true label `y[i]` is added to
every state except `y[i]`.  Compiled without bounds checks: labels or class weights that are too
short are read out of bounds, modelled as `undefinedRead`. The cells are updated independently, so
the in-place loop is a pointwise definition. -/
def lossAugmentUnaries (U : Mat) (y : Labels) (cw : Vec) : Except PyErr Mat :=
  if y.size < U.rows then .error .undefinedRead
  else if ¬ ∀ i < U.rows, y.get i < cw.size then .error .undefinedRead
  else .ok ⟨U.rows, U.cols,
    fun i s => if s = y.get i then U.get i s else U.get i s + cw.get (y.get i)⟩

end Verif.Loss
