import Verif.Model.Common

/-!
# Model of `pystruct/models/unstructured_svm.py` and `crammer_singer_joint_feature` of `src/utils.pyx`
-/

namespace Verif.Unstructured

open Finset Verif.Common

/-! ### BinaryClf -/

/-- An integer label array of shape `(size,)`; entries may be negative (labels are `-1`, `+1`).
`pystruct/models/unstructured_svm.py` lines 63 and 68. -/
structure ILabels where
  size : ℕ
  get : ℕ → ℤ

/-- `BinaryClf.joint_feature`, `pystruct/models/unstructured_svm.py` lines 44-65. -/
def binJointFeature (x : Vec) (y : ℤ) : Except PyErr Vec :=
  if ¬ (y = -1 ∨ y = 1) then .error .valueError
  else .ok ⟨x.size, fun k => (y : ℚ) * x.get k / 2⟩

/-- `BinaryClf.batch_joint_feature`, `pystruct/models/unstructured_svm.py` lines 67-68 (numpy's
broadcasting of a single sample against many labels is not modelled: unequal lengths are a
`ValueError`). -/
def binBatchJointFeature (X : Mat) (Y : ILabels) : Except PyErr Vec :=
  if X.rows ≠ Y.size then .error .valueError
  else .ok ⟨X.cols, fun k => ∑ i ∈ range X.rows, X.get i k * (Y.get i : ℚ) / 2⟩

/-- `2 * (score >= 0) - 1`. `pystruct/models/unstructured_svm.py` lines 93 and 96. -/
def binDecide (score : ℚ) : ℤ := 2 * (if 0 ≤ score then 1 else 0) - 1

/-- `np.sign`. `pystruct/models/unstructured_svm.py` lines 124 and 127. -/
def npSign (q : ℚ) : ℤ := if 0 < q then 1 else if q < 0 then -1 else 0

/-- `BinaryClf.inference`, `pystruct/models/unstructured_svm.py` lines 70-93. -/
def binInference (x w : Vec) : Except PyErr ℤ :=
  match x.dot w with
  | .error err => .error err
  | .ok s => .ok (binDecide s)

/-- `BinaryClf.batch_inference`, `pystruct/models/unstructured_svm.py` lines 95-96: `np.dot(X, w)`
needs `X.shape[1] == len(w)`. -/
def binBatchInference (X : Mat) (w : Vec) : Except PyErr ILabels :=
  if X.cols ≠ w.size then .error .valueError
  else .ok ⟨X.rows, fun i => binDecide (dot X.cols (X.get i) w.get)⟩

/-- `BinaryClf.loss_augmented_inference`, `pystruct/models/unstructured_svm.py` lines 98-124. -/
def binLossAugmented (x : Vec) (y : ℤ) (w : Vec) : Except PyErr ℤ :=
  match x.dot w with
  | .error err => .error err
  | .ok s => .ok (npSign (s - y))

/-- `BinaryClf.batch_loss_augmented_inference`, `pystruct/models/unstructured_svm.py` lines 126-127.
-/
def binBatchLossAugmented (X : Mat) (Y : ILabels) (w : Vec) : Except PyErr ILabels :=
  if X.cols ≠ w.size then .error .valueError
  else if X.rows ≠ Y.size then .error .valueError
  else .ok ⟨X.rows, fun i => npSign (dot X.cols (X.get i) w.get - Y.get i)⟩

/-- `StructuredModel.loss` on scalar labels of a model without class weights,
`pystruct/models/base.py` line 66 (`BinaryClf` inherits it). -/
def binLoss (y yhat : ℤ) : ℚ := if y ≠ yhat then 1 else 0

/-- `BinaryClf.batch_loss`, `pystruct/models/unstructured_svm.py` lines 129-130 (booleans are used
as numbers by the callers). -/
def binBatchLoss (Y Yhat : ILabels) : Except PyErr Vec :=
  if Y.size ≠ Yhat.size then .error .valueError
  else .ok ⟨Y.size, fun i => if Y.get i ≠ Yhat.get i then 1 else 0⟩

/-! ### MultiClassClf -/

/-- An initialised `MultiClassClf` (`pystruct/models/unstructured_svm.py` lines 165-195);
`class_weight` and `uniform_class_weight` are set by `_set_class_weight`. -/
structure MultiClass where
  nStates : ℕ
  nFeatures : ℕ
  classWeight : Vec
  uniform : Bool
  rescaleC : Bool

/-- `_set_size_joint_feature`, `pystruct/models/unstructured_svm.py` lines 176-178. -/
def MultiClass.size (m : MultiClass) : ℕ := m.nStates * m.nFeatures

/-- `MultiClassClf.joint_feature`, `pystruct/models/unstructured_svm.py` lines 201-233. (Negative
class indices and broadcasting of a one-element `x` are not modelled.) -/
def mcJointFeature (m : MultiClass) (x : Vec) (y : ℕ) (yTrue : Option ℕ) : Except PyErr Vec :=
  if m.nStates ≤ y then .error .indexError
  else if x.size ≠ m.nFeatures then .error .valueError
  else if m.rescaleC then
    match yTrue with
    | none => .error .valueError
    | some t =>
      if m.classWeight.size ≤ t then .error .indexError
      else .ok (Mat.ravel ⟨m.nStates, m.nFeatures,
        fun s f => (if s = y then x.get f else 0) * m.classWeight.get t⟩)
  else .ok (Mat.ravel ⟨m.nStates, m.nFeatures, fun s f => if s = y then x.get f else 0⟩)

/-- Row `i` of the loop of `crammer_singer_joint_feature`, `src/utils.pyx` lines 16-19: adds `X[i]` to
row `Y[i]` of `out`, in place. -/
def csStep (X : Mat) (Y : Labels) (out : ℕ → ℕ → ℚ) (i : ℕ) : ℕ → ℕ → ℚ :=
  fun s j => if s = Y.get i ∧ j < X.cols then out s j + X.get i j else out s j

/-- `crammer_singer_joint_feature`, `src/utils.pyx` lines 14-19. Compiled without bounds checks: labels
out of range write out of bounds, modelled as `undefinedRead`. -/
def crammerSinger (X : Mat) (Y : Labels) (out : Mat) : Except PyErr Mat :=
  if ¬ ∀ i < X.rows, Y.get i < out.rows then .error .undefinedRead
  else .ok ⟨out.rows, out.cols, (List.range X.rows).foldl (csStep X Y) out.get⟩

/-- `MultiClassClf.batch_joint_feature`, `pystruct/models/unstructured_svm.py` lines 235-251. -/
def mcBatchJointFeature (m : MultiClass) (X : Mat) (Y : Labels) (yTrue : Option Labels) :
    Except PyErr Vec :=
  if m.rescaleC then
    match yTrue with
    | none => .error .valueError
    | some T =>
      if X.rows ≠ Y.size ∨ T.size ≠ Y.size then .error .indexError
      else if X.cols ≠ m.nFeatures then .error .valueError
      else if ¬ ∀ i < Y.size, Y.get i < m.nStates → T.get i < m.classWeight.size then
        .error .indexError
      else .ok (Mat.ravel ⟨m.nStates, m.nFeatures, fun l f =>
        ∑ i ∈ (range X.rows).filter (fun i => Y.get i = l),
          X.get i f * m.classWeight.get (T.get i)⟩)
  else if X.rows ≠ Y.size then .error .assertionError
  else if X.cols ≠ m.nFeatures then .error .assertionError
  else
    match crammerSinger X Y ⟨m.nStates, m.nFeatures, fun _ _ => 0⟩ with
    | .error err => .error err
    | .ok r => .ok r.ravel

/-- `np.dot(w.reshape(n_states, -1), x)`, `pystruct/models/unstructured_svm.py` lines 277 and 307.
-/
def mcScores (m : MultiClass) (x w : Vec) : Except PyErr Vec :=
  if m.nStates = 0 then .error .valueError
  else if w.size % m.nStates ≠ 0 then .error .valueError
  else if w.size / m.nStates ≠ x.size then .error .valueError
  else .ok ⟨m.nStates, fun s => ∑ f ∈ range x.size, w.get (s * x.size + f) * x.get f⟩

/-- `MultiClassClf.inference` with `return_energy=True`, `pystruct/models/unstructured_svm.py` lines
253-280: class and score. -/
def mcInferenceEnergy (m : MultiClass) (x w : Vec) : Except PyErr (ℕ × ℚ) :=
  match mcScores m x w with
  | .error err => .error err
  | .ok s => .ok (argmaxN s.get s.size, maxN s.get s.size)

/-- `MultiClassClf.inference`, `pystruct/models/unstructured_svm.py` lines 253-280. -/
def mcInference (m : MultiClass) (x w : Vec) : Except PyErr ℕ :=
  match mcScores m x w with
  | .error err => .error err
  | .ok s => .ok (argmaxN s.get s.size)

/-- `MultiClassClf.loss_augmented_inference`, `pystruct/models/unstructured_svm.py` lines 282-315.
-/
def mcLossAugmented (m : MultiClass) (x : Vec) (y : ℕ) (w : Vec) : Except PyErr ℕ :=
  match mcScores m x w with
  | .error err => .error err
  | .ok s =>
    if m.rescaleC then
      .ok (argmaxN (fun c => if c ≠ y then s.get c + 1 else s.get c) s.size)
    else if m.classWeight.size ≤ y then .error .indexError
    else .ok (argmaxN (fun c => if c ≠ y then s.get c + m.classWeight.get y else s.get c) s.size)

/-- `np.dot(X, w.reshape(n_states, -1).T)`, `pystruct/models/unstructured_svm.py` lines 318 and 328.
-/
def mcBatchScores (m : MultiClass) (X : Mat) (w : Vec) : Except PyErr Mat :=
  if m.nStates = 0 then .error .valueError
  else if w.size % m.nStates ≠ 0 then .error .valueError
  else
    match w.reshape2 m.nStates (w.size / m.nStates) with
    | .error err => .error err
    | .ok W => X.mul W.T

/-- `MultiClassClf.batch_inference`, `pystruct/models/unstructured_svm.py` lines 327-329. -/
def mcBatchInference (m : MultiClass) (X : Mat) (w : Vec) : Except PyErr Labels :=
  match mcBatchScores m X w with
  | .error err => .error err
  | .ok s => .ok ⟨s.rows, fun i => argmaxN (s.get i) s.cols⟩

/-- `other_classes = (np.arange(n_states) != Y[:, np.newaxis])`,
`pystruct/models/unstructured_svm.py` line 319. -/
def otherClasses (Y : Labels) (i c : ℕ) : Bool := c ≠ Y.get i

/-- Position of cell `(i, c)` among the selected cells of a boolean mask with `cols` columns,
counted in row-major order: this is how `a[mask] += v` pairs cells with entries of `v`.
`pystruct/models/unstructured_svm.py` lines 321-324. -/
def maskRank (mask : ℕ → ℕ → Bool) (cols i c : ℕ) : ℕ :=
  ∑ r ∈ range i, ((range cols).filter (fun k => mask r k)).card +
    ((range c).filter (fun k => mask i k)).card

/-- `np.repeat(v, k)`. `pystruct/models/unstructured_svm.py` lines 323-324. -/
def npRepeat (v : Vec) (k : ℕ) : Vec := ⟨v.size * k, fun j => v.get (j / k)⟩

/-- `a[mask] += v` for a two-dimensional mask of the shape of `a`; the number of selected cells has
to equal the length of `v`. `pystruct/models/unstructured_svm.py` lines 321-324. -/
def addMasked (a : Mat) (mask : ℕ → ℕ → Bool) (v : Vec) : Except PyErr Mat :=
  if maskRank mask a.cols a.rows 0 ≠ v.size then .error .valueError
  else .ok ⟨a.rows, a.cols, fun i c =>
    if mask i c then a.get i c + v.get (maskRank mask a.cols i c) else a.get i c⟩

/-- `MultiClassClf.batch_loss_augmented_inference`, `pystruct/models/unstructured_svm.py` lines
317-325. -/
def mcBatchLossAugmented (m : MultiClass) (X : Mat) (Y : Labels) (w : Vec) :
    Except PyErr Labels :=
  match mcBatchScores m X w with
  | .error err => .error err
  | .ok s =>
    if Y.size ≠ s.rows then .error .indexError
    else if m.rescaleC ∨ m.uniform then
      .ok ⟨s.rows, fun i => argmaxN
        (fun c => if otherClasses Y i c then s.get i c + 1 else s.get i c) s.cols⟩
    else if ¬ ∀ i < Y.size, Y.get i < m.classWeight.size then .error .indexError
    else
      match addMasked s (otherClasses Y)
          (npRepeat ⟨Y.size, fun i => m.classWeight.get (Y.get i)⟩ (m.nStates - 1)) with
      | .error err => .error err
      | .ok s' => .ok ⟨s'.rows, fun i => argmaxN (s'.get i) s'.cols⟩

/-- `MultiClassClf.loss`, `pystruct/models/unstructured_svm.py` lines 334-335. -/
def mcLoss (m : MultiClass) (y yhat : ℕ) : Except PyErr ℚ :=
  if m.classWeight.size ≤ y then .error .indexError
  else .ok (m.classWeight.get y * (if y ≠ yhat then 1 else 0))

/-- `MultiClassClf.batch_loss`, `pystruct/models/unstructured_svm.py` lines 331-332. -/
def mcBatchLoss (m : MultiClass) (Y Yhat : Labels) : Except PyErr Vec :=
  if Y.size ≠ Yhat.size then .error .valueError
  else if ¬ ∀ i < Y.size, Y.get i < m.classWeight.size then .error .indexError
  else .ok ⟨Y.size, fun i => m.classWeight.get (Y.get i) * (if Y.get i ≠ Yhat.get i then 1 else 0)⟩

end Verif.Unstructured
