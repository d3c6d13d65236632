import Verif.Model.GraphCRF

/-!
# Model of `pystruct/models/multilabel_svm.py`
-/

namespace Verif.MultiLabel

open Finset Verif.Common Verif.GraphCRF

/-- An initialised `MultiLabelClf`, `pystruct/models/multilabel_svm.py` lines 37-67; every label is a
vertex with the two states 0 (absent) and 1 (present). -/
structure Model where
  nLabels : ℕ
  nFeatures : ℕ
  edges : Edges

/-- `_set_size_joint_feature`, `pystruct/models/multilabel_svm.py` lines 43-49. -/
def sizeJointFeature (m : Model) : ℕ := m.nFeatures * m.nLabels + 4 * m.edges.length

/-- `w[:n]` of a vector that may be shorter than `n`. `pystruct/models/multilabel_svm.py` lines
73-74. -/
def takeVec (w : Vec) (n : ℕ) : Vec := ⟨min n w.size, w.get⟩

/-- `w[n:]`. `pystruct/models/multilabel_svm.py` lines 79-80. -/
def dropVec (w : Vec) (n : ℕ) : Vec := ⟨w.size - n, fun k => w.get (n + k)⟩

/-- `_get_unary_potentials`, `pystruct/models/multilabel_svm.py` lines 72-76: `np.vstack([-u, u]).T`
has one row per label. -/
def unaryPotentials (m : Model) (x w : Vec) : Except PyErr Mat := do
  let params ← (takeVec w (m.nLabels * m.nFeatures)).reshape2 m.nLabels m.nFeatures
  if x.size ≠ m.nFeatures then .error .valueError
  else
    let u : ℕ → ℚ := fun l => ∑ f ∈ range m.nFeatures, x.get f * params.get l f
    .ok ⟨m.nLabels, 2, fun l s => if s = 0 then -u l else u l⟩

/-- `_get_pairwise_potentials`, `pystruct/models/multilabel_svm.py` lines 78-81. -/
def pairwisePotentials (m : Model) (w : Vec) : Except PyErr Ten :=
  (dropVec w (m.nLabels * m.nFeatures)).reshape3 m.edges.length 2 2

/-- `unary_marginals`: the features repeated once per label, times the sign of the label,
`pystruct/models/multilabel_svm.py` lines 87-89 and 92-94. -/
def unaryMarginals (x : Vec) (n : ℕ) (signs : ℕ → ℚ) : Mat := ⟨n, x.size, fun l f => x.get f * signs l⟩

/-- `joint_feature`, `pystruct/models/multilabel_svm.py` lines 83-106. Relaxed marginals are the
flattened `(n_labels, 2)` and `(n_edges, 4)` arrays returned by the inference functions. -/
def jointFeature (m : Model) (x : Vec) (y : YVal) : Except PyErr Vec :=
  match y with
  | .relaxed u p =>
    if u.size % 2 ≠ 0 then .error .valueError
    else .ok ((unaryMarginals x (u.size / 2) (fun l => 2 * u.get (l * 2 + 1) - 1)).ravel.append p)
  | .discrete y =>
    if ¬ ∀ e ∈ m.edges, e.1 < y.size ∧ e.2 < y.size ∧ y.get e.1 < 2 ∧ y.get e.2 < 2 then
      .error .indexError
    else .ok ((unaryMarginals x y.size (fun l => 2 * (y.get l : ℚ) - 1)).ravel.append
      (Ten.ravel ⟨m.edges.length, 2, 2, fun e a b =>
        if a = y.get (edge m.edges e).1 ∧ b = y.get (edge m.edges e).2 then 1 else 0⟩))

/-- `CRF.inference`, `pystruct/models/crf.py` lines 165-183, for a backend `inf`. -/
def inference (inf : Infer) (m : Model) (x w : Vec) : Except PyErr YVal := do
  checkSizeW (sizeJointFeature m) w
  let unary ← unaryPotentials m x w
  let pairwise ← pairwisePotentials m w
  inf unary (.ten pairwise) m.edges

end Verif.MultiLabel
