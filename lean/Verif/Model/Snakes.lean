import Verif.Model.EdgeFeature

/-!
# Model of the preparation of the snake images, `examples/plot_snakes.py`
-/

namespace Verif.Snakes

open Verif.Common

/-- A three-dimensional array: height, width, channels. `examples/plot_snakes.py` lines 47 and 58. -/
structure Pict where
  h : ℕ
  w : ℕ
  get : ℕ → ℕ → ℕ → ℚ

/-- the colours of the snake images. `examples/plot_snakes.py` line 50. -/
def colourClasses : List ℚ := [1, 2, 3, 4, 6]

/-- the colour number of a pixel: `np.dot(x / 255, 2 ** np.arange(3))`. `examples/plot_snakes.py` lines 48-49. -/
def colourNumber (x : Pict) (i j : ℕ) : ℚ :=
  x.get i j 0 / 255 * 1 + x.get i j 1 / 255 * 2 + x.get i j 2 / 255 * 4

/-- `one_hot_colors`, `examples/plot_snakes.py` lines 47-51, for an array with three channels. `label_binarize` of scikit-learn is
modelled by its documentation: column `k` marks the entries equal to the `k`-th class
(that it rejects numbers that are not whole is not modelled). -/
def oneHotColors (x : Pict) : Pict :=
  ⟨x.h, x.w, fun i j k => if colourClasses[k]? = some (colourNumber x i j) then 1 else 0⟩

/-- The slices `:`, `1:` and `:-1`. `examples/plot_snakes.py` lines 60-70. -/
inductive Slice where
  | all | tail | init

/-- First index of a slice. `examples/plot_snakes.py` lines 60-70. -/
def Slice.start : Slice → ℕ
  | .all => 0
  | .tail => 1
  | .init => 0

/-- Length of a slice of an axis of length `n`. `examples/plot_snakes.py` lines 60-70. -/
def Slice.len (n : ℕ) : Slice → ℕ
  | .all => n
  | .tail => n - 1
  | .init => n - 1

/-- An array of shape `(h, w, 5, 9)` as a function on indices. `examples/plot_snakes.py` line 58. -/
abbrev Window := ℕ → ℕ → ℕ → ℕ → ℚ

/-- `features[sr, sc, :, k] = x[tr, tc, :]`. Slices of different lengths raise `ValueError`; broadcasting of slices of length one is
not modelled (it does not occur). `examples/plot_snakes.py` lines 61-69. -/
def assign (x : Pict) (k : ℕ) (sr sc tr tc : Slice) (F : Window) : Except PyErr Window :=
  if sr.len x.h ≠ tr.len x.h ∨ sc.len x.w ≠ tc.len x.w then .error .valueError
  else .ok fun i j c p =>
    if p = k ∧ sr.start ≤ i ∧ i < sr.start + sr.len x.h ∧ sc.start ≤ j ∧ j < sc.start + sc.len x.w then
      x.get (i - sr.start + tr.start) (j - sc.start + tc.start) c
    else F i j c p

/-- zeros with channel 3, the background, set to one. `examples/plot_snakes.py` lines 58-60. -/
def blankWindow : Window := fun _ _ c _ => if c = 3 then 1 else 0

/-- `neighborhood_feature`, `examples/plot_snakes.py` lines 54-70, for an array with five channels. `reshape(0, -1)` raises
`ValueError`. -/
def neighborhoodFeature (x : Pict) : Except PyErr Mat := do
  let F := blankWindow
  let F ← assign x 0 .tail .tail .init .init F
  let F ← assign x 1 .all .tail .all .init F
  let F ← assign x 2 .init .tail .tail .init F
  let F ← assign x 3 .tail .all .init .all F
  let F ← assign x 4 .init .init .tail .tail F
  let F ← assign x 5 .init .all .tail .all F
  let F ← assign x 6 .tail .init .init .tail F
  let F ← assign x 7 .all .init .all .tail F
  let F ← assign x 8 .all .all .all .all F
  if x.h * x.w = 0 then .error .valueError
  else .ok ⟨x.h * x.w, 45, fun i f => F (i / x.w) (i % x.w) (f / 9) (f % 9)⟩

/-- `edge_features` with the features of the ends of an edge in channels 0 and 1 for edges to the right, 2 and 3 for edges down, and
flattened. `examples/plot_snakes.py` lines 86-95. -/
def endFeatures (features : Mat) (right edges : Edges) : Mat :=
  ⟨edges.length, features.cols * 4, fun e f =>
    let (u, v) := edges.getD e (0, 0)
    if e < right.length then
      if f % 4 = 0 then features.get u (f / 4) else if f % 4 = 1 then features.get v (f / 4) else 0
    else
      if f % 4 = 2 then features.get u (f / 4) else if f % 4 = 3 then features.get v (f / 4) else 0⟩

/-- The body of the loop of `prepare_data`, `examples/plot_snakes.py` lines 78-97: the instance with directions as edge features and
the instance with the features of the ends. `reshape(0, -1)` raises `ValueError`. -/
def prepareOne (x : Pict) : Except PyErr (EdgeFeature.X × EdgeFeature.X) := do
  let lists ← Grid.gridEdgeLists x.h x.w 4
  let edges := lists.flatten
  let features ← neighborhoodFeature x
  let directions := Grid.edgeListToFeatures lists
  if edges.length = 0 then .error .valueError
  else .ok (⟨features, edges, directions⟩, ⟨features, edges, endFeatures features (lists.headD []) edges⟩)

/-- `prepare_data`, `examples/plot_snakes.py` lines 73-98. -/
def prepareData (X : List Pict) : Except PyErr (List EdgeFeature.X × List EdgeFeature.X) := do
  let l ← X.mapM prepareOne
  .ok (l.map Prod.fst, l.map Prod.snd)

end Verif.Snakes
