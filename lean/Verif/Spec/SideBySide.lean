import Verif.Spec.GraphOutputs
import Verif.Model.EdgeFeature

/-!
# Specification: two graphs side by side

Only the data types of the model of the code (arrays, edge lists, instances) are used here.
-/

namespace Verif.Spec

open Verif.Common

/-- `C` consists of the rows of `A`, and below them those of `B` (`np.vstack`). -/
def Stacked (A B C : Mat) : Prop :=
  B.cols = A.cols ∧ C.cols = A.cols ∧ C.rows = A.rows + B.rows ∧
    (∀ i < A.rows, ∀ f < A.cols, C.get i f = A.get i f) ∧ ∀ i < B.rows, ∀ f < A.cols, C.get (A.rows + i) f = B.get i f

/-- The edges of a graph with `n` nodes, and after them those of a second graph, whose nodes have numbers from `n`
on. -/
def edgesBeside (n : ℕ) (E E' : List (ℕ × ℕ)) : List (ℕ × ℕ) := E ++ E'.map fun e => (n + e.1, n + e.2)

/-- `z` has the labels of `y`, and after them those of `y'` (`np.hstack`). -/
def Concatenated (y y' z : Labels) : Prop :=
  z.size = y.size + y'.size ∧ (∀ i < y.size, z.get i = y.get i) ∧ ∀ i < y'.size, z.get (y.size + i) = y'.get i

/-- The instance `x` consists of the graphs `x₁` and `x₂` side by side, no edge connecting them. -/
structure SideBySide (x₁ x₂ x : GraphCRF.X) : Prop where
  features : Stacked x₁.features x₂.features x.features
  edges : x.edges = edgesBeside x₁.features.rows x₁.edges x₂.edges

/-- The same for graphs with edge features. -/
structure SideBySideE (x₁ x₂ x : EdgeFeature.X) : Prop where
  features : Stacked x₁.features x₂.features x.features
  edges : x.edges = edgesBeside x₁.features.rows x₁.edges x₂.edges
  edgeFeatures : Stacked x₁.edgeFeatures x₂.edgeFeatures x.edgeFeatures

/-- Data in which some graphs of `data` have been put side by side, with their labels. -/
inductive Merged : List (GraphCRF.X × Labels) → List (GraphCRF.X × Labels) → Prop
  | refl (data) : Merged data data
  | join {x₁ x₂ x : GraphCRF.X} {y₁ y₂ y : Labels} (data) (hx : SideBySide x₁ x₂ x) (hy : Concatenated y₁ y₂ y) :
      Merged ((x₁, y₁) :: (x₂, y₂) :: data) ((x, y) :: data)
  | cons (s) {data data'} (h : Merged data data') : Merged (s :: data) (s :: data')
  | trans {data data' data''} (h : Merged data data') (h' : Merged data' data'') : Merged data data''

/-- `y` has one label in range per node, and none such has a larger value. -/
def IsBest (n S : ℕ) (value : Labels → ℚ) (y : Labels) : Prop :=
  (y.size = n ∧ Valid n S y.get) ∧ ∀ z : Labels, z.size = n → Valid n S z.get → value z ≤ value y

end Verif.Spec
