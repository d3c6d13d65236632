import Verif.Basic.Arr
import Mathlib.Logic.Relation

/-!
# Specification: cycles in undirected multigraphs

A graph is a list of pairs of vertices; an edge is a position in that list, so parallel edges and self
loops are allowed.
-/

namespace Verif.Spec

/-- The `e`-th edge joins `a` and `b`, in either direction. -/
def Joins (edges : List (ℕ × ℕ)) (e a b : ℕ) : Prop :=
  edges.getD e (0, 0) = (a, b) ∨ edges.getD e (0, 0) = (b, a)

/-- There is a walk from `u` to `v` that uses edges satisfying `P` only. -/
def ConnectedVia (edges : List (ℕ × ℕ)) (P : ℕ → Prop) (u v : ℕ) : Prop :=
  Relation.ReflTransGen (fun a b => ∃ e < edges.length, P e ∧ Joins edges e a b) u v

/-- The graph contains a cycle: some edge whose two ends are still connected when this edge is
removed. (For a self loop the empty walk does; for parallel edges the other copy.) -/
def HasCycle (edges : List (ℕ × ℕ)) : Prop :=
  ∃ e < edges.length,
    ConnectedVia edges (· ≠ e) (edges.getD e (0, 0)).1 (edges.getD e (0, 0)).2

/-- The edges within the vertex set `D` can be assigned to different end points. This says that every connected
part of the subgraph induced by `D` contains at most one cycle (it has at most as many edges as vertices). -/
def SparseOn (edges : List (ℕ × ℕ)) (D : ℕ → Prop) : Prop :=
  ∃ f : ℕ → ℕ, ∀ e < edges.length, D (edges.getD e (0, 0)).1 → D (edges.getD e (0, 0)).2 →
    (f e = (edges.getD e (0, 0)).1 ∨ f e = (edges.getD e (0, 0)).2) ∧
    ∀ e' < edges.length, D (edges.getD e' (0, 0)).1 → D (edges.getD e' (0, 0)).2 → f e = f e' → e = e'

theorem Joins.symm {edges : List (ℕ × ℕ)} {e a b : ℕ} (h : Joins edges e a b) :
    Joins edges e b a := Or.symm h

theorem ConnectedVia.symm {edges : List (ℕ × ℕ)} {P : ℕ → Prop} {u v : ℕ}
    (h : ConnectedVia edges P u v) : ConnectedVia edges P v u := by
  unfold ConnectedVia at *
  induction h with
  | refl => exact Relation.ReflTransGen.refl
  | tail _ h ih =>
    obtain ⟨e, he, hP, hj⟩ := h
    exact Relation.ReflTransGen.head ⟨e, he, hP, hj.symm⟩ ih

theorem ConnectedVia.mono {edges : List (ℕ × ℕ)} {P Q : ℕ → Prop} {u v : ℕ}
    (h : ConnectedVia edges P u v) (hPQ : ∀ e, P e → Q e) : ConnectedVia edges Q u v := by
  unfold ConnectedVia at *
  induction h with
  | refl => exact Relation.ReflTransGen.refl
  | tail _ h ih =>
    obtain ⟨e, he, hp, hj⟩ := h
    exact Relation.ReflTransGen.tail ih ⟨e, he, hPQ e hp, hj⟩

end Verif.Spec
