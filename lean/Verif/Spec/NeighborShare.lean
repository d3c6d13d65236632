import Verif.Basic.Arr

/-!
# Specification: labels in the neighbourhood of a node
-/

namespace Verif.Spec

/-- The visible neighbours of node `u`, one entry per edge: the nodes below `V` that an edge joins with `u`. -/
def visibleNeighbors (edges : List (ℕ × ℕ)) (V u : ℕ) : List ℕ :=
  (edges.filter fun e => e.1 = u ∧ e.2 < V).map Prod.snd ++ (edges.filter fun e => e.2 = u ∧ e.1 < V).map Prod.fst

/-- Share of the label `l` among the visible neighbours of node `u`; zero if there are none. -/
def labelShare (edges : List (ℕ × ℕ)) (V : ℕ) (y : ℕ → ℕ) (u l : ℕ) : ℚ :=
  ((visibleNeighbors edges V u).countP fun j => y j = l) / (visibleNeighbors edges V u).length

end Verif.Spec
