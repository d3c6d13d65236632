import Verif.Lemmas.GraphCRF

/-!
# C12: energy computation and pairwise parameter shapes
-/

namespace Verif.Props

open Finset Verif.Common

/-- **C12a.** With one matrix per edge, the energy is the sum of one unary term per vertex and one
pairwise term per edge. -/
theorem C12_energy_per_edge (U : Mat) (t : Ten) (edges : Edges) (y : Labels)
    (ht : t.d0 = edges.length ∧ t.d1 = U.cols ∧ t.d2 = U.cols) (hs : y.size = U.rows)
    (hv : Spec.Valid U.rows U.cols y.get) (he : Spec.EdgesIn U.rows edges) :
    computeEnergy U (.ten t) edges y = .ok (Spec.score U.rows edges U.get t.get y.get) := by
  refine computeEnergy_ok U _ edges y t ?_ hs hv he
  unfold validateParams
  simp only
  rw [if_pos ht]

/-- **C12b.** A single `S × S` matrix is used on every edge. -/
theorem C12_energy_shared (U : Mat) (m : Mat) (edges : Edges) (y : Labels)
    (hm : m.rows = U.cols ∧ m.cols = U.cols) (hs : y.size = U.rows)
    (hv : Spec.Valid U.rows U.cols y.get) (he : Spec.EdgesIn U.rows edges) :
    computeEnergy U (.mat m) edges y =
      .ok (Spec.score U.rows edges U.get (fun _ => m.get) y.get) := by
  refine computeEnergy_ok U _ edges y ⟨edges.length, U.cols, U.cols, fun _ a b => m.get a b⟩
    ?_ hs hv he
  unfold validateParams
  simp only
  rw [if_pos hm]

/-- **C12c.** Every other shape of the pairwise parameters is rejected with `ValueError`, whatever the
other arguments are. -/
theorem C12_bad_shapes (U : Mat) (edges : Edges) (y : Labels) (pw : Pairwise)
    (h : match pw with
      | .mat m => ¬ (m.rows = U.cols ∧ m.cols = U.cols)
      | .ten t => ¬ (t.d0 = edges.length ∧ t.d1 = U.cols ∧ t.d2 = U.cols)
      | .other => True) :
    computeEnergy U pw edges y = .error .valueError := by
  unfold computeEnergy validateParams
  cases pw with
  | mat m => simp only at h ⊢; rw [if_neg h]
  | ten t => simp only at h ⊢; rw [if_neg h]
  | other => rfl

/-- **C12d.** Labels or edge endpoints out of range are rejected with `IndexError`. -/
theorem C12_bad_labels (U : Mat) (t : Ten) (edges : Edges) (y : Labels)
    (ht : t.d0 = edges.length ∧ t.d1 = U.cols ∧ t.d2 = U.cols) (hs : y.size = U.rows)
    (h : ¬ (Spec.Valid U.rows U.cols y.get ∧ Spec.EdgesIn U.rows edges)) :
    computeEnergy U (.ten t) edges y = .error .indexError := by
  unfold computeEnergy validateParams
  simp only
  rw [if_pos ht]
  simp only
  rw [if_neg (by omega)]
  by_cases h2 : ∀ i < y.size, y.get i < U.cols
  · rw [if_neg (not_not.mpr h2)]
    have h3 : ¬ ∀ e ∈ edges, e.1 < y.size ∧ e.2 < y.size := by
      intro h3
      rw [hs] at h2 h3
      exact h ⟨h2, h3⟩
    rw [if_pos h3]
  · rw [if_pos h2]

/-- a two-vertex example: unaries 1 and 10, pairwise 100. -/
example : computeEnergy ⟨2, 2, fun i s => if s = 1 then (if i = 0 then 1 else 10) else 0⟩
    (.mat ⟨2, 2, fun a b => if a = 1 ∧ b = 1 then 100 else 0⟩) [(0, 1)] ⟨2, fun _ => 1⟩
      = .ok 111 := by decide +kernel

/-- a pairwise table of the wrong shape. -/
example : computeEnergy ⟨2, 2, fun _ _ => 0⟩ (.mat ⟨3, 2, fun _ _ => 0⟩) [(0, 1)] ⟨2, fun _ => 1⟩
      = .error .valueError := by decide +kernel

end Verif.Props
