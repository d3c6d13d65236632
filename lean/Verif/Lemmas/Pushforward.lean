import Verif.Lemmas.HiddenNodes
import Verif.Lemmas.GraphOutputs
import Verif.Lemmas.EdgeOutputs
import Verif.Lemmas.LPExists

/-!
# Moving the mass of marginals between states
-/

namespace Verif.Lemmas

open Finset Verif.Common Verif.Spec Verif.Props Verif.LatentNode

/-- Marginals after the states of a vertex were renamed by `π`. -/
def pushNode (S : ℕ) (π : ℕ → ℕ) (μ : ℕ → ℚ) (s : ℕ) : ℚ := ∑ r ∈ range S, if π r = s then μ r else 0

/-- Marginals of a pair of vertices after their states were renamed by `π` and `ρ`. -/
def pushEdge (S : ℕ) (π ρ : ℕ → ℕ) (ν : ℕ → ℕ → ℚ) (s t : ℕ) : ℚ :=
  ∑ r ∈ range S, if π r = s then ∑ q ∈ range S, (if ρ q = t then ν r q else 0) else 0

theorem pushNode_sum {S : ℕ} {π : ℕ → ℕ} (hπ : ∀ r < S, π r < S) (f μ : ℕ → ℚ) :
    ∑ s ∈ range S, f s * pushNode S π μ s = ∑ r ∈ range S, f (π r) * μ r := by
  unfold pushNode
  simp only [mul_sum]
  rw [sum_comm]
  refine sum_congr rfl fun r hr => ?_
  simp only [mul_ite, mul_zero]
  rw [sum_ite_eq, if_pos (mem_range.mpr (hπ r (mem_range.mp hr)))]

theorem pushEdge_eq (S : ℕ) (π ρ : ℕ → ℕ) (ν : ℕ → ℕ → ℚ) (s t : ℕ) :
    pushEdge S π ρ ν s t = pushNode S π (fun r => pushNode S ρ (ν r) t) s := rfl

theorem pushEdge_sum {S : ℕ} {π ρ : ℕ → ℕ} (hπ : ∀ r < S, π r < S) (hρ : ∀ r < S, ρ r < S) (P ν : ℕ → ℕ → ℚ) :
    ∑ s ∈ range S, ∑ t ∈ range S, P s t * pushEdge S π ρ ν s t = ∑ r ∈ range S, ∑ q ∈ range S, P (π r) (ρ q) * ν r q := by
  simp only [pushEdge_eq]
  rw [sum_comm]
  rw [sum_congr rfl fun t _ => pushNode_sum hπ (fun s => P s t) fun r => pushNode S ρ (ν r) t, sum_comm]
  exact sum_congr rfl fun r _ => pushNode_sum hρ (fun t => P (π r) t) (ν r)

/-- Renaming the states at every vertex keeps the local polytope. -/
theorem push_polytope {n S : ℕ} {edges : Edges} (hE : EdgesIn n edges) {μ : ℕ → ℕ → ℚ} {ν : ℕ → ℕ → ℕ → ℚ}
    (h : LocalPolytope n S edges μ ν) {π : ℕ → ℕ → ℕ} (hπ : ∀ i < n, ∀ s < S, π i s < S) :
    LocalPolytope n S edges (fun i => pushNode S (π i) (μ i))
      (fun e => pushEdge S (π (edges.getD e (0, 0)).1) (π (edges.getD e (0, 0)).2) (ν e)) := by
  have hone : ∀ {π : ℕ → ℕ}, (∀ r < S, π r < S) → ∀ μ : ℕ → ℚ, ∑ s ∈ range S, pushNode S π μ s = ∑ r ∈ range S, μ r := by
    intro π hπ μ
    have := pushNode_sum hπ (fun _ => 1) μ
    simpa only [one_mul] using this
  refine ⟨?_, ?_, ?_, ?_, ?_⟩
  · intro i hi s _
    refine sum_nonneg fun r hr => ?_
    split
    · exact h.nonneg i hi r (mem_range.mp hr)
    · exact le_rfl
  · intro e he s _ t _
    refine sum_nonneg fun r hr => ?_
    split
    · refine sum_nonneg fun q hq => ?_
      split
      · exact h.nonneg_edge e he r (mem_range.mp hr) q (mem_range.mp hq)
      · exact le_rfl
    · exact le_rfl
  · intro i hi
    rw [hone (hπ i hi), h.normalised i hi]
  · intro e he s _
    obtain ⟨-, a2⟩ := hE _ (getD_mem he)
    unfold pushEdge pushNode
    rw [sum_comm]
    refine sum_congr rfl fun r hr => ?_
    split
    · have := hone (hπ _ a2) (ν e r)
      unfold pushNode at this
      rw [this, h.first e he r (mem_range.mp hr)]
    · exact sum_const_zero
  · intro e he t _
    obtain ⟨a1, -⟩ := hE _ (getD_mem he)
    simp only [pushEdge_eq]
    rw [hone (hπ _ a1)]
    unfold pushNode
    rw [sum_comm]
    refine sum_congr rfl fun q hq => ?_
    split
    · exact h.second e he q (mem_range.mp hq)
    · exact sum_const_zero

/-- Objective after renaming. -/
theorem push_score {n S : ℕ} {edges : Edges} (hE : EdgesIn n edges) (μ : ℕ → ℕ → ℚ) (ν : ℕ → ℕ → ℕ → ℚ) (U : ℕ → ℕ → ℚ)
    (P : ℕ → ℕ → ℕ → ℚ) {π : ℕ → ℕ → ℕ} (hπ : ∀ i < n, ∀ s < S, π i s < S) :
    marginalScore n S edges U P (fun i => pushNode S (π i) (μ i))
      (fun e => pushEdge S (π (edges.getD e (0, 0)).1) (π (edges.getD e (0, 0)).2) (ν e)) =
    ∑ i ∈ range n, ∑ s ∈ range S, U i (π i s) * μ i s +
      ∑ e ∈ range edges.length, ∑ s ∈ range S, ∑ t ∈ range S,
        P e (π (edges.getD e (0, 0)).1 s) (π (edges.getD e (0, 0)).2 t) * ν e s t := by
  unfold marginalScore
  congr 1
  · exact sum_congr rfl fun i hi => pushNode_sum (hπ i (mem_range.mp hi)) (U i) (μ i)
  · refine sum_congr rfl fun e he => ?_
    obtain ⟨a1, a2⟩ := hE _ (getD_mem (mem_range.mp he))
    exact pushEdge_sum (hπ _ a1) (hπ _ a2) (P e) (ν e)

/-- Points of the local polytope are outputs. -/
theorem exists_relaxed {n S : ℕ} {edges : Edges} (hE : EdgesIn n edges) {μ : ℕ → ℕ → ℚ} {ν : ℕ → ℕ → ℕ → ℚ}
    (h : LocalPolytope n S edges μ ν) (U : ℕ → ℕ → ℚ) (P : ℕ → ℕ → ℕ → ℚ) :
    ∃ v, IsRelaxed n S edges v ∧ edgeScore n S edges U P v = marginalScore n S edges U P μ ν := by
  have h1 : ∀ i < n, ∀ s < S, μ i s = nodeMarg S (.relaxed ⟨n * S, fun k => μ (k / S) (k % S)⟩
      ⟨edges.length * S ^ 2, fun k => ν (k / S / S) (k / S % S) (k % S)⟩) i s := by
    intro i _ s hs
    unfold nodeMarg
    simp only
    rw [flat_div hs, flat_mod hs]
  have h2 : ∀ e < edges.length, ∀ s < S, ∀ t < S, ν e s t = edgeMarg S edges (.relaxed ⟨n * S, fun k => μ (k / S) (k % S)⟩
      ⟨edges.length * S ^ 2, fun k => ν (k / S / S) (k / S % S) (k % S)⟩) e s t := by
    intro e _ s hs t ht
    unfold edgeMarg
    simp only
    rw [flat_div ht, flat_mod ht, flat_div hs, flat_mod hs]
  refine ⟨_, .inr ⟨_, _, rfl, rfl, rfl, LP.polytope_congr hE h1 h2 h⟩, ?_⟩
  unfold edgeScore marginalScore
  congr 1
  · exact sum_congr rfl fun i hi => sum_congr rfl fun s hs => by rw [h1 i (mem_range.mp hi) s (mem_range.mp hs)]
  · exact sum_congr rfl fun e he => sum_congr rfl fun s hs => sum_congr rfl fun t ht => by
      rw [h2 e (mem_range.mp he) s (mem_range.mp hs) t (mem_range.mp ht)]

/-- Moving the mass of the states `bad` of one vertex to the state `t`. -/
def moveMass (i t : ℕ) (bad : ℕ → Prop) [DecidablePred bad] (j s : ℕ) : ℕ := if j = i ∧ bad s then t else s

/-- Change of the objective when mass of one vertex is moved. -/
theorem move_score {n S : ℕ} {edges : Edges} (hE : EdgesIn n edges) (hloop : ∀ e ∈ edges, e.1 ≠ e.2) {μ : ℕ → ℕ → ℚ}
    {ν : ℕ → ℕ → ℕ → ℚ} (h : LocalPolytope n S edges μ ν) (U : ℕ → ℕ → ℚ) {P : ℕ → ℕ → ℕ → ℚ} {q : ℕ → ℚ}
    (hP : ∀ e < edges.length, ∀ s < S, ∀ s' < S, |P e s s'| ≤ q e) {i t : ℕ} (hi : i < n) (ht : t < S) (bad : ℕ → Prop)
    [DecidablePred bad] :
    marginalScore n S edges U P μ ν + ∑ s ∈ range S, (if bad s then (U i t - U i s - 2 * load edges q i) * μ i s else 0) ≤
    marginalScore n S edges U P (fun j => pushNode S (moveMass i t bad j) (μ j))
      (fun e => pushEdge S (moveMass i t bad (edges.getD e (0, 0)).1) (moveMass i t bad (edges.getD e (0, 0)).2) (ν e)) := by
  have hπ : ∀ j < n, ∀ s < S, moveMass i t bad j s < S := by
    intro j _ s hs
    unfold moveMass
    split <;> assumption
  rw [push_score hE μ ν U P hπ]
  have hbad : ∀ s, moveMass i t bad i s = if bad s then t else s := by
    intro s
    unfold moveMass
    simp
  have hother : ∀ j ≠ i, ∀ s, moveMass i t bad j s = s := by
    intro j hj s
    unfold moveMass
    rw [if_neg fun H => hj H.1]
  set B : ℚ := ∑ s ∈ range S, if bad s then μ i s else 0 with hB
  have hn : ∑ j ∈ range n, ∑ s ∈ range S, U j s * μ j s + ∑ s ∈ range S, (if bad s then (U i t - U i s) * μ i s else 0) =
      ∑ j ∈ range n, ∑ s ∈ range S, U j (moveMass i t bad j s) * μ j s := by
    rw [← add_sum_erase _ _ (mem_range.mpr hi), ← add_sum_erase _ (fun j => ∑ s ∈ range S, U j (moveMass i t bad j s) * μ j s)
      (mem_range.mpr hi), add_right_comm]
    congr 1
    · rw [← sum_add_distrib]
      refine sum_congr rfl fun s _ => ?_
      rw [hbad]
      split <;> ring
    · refine sum_congr rfl fun j hj => sum_congr rfl fun s _ => ?_
      rw [hother j (ne_of_mem_erase hj)]
  have hdrop : ∀ e < edges.length, ∀ a < S, ∀ b < S, ∀ a' < S, ∀ b' < S, -(2 * q e) ≤ P e a' b' - P e a b := by
    intro e he a ha b hb a' ha' b' hb'
    have h1 := (abs_le.mp (hP e he a ha b hb)).2
    have h2 := (abs_le.mp (hP e he a' ha' b' hb')).1
    linarith
  have he : ∀ e ∈ range edges.length, ∑ s ∈ range S, ∑ r ∈ range S, P e s r * ν e s r -
      2 * (if (edges.getD e (0, 0)).1 = i ∨ (edges.getD e (0, 0)).2 = i then q e else 0) * B ≤
      ∑ s ∈ range S, ∑ r ∈ range S, P e (moveMass i t bad (edges.getD e (0, 0)).1 s) (moveMass i t bad (edges.getD e (0, 0)).2 r) * ν e s r := by
    intro e he
    have he := mem_range.mp he
    have hne := hloop _ (getD_mem he)
    by_cases h1 : (edges.getD e (0, 0)).1 = i
    · have h2 : (edges.getD e (0, 0)).2 ≠ i := fun H => hne (h1.trans H.symm)
      rw [if_pos (.inl h1)]
      have hBe : B = ∑ s ∈ range S, ∑ r ∈ range S, if bad s then ν e s r else 0 := by
        rw [hB]
        refine sum_congr rfl fun s hs => ?_
        split
        · rw [h.first e he s (mem_range.mp hs), h1]
        · exact sum_const_zero.symm
      rw [hBe, mul_sum, ← sum_sub_distrib]
      refine sum_le_sum fun s hs => ?_
      rw [mul_sum, ← sum_sub_distrib]
      refine sum_le_sum fun r hr => ?_
      have hs := mem_range.mp hs
      have hr := mem_range.mp hr
      rw [hother _ h2, h1, hbad]
      have h0 := h.nonneg_edge e he s hs r hr
      split
      · have := mul_le_mul_of_nonneg_right (hdrop e he s hs r hr t ht r hr) h0
        linarith
      · linarith
    · by_cases h2 : (edges.getD e (0, 0)).2 = i
      · rw [if_pos (.inr h2)]
        have hBe : B = ∑ s ∈ range S, ∑ r ∈ range S, if bad r then ν e s r else 0 := by
          rw [sum_comm, hB]
          refine sum_congr rfl fun s hs => ?_
          split
          · rw [h.second e he s (mem_range.mp hs), h2]
          · exact sum_const_zero.symm
        rw [hBe, mul_sum, ← sum_sub_distrib]
        refine sum_le_sum fun s hs => ?_
        rw [mul_sum, ← sum_sub_distrib]
        refine sum_le_sum fun r hr => ?_
        have hs := mem_range.mp hs
        have hr := mem_range.mp hr
        rw [hother _ h1, h2, hbad]
        have h0 := h.nonneg_edge e he s hs r hr
        split
        · have := mul_le_mul_of_nonneg_right (hdrop e he s hs r hr s hs t ht) h0
          linarith
        · linarith
      · rw [if_neg (by tauto)]
        simp only [mul_zero, zero_mul, sub_zero]
        refine le_of_eq (sum_congr rfl fun s _ => sum_congr rfl fun r _ => ?_)
        rw [hother _ h1, hother _ h2]
  have hesum := sum_le_sum he
  rw [sum_sub_distrib, ← sum_mul, ← mul_sum] at hesum
  change _ - 2 * load edges q i * B ≤ _ at hesum
  have hsplit : ∑ s ∈ range S, (if bad s then (U i t - U i s - 2 * load edges q i) * μ i s else 0) =
      ∑ s ∈ range S, (if bad s then (U i t - U i s) * μ i s else 0) - 2 * load edges q i * B := by
    rw [hB, mul_sum, ← sum_sub_distrib]
    refine sum_congr rfl fun s _ => ?_
    split <;> ring
  rw [hsplit]
  unfold marginalScore
  linarith

/-- A best point of the local polytope has no mass on states that are much worse than another one. -/
theorem no_bad_mass {n S : ℕ} {edges : Edges} (hE : EdgesIn n edges) (hloop : ∀ e ∈ edges, e.1 ≠ e.2) {v : YVal}
    (hv : IsRelaxed n S edges v) {U : ℕ → ℕ → ℚ} {P : ℕ → ℕ → ℕ → ℚ} {q : ℕ → ℚ}
    (hP : ∀ e < edges.length, ∀ s < S, ∀ s' < S, |P e s s'| ≤ q e)
    (hbest : ∀ v', IsRelaxed n S edges v' → edgeScore n S edges U P v' ≤ edgeScore n S edges U P v) {i t s : ℕ} (hi : i < n)
    (ht : t < S) (hs : s < S) (hgap : U i s + 2 * load edges q i < U i t) : nodeMarg S v i s = 0 := by
  have hpoly := isRelaxed_polytope hE hv
  have hm := move_score hE hloop hpoly U hP hi ht (· = s)
  obtain ⟨v', hv', e⟩ := exists_relaxed hE (push_polytope hE hpoly (π := moveMass i t (· = s)) (by
    intro j _ r hr
    unfold moveMass
    split <;> assumption)) U P
  have h1 := hbest v' hv'
  rw [e] at h1
  have h2 : ∑ r ∈ range S, (if r = s then (U i t - U i r - 2 * load edges q i) * nodeMarg S v i r else 0) =
      (U i t - U i s - 2 * load edges q i) * nodeMarg S v i s := by
    rw [sum_ite_eq', if_pos (mem_range.mpr hs)]
  rw [h2] at hm
  have h3 := hpoly.nonneg i hi s hs
  rcases h3.eq_or_lt with h | h
  · exact h.symm
  · exfalso
    have := mul_pos (by linarith : 0 < U i t - U i s - 2 * load edges q i) h
    unfold edgeScore at h1
    linarith

end Verif.Lemmas
