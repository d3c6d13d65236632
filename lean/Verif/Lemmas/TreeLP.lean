import Verif.Lemmas.TreeBP
import Verif.Spec.LocalPolytope

/-!
# The local polytope of a forest: no point scores more than the best labelling
-/

namespace Verif.MaxProd

open Finset Verif.Common Verif.Spec

variable {n S : ℕ} {U : ℕ → ℕ → ℚ} {P : ℕ → ℕ → ℕ → ℚ} {st : St} {edges : Edges}

/-- the upward messages of a finished search. -/
theorem upMessages (hT : IsTree edges n st) (U : ℕ → ℕ → ℚ) (P : ℕ → ℕ → ℕ → ℚ) :
    ∃ B : ℕ → ℕ → ℚ, ∀ v s, B v s = ∑ c ∈ range n, if st.parents c = some v then
      upMax S U P st B c s - maxN (upMax S U P st B c) S else 0 := by
  have hself : ∀ c ∈ st.traversal, st.parents c ≠ some c := fun c _ h => (hT.par c c h).2.2.2 rfl
  refine ⟨st.traversal.reverse.foldl (upStep S U P st) (fun _ _ => 0), fun v s => ?_⟩
  set B := st.traversal.reverse.foldl (upStep S U P st) (fun _ _ => 0) with hB
  have h1 := up_fold (S := S) (U := U) (P := P) (st := st) st.traversal.reverse (fun _ _ => 0)
    (by rw [List.pairwise_reverse]; exact hT.order)
    (by intro c hc; exact hself c (List.mem_reverse.mp hc)) v s
  have h2 : B v s = 0 + _ := h1
  rw [zero_add, List.map_reverse, List.sum_reverse] at h2
  rw [h2]
  have hperm : st.traversal.Perm (List.range n) := by
    rw [List.perm_ext_iff_of_nodup hT.nodup List.nodup_range]
    intro a; rw [hT.mem, List.mem_range]
  rw [(hperm.map _).sum_eq]
  exact list_sum_range n _

/-- what the messages into `v` contribute, summed over all vertices, read at the senders. -/
theorem messages_sum (hT : IsTree edges n st) {B M : ℕ → ℕ → ℚ} {k : ℕ → ℚ}
    (hB : ∀ v s, B v s = ∑ c ∈ range n, if st.parents c = some v then M c s - k c else 0)
    (f : ℕ → (ℕ → ℚ) → ℚ) (hadd : ∀ v (g h : ℕ → ℚ), f v (fun s => g s + h s) = f v g + f v h)
    (hzero : ∀ v, f v (fun _ => 0) = 0) :
    ∑ v ∈ range n, f v (B v) =
      ∑ c ∈ range n, match st.parents c with
        | none => 0
        | some q => f q (fun s => M c s - k c) := by
  have hsum : ∀ v (t : Finset ℕ) (g : ℕ → ℕ → ℚ), f v (fun s => ∑ c ∈ t, g c s) = ∑ c ∈ t, f v (g c) := by
    intro v t g
    induction t using Finset.induction_on with
    | empty => simpa using hzero v
    | insert a t ha ih =>
      rw [sum_insert ha, ← ih, ← hadd]
      congr 1
      funext s
      rw [sum_insert ha]
  have h1 : ∀ v, f v (B v) = ∑ c ∈ range n, if st.parents c = some v then f v (fun s => M c s - k c) else 0 := by
    intro v
    have : B v = fun s => ∑ c ∈ range n, if st.parents c = some v then M c s - k c else 0 := by
      funext s; exact hB v s
    rw [this, hsum v (range n) (fun c s => if st.parents c = some v then M c s - k c else 0)]
    apply sum_congr rfl
    intro c _
    by_cases h : st.parents c = some v
    · simp only [if_pos h]
    · simp only [if_neg h]; exact hzero v
  rw [sum_congr rfl fun v _ => h1 v, sum_comm]
  apply sum_congr rfl
  intro c _
  cases hp : st.parents c with
  | none => simp
  | some q =>
    have hq : q < n := (hT.par c q hp).2.1
    simp only [Option.some.injEq]
    rw [sum_ite_eq, if_pos (mem_range.mpr hq)]

/-- **The local polytope of a forest is tight.** -/
theorem forest_tight (hT : IsTree edges n st) (hE : EdgesIn n edges) (hS : 0 < S)
    (U : ℕ → ℕ → ℚ) (P : ℕ → ℕ → ℕ → ℚ) :
    ∃ y, Valid n S y ∧ ∀ μ ν, LocalPolytope n S edges μ ν →
      marginalScore n S edges U P μ ν ≤ Spec.score n edges U P y := by
  obtain ⟨B, hB⟩ := upMessages (S := S) hT U P
  set M := upMax S U P st B with hM
  set k : ℕ → ℚ := fun c => maxN (M c) S with hk
  obtain ⟨y, hy⟩ := exists_rec st.parents (fun v => st.traversal.idxOf v)
    (fun u => argmaxN (fun s => U u s + B u s) S)
    (fun u l => argmaxN (fun t => B u t + U u t + pwForward P st u l t) S)
  have hlt : ∀ u, y u < S := by
    intro u
    rw [hy u]
    cases st.parents u with
    | none => exact argmaxN_lt _ hS
    | some q =>
      simp only
      split
      · exact argmaxN_lt _ hS
      · exact hS
  refine ⟨y, fun u _ => hlt u, fun μ ν hμ => ?_⟩
  -- the value of the labelling
  have hval : Spec.score n edges U P y = ∑ v ∈ range n, (match st.parents v with
      | none => U v (y v) + B v (y v)
      | some _ => k v) := by
    unfold Spec.score
    rw [hT.sum_edges hE]
    have hBsum := messages_sum hT (B := B) (M := M) (k := k) hB (fun v g => g (y v)) (fun _ _ _ => rfl) (fun _ => rfl)
    have : ∑ v ∈ range n, U v (y v) + (∑ v ∈ range n, if (st.parents v).isSome then
          P (st.via v).1 (y (edges.getD (st.via v).1 (0, 0)).1) (y (edges.getD (st.via v).1 (0, 0)).2) else 0) =
        ∑ v ∈ range n, (U v (y v) + B v (y v)) - ∑ v ∈ range n, B v (y v) +
          (∑ v ∈ range n, if (st.parents v).isSome then
          P (st.via v).1 (y (edges.getD (st.via v).1 (0, 0)).1) (y (edges.getD (st.via v).1 (0, 0)).2) else 0) := by
      rw [sum_add_distrib]; ring
    rw [this, hBsum, ← sum_sub_distrib, ← sum_add_distrib]
    apply sum_congr rfl
    intro v _
    cases hp : st.parents v with
    | none => simp
    | some q =>
      simp only [Option.isSome_some, if_true]
      have hvia := (hT.par v q hp).2.2.1.2
      have hPv : P (st.via v).1 (y (edges.getD (st.via v).1 (0, 0)).1) (y (edges.getD (st.via v).1 (0, 0)).2) =
          pwForward P st v (y q) (y v) := by
        unfold edge at hvia
        rw [hvia]
        unfold pwForward
        cases (st.via v).2 <;> simp
      rw [hPv]
      have hyv : y v = argmaxN (fun t => B v t + U v t + pwForward P st v (y q) t) S := by
        have := hy v
        rw [hp] at this
        simpa [hT.idx_lt hp] using this
      have hMv : M v (y q) = B v (y v) + U v (y v) + pwForward P st v (y q) (y v) := by
        conv_rhs => rw [hyv]
        rfl
      rw [hMv]
      ring
  -- the value of the marginals
  rw [hval]
  unfold marginalScore
  rw [hT.sum_edges hE]
  have hBsum := messages_sum hT (B := B) (M := M) (k := k) hB (fun v g => ∑ s ∈ range S, g s * μ v s)
    (fun v g h => by rw [← sum_add_distrib]; apply sum_congr rfl; intros; ring) (fun v => by simp)
  have : ∑ v ∈ range n, ∑ s ∈ range S, U v s * μ v s = ∑ v ∈ range n, ∑ s ∈ range S, (U v s + B v s) * μ v s -
      ∑ v ∈ range n, ∑ s ∈ range S, B v s * μ v s := by
    rw [← sum_sub_distrib]
    apply sum_congr rfl; intro v _
    rw [← sum_sub_distrib]
    apply sum_congr rfl; intro s _; ring
  rw [this, hBsum, ← sum_sub_distrib, ← sum_add_distrib]
  apply sum_le_sum
  intro v hv
  have hv' := mem_range.mp hv
  cases hp : st.parents v with
  | none =>
    simp only [Option.isSome_none, Bool.false_eq_true, if_false, sub_zero, add_zero]
    have hyv : y v = argmaxN (fun s => U v s + B v s) S := by
      have := hy v
      rw [hp] at this
      exact this
    calc ∑ s ∈ range S, (U v s + B v s) * μ v s
        ≤ ∑ s ∈ range S, (U v (y v) + B v (y v)) * μ v s := by
          apply sum_le_sum
          intro s hs
          apply mul_le_mul_of_nonneg_right _ (hμ.nonneg v hv' s (mem_range.mp hs))
          rw [hyv]
          exact le_argmaxN (fun s => U v s + B v s) (mem_range.mp hs)
      _ = U v (y v) + B v (y v) := by rw [← mul_sum, hμ.normalised v hv', mul_one]
  | some q =>
    simp only [Option.isSome_some, if_true]
    obtain ⟨_, hq, ⟨he, hvia⟩, _⟩ := hT.par v q hp
    set e := (st.via v).1 with hedef
    -- oriented edge marginals
    obtain ⟨ρ, hρ0, hρ1, hρ2, hρP⟩ : ∃ ρ : ℕ → ℕ → ℚ, (∀ s < S, ∀ t < S, 0 ≤ ρ s t) ∧
        (∀ s < S, ∑ t ∈ range S, ρ s t = μ q s) ∧ (∀ t < S, ∑ s ∈ range S, ρ s t = μ v t) ∧
        ∑ s ∈ range S, ∑ t ∈ range S, P e s t * ν e s t =
          ∑ s ∈ range S, ∑ t ∈ range S, pwForward P st v s t * ρ s t := by
      unfold edge at hvia
      cases hf : (st.via v).2 with
      | false =>
        rw [hf] at hvia
        simp only [Bool.false_eq_true, if_false] at hvia
        refine ⟨ν e, hμ.nonneg_edge e he, fun s hs => ?_, fun t ht => ?_, ?_⟩
        · rw [hμ.first e he s hs, hvia]
        · rw [hμ.second e he t ht, hvia]
        · apply sum_congr rfl; intro s _; apply sum_congr rfl; intro t _
          unfold pwForward; rw [hf]; rfl
      | true =>
        rw [hf] at hvia
        simp only [if_true] at hvia
        refine ⟨fun s t => ν e t s, fun s hs t ht => hμ.nonneg_edge e he t ht s hs, fun s hs => ?_, fun t ht => ?_, ?_⟩
        · rw [hμ.second e he s hs, hvia]
        · rw [hμ.first e he t ht, hvia]
        · rw [sum_comm]
          apply sum_congr rfl; intro s _; apply sum_congr rfl; intro t _
          unfold pwForward; rw [hf]; rfl
    rw [hρP]
    have h1 : ∑ s ∈ range S, ∑ t ∈ range S, pwForward P st v s t * ρ s t ≤
        ∑ s ∈ range S, ∑ t ∈ range S, (M v s - (U v t + B v t)) * ρ s t := by
      apply sum_le_sum; intro s hs; apply sum_le_sum; intro t ht
      apply mul_le_mul_of_nonneg_right _ (hρ0 s (mem_range.mp hs) t (mem_range.mp ht))
      have : B v t + U v t + pwForward P st v s t ≤ M v s :=
        le_maxN (fun t => B v t + U v t + pwForward P st v s t) (mem_range.mp ht)
      linarith
    have h2 : ∑ s ∈ range S, ∑ t ∈ range S, (M v s - (U v t + B v t)) * ρ s t =
        ∑ s ∈ range S, M v s * μ q s - ∑ t ∈ range S, (U v t + B v t) * μ v t := by
      have ha : ∑ s ∈ range S, M v s * μ q s = ∑ s ∈ range S, ∑ t ∈ range S, M v s * ρ s t := by
        apply sum_congr rfl; intro s hs
        rw [← mul_sum, hρ1 s (mem_range.mp hs)]
      have hb : ∑ t ∈ range S, (U v t + B v t) * μ v t =
          ∑ s ∈ range S, ∑ t ∈ range S, (U v t + B v t) * ρ s t := by
        rw [sum_comm]
        apply sum_congr rfl; intro t ht
        rw [← mul_sum, hρ2 t (mem_range.mp ht)]
      rw [ha, hb, ← sum_sub_distrib]
      apply sum_congr rfl; intro s _
      rw [← sum_sub_distrib]
      apply sum_congr rfl; intro t _; ring
    have h3 : ∑ s ∈ range S, (M v s - k v) * μ q s = ∑ s ∈ range S, M v s * μ q s - k v := by
      have : k v = ∑ s ∈ range S, k v * μ q s := by rw [← mul_sum, hμ.normalised q hq, mul_one]
      conv_rhs => rw [this]
      rw [← sum_sub_distrib]
      apply sum_congr rfl; intro s _; ring
    rw [h3]
    linarith

end Verif.MaxProd
