import Verif.Spec.Monge
import Verif.Spec.LocalPolytope
import Mathlib.Tactic.Linarith
import Mathlib.Tactic.Ring
import Mathlib.Algebra.BigOperators.Ring.Finset
import Mathlib.Algebra.Order.BigOperators.Ring.Finset

/-!
# Rounding points of the local polytope at a threshold
-/

namespace Verif.Monge

open Finset Verif.Spec

/-- indicator. -/
def ind (p : Prop) [Decidable p] : ℚ := if p then 1 else 0

/-- a function on `0 … L` as a combination of the steps `s ≤ a`. -/
theorem steps (f : ℕ → ℚ) {s L : ℕ} (h : s ≤ L) :
    f s = f L + ∑ a ∈ range L, (f a - f (a + 1)) * ind (s ≤ a) := by
  induction L, h using Nat.le_induction with
  | base =>
    rw [sum_eq_zero, add_zero]
    intro a ha
    have := mem_range.mp ha
    rw [ind, if_neg (by omega), mul_zero]
  | succ L hL ih =>
    rw [sum_range_succ, ind, if_pos hL]
    linarith

/-- the second difference. -/
def second (P : ℕ → ℕ → ℚ) (a b : ℕ) : ℚ := P a b - P a (b + 1) - (P (a + 1) b - P (a + 1) (b + 1))

theorem steps2 (P : ℕ → ℕ → ℚ) {s t L : ℕ} (hs : s ≤ L) (ht : t ≤ L) :
    P s t = P s L + (P L t - P L L) + ∑ b ∈ range L, ∑ a ∈ range L, second P a b * (ind (s ≤ a) * ind (t ≤ b)) := by
  rw [steps (fun t => P s t) ht]
  have h1 : ∀ b ∈ range L, (P s b - P s (b + 1)) * ind (t ≤ b) = (P L b - P L (b + 1)) * ind (t ≤ b) +
      ∑ a ∈ range L, second P a b * (ind (s ≤ a) * ind (t ≤ b)) := by
    intro b _
    rw [steps (fun s => P s b - P s (b + 1)) hs, add_mul, sum_mul]
    congr 1
    refine sum_congr rfl fun a _ => ?_
    unfold second
    ring
  rw [sum_congr rfl h1, sum_add_distrib]
  have h2 := steps (fun t => P L t) ht
  linarith

/-- the mass at or below state `a`. -/
def cum (μ : ℕ → ℚ) (a : ℕ) : ℚ := ∑ s ∈ range (a + 1), μ s

theorem sum_ind {S : ℕ} (μ : ℕ → ℚ) {a : ℕ} (ha : a < S) : ∑ s ∈ range S, μ s * ind (s ≤ a) = cum μ a := by
  unfold cum
  rw [← sum_subset (range_subset_range.mpr (by omega : a + 1 ≤ S))]
  · exact sum_congr rfl fun s hs => by rw [ind, if_pos (by have := mem_range.mp hs; omega), mul_one]
  · intro s _ hs
    have : ¬ s < a + 1 := fun h => hs (mem_range.mpr h)
    rw [ind, if_neg (by omega), mul_zero]

/-- expected pairwise term of a coupling, bounded by the monotone coupling. -/
theorem coupling_le {S : ℕ} (hS : 1 ≤ S) (P : ℕ → ℕ → ℚ)
    (hP : ∀ a b, a + 1 < S → b + 1 < S → 0 ≤ second P a b) (ν : ℕ → ℕ → ℚ) (μ μ' : ℕ → ℚ)
    (h0 : ∀ s < S, ∀ t < S, 0 ≤ ν s t) (h1 : ∀ s < S, ∑ t ∈ range S, ν s t = μ s)
    (h2 : ∀ t < S, ∑ s ∈ range S, ν s t = μ' t) :
    ∑ s ∈ range S, ∑ t ∈ range S, P s t * ν s t ≤
      ∑ s ∈ range S, P s (S - 1) * μ s + ∑ t ∈ range S, (P (S - 1) t - P (S - 1) (S - 1)) * μ' t +
        ∑ b ∈ range (S - 1), ∑ a ∈ range (S - 1), second P a b * min (cum μ a) (cum μ' b) := by
  have key : ∑ s ∈ range S, ∑ t ∈ range S, P s t * ν s t =
      ∑ s ∈ range S, P s (S - 1) * μ s + ∑ t ∈ range S, (P (S - 1) t - P (S - 1) (S - 1)) * μ' t +
        ∑ b ∈ range (S - 1), ∑ a ∈ range (S - 1), second P a b *
          ∑ s ∈ range S, ∑ t ∈ range S, ν s t * (ind (s ≤ a) * ind (t ≤ b)) := by
    have e1 : ∀ s ∈ range S, ∑ t ∈ range S, P s t * ν s t = P s (S - 1) * μ s +
        ∑ t ∈ range S, (P (S - 1) t - P (S - 1) (S - 1)) * ν s t +
        ∑ t ∈ range S, ∑ b ∈ range (S - 1), ∑ a ∈ range (S - 1), second P a b * (ν s t * (ind (s ≤ a) * ind (t ≤ b))) := by
      intro s hs
      rw [← h1 s (mem_range.mp hs), mul_sum, ← sum_add_distrib, ← sum_add_distrib]
      refine sum_congr rfl fun t ht => ?_
      have hs' := mem_range.mp hs
      have ht' := mem_range.mp ht
      rw [steps2 P (by omega : s ≤ S - 1) (by omega : t ≤ S - 1), add_mul, add_mul]
      congr 1
      rw [sum_mul]
      refine sum_congr rfl fun b _ => ?_
      rw [sum_mul]
      exact sum_congr rfl fun a _ => by ring
    rw [sum_congr rfl e1, sum_add_distrib, sum_add_distrib]
    congr 1
    · congr 1
      rw [sum_comm]
      refine sum_congr rfl fun t ht => ?_
      rw [← mul_sum, h2 t (mem_range.mp ht)]
    · simp only [mul_sum]
      have : ∀ s ∈ range S, (∑ t ∈ range S, ∑ b ∈ range (S - 1), ∑ a ∈ range (S - 1),
          second P a b * (ν s t * (ind (s ≤ a) * ind (t ≤ b)))) =
          ∑ b ∈ range (S - 1), ∑ a ∈ range (S - 1), ∑ t ∈ range S,
          second P a b * (ν s t * (ind (s ≤ a) * ind (t ≤ b))) := by
        intro s _
        rw [sum_comm]
        exact sum_congr rfl fun b _ => sum_comm
      rw [sum_congr rfl this, sum_comm]
      refine sum_congr rfl fun b _ => ?_
      rw [sum_comm]
  rw [key]
  refine add_le_add le_rfl ?_
  refine sum_le_sum fun b hb => sum_le_sum fun a ha => ?_
  have hb' := mem_range.mp hb
  have ha' := mem_range.mp ha
  refine mul_le_mul_of_nonneg_left ?_ (hP a b (by omega) (by omega))
  have hi : ∀ (p : Prop) [Decidable p], 0 ≤ ind p ∧ ind p ≤ 1 := by
    intro p _
    unfold ind
    split_ifs <;> norm_num
  refine le_min ?_ ?_
  · rw [← sum_ind μ (by omega : a < S)]
    refine sum_le_sum fun s hs => ?_
    rw [← h1 s (mem_range.mp hs), sum_mul]
    refine sum_le_sum fun t ht => ?_
    have h := h0 s (mem_range.mp hs) t (mem_range.mp ht)
    refine mul_le_mul_of_nonneg_left ?_ h
    have := hi (s ≤ a)
    have := hi (t ≤ b)
    nlinarith
  · rw [← sum_ind μ' (by omega : b < S), sum_comm]
    refine sum_le_sum fun t ht => ?_
    rw [← h2 t (mem_range.mp ht), sum_mul]
    refine sum_le_sum fun s hs => ?_
    have h := h0 s (mem_range.mp hs) t (mem_range.mp ht)
    refine mul_le_mul_of_nonneg_left ?_ h
    have := hi (s ≤ a)
    have := hi (t ≤ b)
    nlinarith

/-- The state of a vertex at threshold `t`: the number of states whose mass at or below is at most `t`. -/
def level (S : ℕ) (K : ℕ → ℕ) (t : ℕ) : ℕ := #{a ∈ range (S - 1) | K a ≤ t}

theorem level_lt {S : ℕ} (hS : 1 ≤ S) (K : ℕ → ℕ) (t : ℕ) : level S K t < S := by
  unfold level
  have := card_filter_le (range (S - 1)) (fun a => K a ≤ t)
  rw [card_range] at this
  omega

theorem level_le {S : ℕ} {K : ℕ → ℕ} (hK : ∀ a b, a ≤ b → b < S - 1 → K a ≤ K b) {a t : ℕ} (ha : a < S - 1) :
    level S K t ≤ a ↔ t < K a := by
  unfold level
  constructor
  · intro h
    by_contra hc
    push Not at hc
    have hsub : range (a + 1) ⊆ (range (S - 1)).filter (fun a => K a ≤ t) := by
      intro b hb
      have hb' := mem_range.mp hb
      rw [mem_filter, mem_range]
      exact ⟨by omega, (hK b a (by omega) ha).trans hc⟩
    have := card_le_card hsub
    rw [card_range] at this
    omega
  · intro h
    have hsub : (range (S - 1)).filter (fun a => K a ≤ t) ⊆ range a := by
      intro b hb
      rw [mem_filter, mem_range] at hb
      rw [mem_range]
      by_contra hc
      have := hK a b (by omega) hb.1
      omega
    have := card_le_card hsub
    rwa [card_range] at this

theorem count_lt {N k : ℕ} (h : k ≤ N) : ∑ t ∈ range N, ind (t < k) = k := by
  unfold ind
  rw [sum_ite, sum_const_zero, add_zero, sum_const, nsmul_eq_mul, mul_one]
  congr 1
  have : (range N).filter (fun t => t < k) = range k := by
    ext t
    rw [mem_filter, mem_range, mem_range]
    omega
  rw [this, card_range]

/-- average of a function of the state over all thresholds. -/
theorem sum_level {S N : ℕ} (hS : 1 ≤ S) {K : ℕ → ℕ} (hK : ∀ a b, a ≤ b → b < S - 1 → K a ≤ K b)
    (hN : ∀ a < S - 1, K a ≤ N) (f μ : ℕ → ℚ) (hμ : ∑ s ∈ range S, μ s = 1)
    (hcum : ∀ a < S - 1, (K a : ℚ) = N * cum μ a) :
    ∑ t ∈ range N, f (level S K t) = N * ∑ s ∈ range S, f s * μ s := by
  have h1 : ∀ t ∈ range N, f (level S K t) = f (S - 1) +
      ∑ a ∈ range (S - 1), (f a - f (a + 1)) * ind (t < K a) := by
    intro t _
    rw [steps f (by have := level_lt hS K t; omega : level S K t ≤ S - 1)]
    congr 1
    refine sum_congr rfl fun a ha => ?_
    congr 1
    unfold ind
    simp only [level_le hK (mem_range.mp ha)]
  have h2 : ∀ s ∈ range S, f s * μ s = f (S - 1) * μ s +
      ∑ a ∈ range (S - 1), (f a - f (a + 1)) * (μ s * ind (s ≤ a)) := by
    intro s hs
    have := mem_range.mp hs
    rw [steps f (by omega : s ≤ S - 1), add_mul, sum_mul]
    congr 1
    exact sum_congr rfl fun a _ => by ring
  rw [sum_congr rfl h1, sum_congr rfl h2, sum_add_distrib, sum_add_distrib, ← mul_sum, hμ, sum_const, card_range,
    nsmul_eq_mul, mul_one, mul_add]
  congr 1
  have h3 : ∑ s ∈ range S, ∑ a ∈ range (S - 1), (f a - f (a + 1)) * (μ s * ind (s ≤ a)) =
      ∑ a ∈ range (S - 1), (f a - f (a + 1)) * cum μ a := by
    rw [sum_comm]
    refine sum_congr rfl fun a ha => ?_
    have := mem_range.mp ha
    rw [← mul_sum, sum_ind μ (by omega : a < S)]
  rw [h3, sum_comm, mul_sum]
  refine sum_congr rfl fun a ha => ?_
  rw [← mul_sum, count_lt (hN a (mem_range.mp ha)), hcum a (mem_range.mp ha)]
  ring

/-- average of a pairwise term over all thresholds: at least that of every coupling. -/
theorem sum_level2 {S N : ℕ} (hS : 1 ≤ S) {K K' : ℕ → ℕ} (hK : ∀ a b, a ≤ b → b < S - 1 → K a ≤ K b)
    (hK' : ∀ a b, a ≤ b → b < S - 1 → K' a ≤ K' b)
    (hN : ∀ a < S - 1, K a ≤ N) (hN' : ∀ a < S - 1, K' a ≤ N) (P : ℕ → ℕ → ℚ)
    (hP : ∀ a b, a + 1 < S → b + 1 < S → 0 ≤ second P a b) (ν : ℕ → ℕ → ℚ) (μ μ' : ℕ → ℚ)
    (h0 : ∀ s < S, ∀ t < S, 0 ≤ ν s t) (h1 : ∀ s < S, ∑ t ∈ range S, ν s t = μ s)
    (h2 : ∀ t < S, ∑ s ∈ range S, ν s t = μ' t)
    (hμ : ∑ s ∈ range S, μ s = 1) (hμ' : ∑ s ∈ range S, μ' s = 1)
    (hcum : ∀ a < S - 1, (K a : ℚ) = N * cum μ a) (hcum' : ∀ a < S - 1, (K' a : ℚ) = N * cum μ' a) :
    N * ∑ s ∈ range S, ∑ t ∈ range S, P s t * ν s t ≤ ∑ t ∈ range N, P (level S K t) (level S K' t) := by
  have hN0 : (0 : ℚ) ≤ N := Nat.cast_nonneg N
  refine (mul_le_mul_of_nonneg_left (coupling_le hS P hP ν μ μ' h0 h1 h2) hN0).trans (le_of_eq ?_)
  have e1 : ∀ t ∈ range N, P (level S K t) (level S K' t) = P (level S K t) (S - 1) +
      (P (S - 1) (level S K' t) - P (S - 1) (S - 1)) +
      ∑ b ∈ range (S - 1), ∑ a ∈ range (S - 1), second P a b * ind (t < min (K a) (K' b)) := by
    intro t _
    rw [steps2 P (by have := level_lt hS K t; omega : level S K t ≤ S - 1)
      (by have := level_lt hS K' t; omega : level S K' t ≤ S - 1)]
    congr 1
    refine sum_congr rfl fun b hb => sum_congr rfl fun a ha => ?_
    congr 1
    unfold ind
    simp only [level_le hK (mem_range.mp ha), level_le hK' (mem_range.mp hb), lt_min_iff]
    by_cases p : t < K a <;> by_cases q : t < K' b <;> simp [p, q]
  rw [sum_congr rfl e1, sum_add_distrib, sum_add_distrib,
    sum_level hS hK hN (fun s => P s (S - 1)) μ hμ hcum,
    sum_level hS hK' hN' (fun s => P (S - 1) s - P (S - 1) (S - 1)) μ' hμ' hcum', mul_add, mul_add]
  congr 1
  rw [sum_comm (s := range N), mul_sum]
  refine sum_congr rfl fun b hb => ?_
  rw [sum_comm (s := range N), mul_sum]
  refine sum_congr rfl fun a ha => ?_
  rw [← mul_sum, count_lt ((min_le_left _ _).trans (hN a (mem_range.mp ha))), Nat.cast_min,
    hcum a (mem_range.mp ha), hcum' b (mem_range.mp hb), ← mul_min_of_nonneg _ _ hN0]
  ring

/-- finitely many nonnegative rationals have an even common denominator. -/
theorem common_den (n S : ℕ) (μ : ℕ → ℕ → ℚ) (h0 : ∀ i < n, ∀ s < S, 0 ≤ μ i s) :
    ∃ M : ℕ, 0 < M ∧ ∀ i < n, ∀ s < S, ∃ k : ℕ, (k : ℚ) = (2 * M : ℕ) * μ i s := by
  refine ⟨∏ i ∈ range n, ∏ s ∈ range S, (μ i s).den,
    prod_pos fun i _ => prod_pos fun s _ => (μ i s).den_pos, fun i hi s hs => ?_⟩
  have hd : (μ i s).den ∣ ∏ i ∈ range n, ∏ s ∈ range S, (μ i s).den :=
    (dvd_prod_of_mem (fun s => (μ i s).den) (mem_range.mpr hs)).trans
      (dvd_prod_of_mem (fun i => ∏ s ∈ range S, (μ i s).den) (mem_range.mpr hi))
  obtain ⟨c, hc⟩ := hd
  rw [hc]
  refine ⟨2 * c * (μ i s).num.toNat, ?_⟩
  have hnum : (((μ i s).num.toNat : ℕ) : ℚ) = (μ i s).num := by
    have := Int.toNat_of_nonneg (Rat.num_nonneg.mpr (h0 i hi s hs))
    exact_mod_cast this
  have hq : (μ i s).num = μ i s * (μ i s).den := (Rat.mul_den_eq_num _).symm
  push_cast
  rw [hnum, hq]
  ring

/-- **Threshold rounding.** For attractive potentials the labellings at the thresholds score, on average, at least as much as
the point of the local polytope. -/
theorem rounding {n S : ℕ} (hS : 1 ≤ S) {edges : List (ℕ × ℕ)} (hE : EdgesIn n edges) (U : ℕ → ℕ → ℚ)
    (P : ℕ → ℕ → ℕ → ℚ) (hP : Attractive S edges P) {μ : ℕ → ℕ → ℚ} {ν : ℕ → ℕ → ℕ → ℚ}
    (hμ : LocalPolytope n S edges μ ν) :
    ∃ (M : ℕ) (y : ℕ → ℕ → ℕ), 0 < M ∧ (∀ t, Valid n S (y t)) ∧
      (2 * M : ℕ) * marginalScore n S edges U P μ ν ≤ ∑ t ∈ range (2 * M), score n edges U P (y t) ∧
      ∀ i < n, ∀ a < S - 1, ∃ k : ℕ, (k : ℚ) = (2 * M : ℕ) * cum (μ i) a ∧ ∀ t, y t i ≤ a ↔ t < k := by
  obtain ⟨M, hM, hk⟩ := common_den n S μ hμ.nonneg
  choose! k hk using hk
  set K : ℕ → ℕ → ℕ := fun i a => ∑ s ∈ range (a + 1), k i s with hKdef
  have hcum : ∀ i < n, ∀ a < S - 1, (K i a : ℚ) = (2 * M : ℕ) * cum (μ i) a := by
    intro i hi a ha
    rw [hKdef]
    unfold cum
    rw [mul_sum]
    push_cast
    refine sum_congr rfl fun s hs => ?_
    have := mem_range.mp hs
    rw [hk i hi s (by omega)]
    push_cast
    ring
  have hmono : ∀ i < n, ∀ a b, a ≤ b → b < S - 1 → K i a ≤ K i b := by
    intro i hi a b hab hb
    exact sum_le_sum_of_subset (range_subset_range.mpr (by omega))
  have hle : ∀ i < n, ∀ a < S - 1, K i a ≤ 2 * M := by
    intro i hi a ha
    have h1 : cum (μ i) a ≤ 1 := by
      rw [← hμ.normalised i hi]
      refine sum_le_sum_of_subset_of_nonneg (range_subset_range.mpr (by omega)) fun s hs _ => ?_
      exact hμ.nonneg i hi s (mem_range.mp hs)
    have h2 := hcum i hi a ha
    have h3 : (0 : ℚ) ≤ (2 * M : ℕ) := Nat.cast_nonneg _
    have h4 : (K i a : ℚ) ≤ (2 * M : ℕ) := by nlinarith
    exact_mod_cast h4
  refine ⟨M, fun t i => level S (K i) t, hM, fun t i _ => level_lt hS _ _, ?_, ?_⟩
  · unfold marginalScore score
    rw [sum_add_distrib, mul_add, mul_sum, mul_sum]
    refine add_le_add (le_of_eq ?_) ?_
    · rw [sum_comm]
      refine sum_congr rfl fun i hi => ?_
      have hi' := mem_range.mp hi
      rw [sum_level hS (hmono i hi') (hle i hi') (U i) (μ i) (hμ.normalised i hi') (hcum i hi')]
    · rw [sum_comm]
      refine sum_le_sum fun e he => ?_
      have he' := mem_range.mp he
      have hmem : edges.getD e (0, 0) ∈ edges := by
        rw [List.getD_eq_getElem _ _ he']
        exact List.getElem_mem he'
      obtain ⟨a1, a2⟩ := hE _ hmem
      exact sum_level2 hS (hmono _ a1) (hmono _ a2) (hle _ a1) (hle _ a2) (P e)
        (fun a b ha hb => by have := hP e he' a b ha hb; unfold second; linarith) (ν e) _ _
        (hμ.nonneg_edge e he') (hμ.first e he') (hμ.second e he') (hμ.normalised _ a1) (hμ.normalised _ a2)
        (hcum _ a1) (hcum _ a2)
  · intro i hi a ha
    exact ⟨K i a, hcum i hi a ha, fun t => level_le (hmono i hi) ha⟩

end Verif.Monge
