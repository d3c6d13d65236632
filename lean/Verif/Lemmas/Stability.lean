import Verif.Lemmas.RiskClose
import Verif.Spec.Stability
import Verif.Spec.FrankWolfe

/-!
# How weights of nearly minimal risk depend on the samples and on `C`
-/

namespace Verif.Lemmas

open Finset Verif.Spec

variable {X Y : Type} {P : Spec.Problem X Y}

theorem isHinge_unique {w : ℕ → ℚ} {x : X} {y : Y} {a b : ℚ} (ha : P.IsHinge w x y a) (hb : P.IsHinge w x y b) : a = b :=
  IsGreatest.unique ha hb

theorem hingeSum_objective {C : ℚ} {samples : List (X × Y)} {w : ℕ → ℚ} {a : ℚ} :
    P.IsObjective C samples w a ↔ ∃ r, P.IsHingeSum samples w r ∧ a = (∑ k ∈ range P.dim, w k * w k) / 2 + C * r := by
  constructor
  · rintro ⟨hs, h1, rfl⟩
    exact ⟨_, ⟨hs, h1, rfl⟩, rfl⟩
  · rintro ⟨_, ⟨hs, h1, rfl⟩, rfl⟩
    exact ⟨hs, h1, rfl⟩

theorem forall₂_hinge_unique {w : ℕ → ℚ} {samples : List (X × Y)} {a b : List ℚ}
    (ha : List.Forall₂ (fun s h => P.IsHinge w s.1 s.2 h) samples a)
    (hb : List.Forall₂ (fun s h => P.IsHinge w s.1 s.2 h) samples b) : a = b := by
  induction ha generalizing b with
  | nil => cases hb; rfl
  | cons h _ ih =>
    cases hb with
    | cons h' t => rw [isHinge_unique h h', ih t]

theorem isHingeSum_unique {w : ℕ → ℚ} {samples : List (X × Y)} {a b : ℚ} (ha : P.IsHingeSum samples w a)
    (hb : P.IsHingeSum samples w b) : a = b := by
  obtain ⟨_, h1, rfl⟩ := ha
  obtain ⟨_, h2, rfl⟩ := hb
  rw [forall₂_hinge_unique h1 h2]

theorem isHingeSum_perm {w : ℕ → ℚ} {S T : List (X × Y)} (h : S.Perm T) {a : ℚ} (ha : P.IsHingeSum S w a) :
    P.IsHingeSum T w a := by
  obtain ⟨hs, h1, rfl⟩ := ha
  induction h generalizing hs with
  | nil => exact ⟨hs, h1, rfl⟩
  | cons s _ ih =>
    cases h1 with
    | cons h t =>
      obtain ⟨hs', h2, h3⟩ := ih _ t
      exact ⟨_, .cons h h2, by simp [h3]⟩
  | swap s t l =>
    cases h1 with
    | cons h h1 =>
      cases h1 with
      | cons h' h1 => exact ⟨_, .cons h' (.cons h h1), by simp only [List.sum_cons]; ring⟩
  | trans _ _ ih1 ih2 =>
    obtain ⟨hs', h2, h3⟩ := ih1 _ h1
    rw [h3]
    exact ih2 _ h2

theorem isHingeSum_append {w : ℕ → ℚ} {S T : List (X × Y)} {a : ℚ} (ha : P.IsHingeSum (S ++ T) w a) :
    ∃ s t, P.IsHingeSum S w s ∧ P.IsHingeSum T w t ∧ a = s + t := by
  obtain ⟨hs, h1, rfl⟩ := ha
  have h2 := List.forall₂_take S.length h1
  have h3 := List.forall₂_drop S.length h1
  rw [List.take_left] at h2
  rw [List.drop_left] at h3
  exact ⟨_, _, ⟨_, h2, rfl⟩, ⟨_, h3, rfl⟩, (List.sum_take_add_sum_drop hs S.length).symm⟩

/-- The hinge loss of a sample is Lipschitz in the weights. -/
theorem hinge_lipschitz {R : ℚ} {s : X × Y}
    (hR : ∀ y ∈ P.outputs s.1, ∀ z ∈ P.outputs s.1,
      ∑ k ∈ range P.dim, (P.feat s.1 y s.2 k - P.feat s.1 z s.2 k) ^ 2 ≤ R) (hy : s.2 ∈ P.outputs s.1) {w v : ℕ → ℚ}
    {a b : ℚ} (ha : P.IsHinge w s.1 s.2 a) (hb : P.IsHinge v s.1 s.2 b) :
    (a - b) ^ 2 ≤ R * ∑ k ∈ range P.dim, (w k - v k) ^ 2 := by
  have key : ∀ (w v : ℕ → ℚ) (a b : ℚ), P.IsHinge w s.1 s.2 a → P.IsHinge v s.1 s.2 b → b ≤ a →
      (a - b) ^ 2 ≤ R * ∑ k ∈ range P.dim, (w k - v k) ^ 2 := by
    intro w v a b ha hb hle
    obtain ⟨ŷ, hyh, rfl⟩ := ha.1
    have h1 := hb.2 ⟨ŷ, hyh, rfl⟩
    have h2 : P.violation w s.1 s.2 ŷ - P.violation v s.1 s.2 ŷ =
        dot P.dim (fun k => w k - v k) fun k => P.feat s.1 ŷ s.2 k - P.feat s.1 s.2 s.2 k := by
      unfold Spec.Problem.violation Spec.Problem.value dot
      rw [show ∀ p q r t u : ℚ, p + q - r - (p + t - u) = q - r - (t - u) from fun p q r t u => by ring,
        ← sum_sub_distrib, ← sum_sub_distrib, ← sum_sub_distrib]
      exact sum_congr rfl fun k _ => by ring
    have h3 : dot P.dim (fun k => w k - v k) (fun k => P.feat s.1 ŷ s.2 k - P.feat s.1 s.2 s.2 k) ^ 2 ≤
        (∑ k ∈ range P.dim, (w k - v k) ^ 2) * ∑ k ∈ range P.dim, (P.feat s.1 ŷ s.2 k - P.feat s.1 s.2 s.2 k) ^ 2 :=
      sum_mul_sq_le_sq_mul_sq _ _ _
    rw [← h2] at h3
    have h4 : (P.violation w s.1 s.2 ŷ - b) ^ 2 ≤ (P.violation w s.1 s.2 ŷ - P.violation v s.1 s.2 ŷ) ^ 2 :=
      pow_le_pow_left₀ (by linarith) (by linarith) 2
    have h5 := mul_le_mul_of_nonneg_right (hR ŷ hyh s.2 hy)
      (show 0 ≤ ∑ k ∈ range P.dim, (w k - v k) ^ 2 from sum_nonneg fun k _ => sq_nonneg _)
    linarith [mul_comm (∑ k ∈ range P.dim, (w k - v k) ^ 2)
      (∑ k ∈ range P.dim, (P.feat s.1 ŷ s.2 k - P.feat s.1 s.2 s.2 k) ^ 2)]
  rcases le_total b a with h | h
  · exact key w v a b ha hb h
  · have := key v w b a hb ha h
    rw [show (a - b) ^ 2 = (b - a) ^ 2 by ring]
    refine this.trans_eq ?_
    congr 1
    exact sum_congr rfl fun k _ => by ring

/-- Sums of numbers with bounded squares. -/
theorem sum_sq_bound {Q : ℚ} (l : List ℚ) (h : ∀ a ∈ l, a ^ 2 ≤ Q) : l.sum ^ 2 ≤ (l.length : ℚ) ^ 2 * Q := by
  induction l with
  | nil => simp
  | cons a l ih =>
    have h1 := h a List.mem_cons_self
    have h2 := ih fun b hb => h b (List.mem_cons_of_mem _ hb)
    have hQ : 0 ≤ Q := (sq_nonneg a).trans h1
    have h3 : a * l.sum ≤ l.length * Q := by
      refine abs_le_of_sq_le_sq' ?_ (mul_nonneg (Nat.cast_nonneg _) hQ) |>.2
      have := mul_le_mul h1 h2 (sq_nonneg _) hQ
      nlinarith
    simp only [List.sum_cons, List.length_cons, Nat.cast_add, Nat.cast_one]
    nlinarith

theorem isHingeSum_lipschitz {R : ℚ} {samples : List (X × Y)} (hR : P.FeatureRange samples R)
    (hl : P.Labelled samples) {w v : ℕ → ℚ} {a b : ℚ} (ha : P.IsHingeSum samples w a) (hb : P.IsHingeSum samples v b) :
    ∃ l : List ℚ, l.length = samples.length ∧ a - b = l.sum ∧
      ∀ d ∈ l, d ^ 2 ≤ R * ∑ k ∈ range P.dim, (w k - v k) ^ 2 := by
  obtain ⟨hs, h1, rfl⟩ := ha
  obtain ⟨hs', h2, rfl⟩ := hb
  induction h1 generalizing hs' with
  | nil =>
    cases h2
    exact ⟨[], rfl, by simp, by simp⟩
  | @cons s c _ _ h _ ih =>
    cases h2 with
    | @cons _ c' _ _ h' t' =>
      obtain ⟨l, e1, e2, e3⟩ := ih (fun s hs => hR s (List.mem_cons_of_mem _ hs))
        (fun s hs => hl s (List.mem_cons_of_mem _ hs)) _ t'
      refine ⟨(c - c') :: l, by simp [e1], ?_, ?_⟩
      · simp only [List.sum_cons]
        linarith
      · intro d hd
        rcases List.mem_cons.mp hd with rfl | hd
        · exact hinge_lipschitz (hR s List.mem_cons_self) (hl s List.mem_cons_self).1 h h'
        · exact e3 d hd

/-- Nearly optimal weights of two training problems. -/
theorem near_shift {C C' : ℚ} (hC : 0 ≤ C) (hC' : 0 ≤ C') {S S' : List (X × Y)}
    (hex : ∀ s ∈ S, ∀ w, ∃ v, P.IsHinge w s.1 s.2 v) (hex' : ∀ s ∈ S', ∀ w, ∃ v, P.IsHinge w s.1 s.2 v)
    {ε δ : ℚ} {w v : ℕ → ℚ} (hw : P.NearOptimal C S ε w) (hv : P.NearOptimal C' S' δ v) {rw rv qw qv : ℚ}
    (h1 : P.IsHingeSum S w rw) (h2 : P.IsHingeSum S v rv) (h3 : P.IsHingeSum S' w qw) (h4 : P.IsHingeSum S' v qv) :
    ∑ k ∈ range P.dim, (w k - v k) ^ 2 ≤ 2 * (C * (rv - rw) + C' * (qw - qv)) + 4 * (ε + δ) := by
  obtain ⟨a, ha, hao⟩ := hw
  obtain ⟨b, hb, hbo⟩ := hv
  obtain ⟨c, hc⟩ := objective_exists hex C fun k => (w k + v k) / 2
  obtain ⟨d, hd⟩ := objective_exists hex' C' fun k => (w k + v k) / 2
  have e1 := hao _ _ hc
  have e2 := hbo _ _ hd
  have e3 := objective_mid hC ha (hingeSum_objective.mpr ⟨rv, h2, rfl⟩) hc
  have e4 := objective_mid hC' (hingeSum_objective.mpr ⟨qw, h3, rfl⟩) hb hd
  obtain ⟨r, hr, rfl⟩ := hingeSum_objective.mp ha
  obtain ⟨q, hq, rfl⟩ := hingeSum_objective.mp hb
  rw [isHingeSum_unique hr h1] at e1 e3
  rw [isHingeSum_unique hq h4] at e2 e4
  linarith

/-- `D ≤ 2 c X + e` and `X ^ 2 ≤ N ^ 2 R D` bound `D`. -/
theorem solve_shift {D c X e N R : ℚ} (hR : 0 ≤ R) (hD : 0 ≤ D) (h : D ≤ 2 * (c * X) + e)
    (hX : X ^ 2 ≤ N ^ 2 * (R * D)) : D ≤ 4 * (c ^ 2 * N ^ 2 * R) + 2 * e := by
  have h1 : 2 * (c * X) ≤ 2 * (c ^ 2 * N ^ 2 * R) + D / 2 := by
    refine abs_le_of_sq_le_sq' ?_ ?_ |>.2
    · have h2 : (2 * (c * X)) ^ 2 ≤ 4 * c ^ 2 * (N ^ 2 * (R * D)) := by
        have := mul_le_mul_of_nonneg_left hX (show 0 ≤ 4 * c ^ 2 by positivity)
        linarith [this, show (2 * (c * X)) ^ 2 = 4 * c ^ 2 * X ^ 2 by ring]
      nlinarith [sq_nonneg (2 * (c ^ 2 * N ^ 2 * R) - D / 2)]
    · positivity
  linarith

end Verif.Lemmas
