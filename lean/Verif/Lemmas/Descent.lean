import Mathlib.Algebra.BigOperators.Ring.Finset
import Mathlib.Algebra.BigOperators.Field
import Mathlib.Algebra.Order.BigOperators.Ring.Finset
import Mathlib.Algebra.Order.Ring.Rat
import Mathlib.Algebra.Order.Field.Rat
import Mathlib.Tactic.Linarith
import Mathlib.Tactic.FieldSimp
import Mathlib.Tactic.Positivity
import Mathlib.Tactic.Ring

/-!
# Incremental subgradient descent on strongly convex functions

Vectors are index functions of which the first `N` entries count.
-/

namespace Verif.Descent

open Finset

/-- inner product. -/
def vdot (N : ℕ) (a b : ℕ → ℚ) : ℚ := ∑ k ∈ range N, a k * b k

variable {N : ℕ}

theorem vdot_comm (a b : ℕ → ℚ) : vdot N a b = vdot N b a := by
  unfold vdot; exact sum_congr rfl fun k _ => mul_comm _ _

theorem vdot_nonneg (a : ℕ → ℚ) : 0 ≤ vdot N a a := by
  unfold vdot; exact sum_nonneg fun k _ => mul_self_nonneg _

theorem vdot_lin (a b c : ℕ → ℚ) (x y : ℚ) :
    vdot N a (fun k => x * b k + y * c k) = x * vdot N a b + y * vdot N a c := by
  unfold vdot
  rw [mul_sum, mul_sum, ← sum_add_distrib]
  exact sum_congr rfl fun k _ => by ring

theorem vdot_congr {a a' b b' : ℕ → ℚ} (h : ∀ k < N, a k = a' k) (h' : ∀ k < N, b k = b' k) :
    vdot N a b = vdot N a' b' := by
  unfold vdot
  exact sum_congr rfl fun k hk => by rw [h k (mem_range.mp hk), h' k (mem_range.mp hk)]

/-- squared length of a combination. -/
theorem vdot_sq (a b : ℕ → ℚ) (x y : ℚ) :
    vdot N (fun k => x * a k + y * b k) (fun k => x * a k + y * b k) =
      x ^ 2 * vdot N a a + 2 * x * y * vdot N a b + y ^ 2 * vdot N b b := by
  rw [vdot_lin, vdot_comm _ a, vdot_comm _ b, vdot_lin, vdot_lin, vdot_comm b a]
  ring

theorem vdot_young (a b : ℕ → ℚ) (r : ℚ) (hr : 0 < r) :
    2 * vdot N a b ≤ r * vdot N a a + vdot N b b / r := by
  have h := vdot_nonneg (N := N) (fun k => r * a k + -1 * b k)
  rw [vdot_sq] at h
  have h2 : 0 ≤ (r ^ 2 * vdot N a a + 2 * r * -1 * vdot N a b + (-1) ^ 2 * vdot N b b) / r :=
    div_nonneg h hr.le
  have h3 : (r ^ 2 * vdot N a a + 2 * r * -1 * vdot N a b + (-1) ^ 2 * vdot N b b) / r =
      r * vdot N a a - 2 * vdot N a b + vdot N b b / r := by
    field_simp
    ring
  linarith [h3 ▸ h2]

theorem vdot_sq_le (a b : ℕ → ℚ) : vdot N a b ^ 2 ≤ vdot N a a * vdot N b b := by
  unfold vdot
  have := sum_mul_sq_le_sq_mul_sq (range N) a b
  simpa only [pow_two] using this

/-- difference of vectors. -/
def diff (a b : ℕ → ℚ) : ℕ → ℚ := fun k => a k - b k

theorem diff_eq (a b : ℕ → ℚ) : diff a b = fun k => 1 * a k + -1 * b k := by
  funext k; unfold diff; ring

/-- `φ` is convex with slopes of squared length at most `M`: at every point some affine function of such a
slope supports it. -/
def HasSlope (N : ℕ) (M : ℚ) (φ : (ℕ → ℚ) → ℚ) : Prop :=
  ∀ w, ∃ e, vdot N e e ≤ M ∧ ∀ w', φ w + vdot N e (diff w' w) ≤ φ w'

/-- `φ` plus half the squared length. -/
def reg (N : ℕ) (φ : (ℕ → ℚ) → ℚ) (w : ℕ → ℚ) : ℚ := vdot N w w / 2 + φ w

/-- `g` is a subgradient of `f` at `w`. -/
def Sub (N : ℕ) (f : (ℕ → ℚ) → ℚ) (w g : ℕ → ℚ) : Prop := ∀ w', f w + vdot N g (diff w' w) ≤ f w'

theorem HasSlope.smul {M : ℚ} {φ : (ℕ → ℚ) → ℚ} (h : HasSlope N M φ) (c : ℚ) (hc : 0 ≤ c) :
    HasSlope N (c ^ 2 * M) (fun w => c * φ w) := by
  intro w
  obtain ⟨e, h1, h2⟩ := h w
  refine ⟨fun k => c * e k + 0 * e k, ?_, ?_⟩
  · rw [vdot_sq]
    nlinarith [mul_le_mul_of_nonneg_left h1 (sq_nonneg c)]
  · intro w'
    rw [vdot_comm, vdot_lin, vdot_comm]
    nlinarith [mul_le_mul_of_nonneg_left (h2 w') hc]

/-- sums of functions with slopes of squared length `M`. -/
theorem HasSlope.list_sum {α : Type} {M : ℚ} (φ : α → (ℕ → ℚ) → ℚ) (l : List α)
    (h : ∀ a ∈ l, HasSlope N M (φ a)) :
    HasSlope N ((l.length : ℚ) ^ 2 * M) (fun w => (l.map fun a => φ a w).sum) := by
  induction l with
  | nil =>
    intro w
    refine ⟨fun _ => 0, ?_, ?_⟩ <;> simp [vdot]
  | cons a l ih =>
    intro w
    obtain ⟨e, h1, h2⟩ := h a (by simp) w
    obtain ⟨e', h1', h2'⟩ := ih (fun a ha => h a (by simp [ha])) w
    refine ⟨fun k => 1 * e k + 1 * e' k, ?_, ?_⟩
    · rw [vdot_sq]
      by_cases hl : (l.length : ℚ) = 0
      · rw [hl] at h1'
        have h3 := vdot_sq_le (N := N) e e'
        have h4 : vdot N e' e' = 0 := le_antisymm (by simpa using h1') (vdot_nonneg _)
        rw [h4] at h3 ⊢
        have h5 : vdot N e e' = 0 := by nlinarith [sq_nonneg (vdot N e e')]
        rw [h5, List.length_cons]
        push_cast
        rw [hl]
        linarith
      · have hpos : (0 : ℚ) < l.length := lt_of_le_of_ne (by positivity) (Ne.symm hl)
        have h3 := vdot_young (N := N) e e' l.length hpos
        have h4 : vdot N e' e' / l.length ≤ l.length * M := by
          rw [div_le_iff₀ hpos]
          calc _ ≤ _ := h1'
            _ = _ := by ring
        have h5 : (l.length : ℚ) * vdot N e e ≤ l.length * M := mul_le_mul_of_nonneg_left h1 hpos.le
        rw [List.length_cons]
        push_cast
        nlinarith
    · intro w'
      rw [vdot_comm, vdot_lin, vdot_comm _ e, vdot_comm _ e']
      simp only [List.map_cons, List.sum_cons]
      linarith [h2 w', h2' w']

/-- supporting functions of `φ` give subgradients of the regularised function. -/
theorem sub_of_slope {φ : (ℕ → ℚ) → ℚ} (w e : ℕ → ℚ) (h : ∀ w', φ w + vdot N e (diff w' w) ≤ φ w') :
    Sub N (reg N φ) w (fun k => 1 * w k + 1 * e k) := by
  intro w'
  have h1 := h w'
  have h2 := vdot_nonneg (N := N) (diff w' w)
  unfold reg
  rw [vdot_comm (fun k => 1 * w k + 1 * e k), vdot_lin, vdot_comm _ e]
  have h3 : vdot N (diff w' w) (diff w' w) = vdot N w' w' - 2 * vdot N w' w + vdot N w w := by
    rw [diff_eq, vdot_sq]; ring
  have h4 : vdot N (diff w' w) w = vdot N w' w - vdot N w w := by
    rw [vdot_comm, diff_eq, vdot_lin, vdot_comm w w']; ring
  linarith

/-- A number that is at most `x / (1 - s)` for all small `s`, is at most `x`. -/
theorem le_of_shrink {x y : ℚ} (h : ∀ s, 0 < s → s < 1 → (1 - s) * y ≤ x) : y ≤ x := by
  by_contra hc
  push Not at hc
  rcases le_or_gt y 0 with hy | hy
  · have := h (1 / 2) (by norm_num) (by norm_num)
    linarith
  · rcases le_or_gt x 0 with hx | hx
    · have := h (1 / 2) (by norm_num) (by norm_num)
      linarith
    · have h1 : 0 < (y - x) / (2 * y) := by apply div_pos <;> linarith
      have h2 : (y - x) / (2 * y) < 1 := by rw [div_lt_one (by linarith)]; linarith
      have h3 := h _ h1 h2
      have h4 : (1 - (y - x) / (2 * y)) * y = (y + x) / 2 := by field_simp; ring
      linarith

/-- Subgradients of the regularised function satisfy the inequality of strong convexity. -/
theorem sub_strong {M : ℚ} {φ : (ℕ → ℚ) → ℚ} (hφ : HasSlope N M φ) (w g : ℕ → ℚ)
    (hg : Sub N (reg N φ) w g) (w' : ℕ → ℚ) :
    reg N φ w + vdot N g (diff w' w) + vdot N (diff w' w) (diff w' w) / 2 ≤ reg N φ w' := by
  have key : vdot N (diff w' w) (diff w' w) / 2 ≤ reg N φ w' - reg N φ w - vdot N g (diff w' w) := by
    refine le_of_shrink fun s hs hs1 => ?_
    let v : ℕ → ℚ := fun k => (1 - s) * w k + s * w' k
    obtain ⟨e, -, he⟩ := hφ v
    have h1 := he w
    have h2 := he w'
    have h3 := hg v
    have e1 : vdot N e (diff w v) = -s * vdot N e (diff w' w) := by
      have : diff w v = fun k => -s * diff w' w k + 0 * w k := by funext k; simp only [diff, v]; ring
      rw [this, vdot_lin]; ring
    have e2 : vdot N e (diff w' v) = (1 - s) * vdot N e (diff w' w) := by
      have : diff w' v = fun k => (1 - s) * diff w' w k + 0 * w k := by
        funext k; simp only [diff, v]; ring
      rw [this, vdot_lin]; ring
    have e3 : vdot N g (diff v w) = s * vdot N g (diff w' w) := by
      have : diff v w = fun k => s * diff w' w k + 0 * w k := by funext k; simp only [diff, v]; ring
      rw [this, vdot_lin]; ring
    have e4 : vdot N v v = (1 - s) ^ 2 * vdot N w w + 2 * (1 - s) * s * vdot N w w' + s ^ 2 * vdot N w' w' :=
      vdot_sq _ _ _ _
    have e5 : vdot N (diff w' w) (diff w' w) = vdot N w' w' - 2 * vdot N w w' + vdot N w w := by
      rw [diff_eq, vdot_sq, vdot_comm w' w]; ring
    rw [e1] at h1
    rw [e2] at h2
    rw [e3] at h3
    have h4 : φ v ≤ (1 - s) * φ w + s * φ w' := by nlinarith
    unfold reg at h3 ⊢
    rw [e4] at h3
    rw [e5]
    have h5 : s * ((1 - s) * ((vdot N w' w' - 2 * vdot N w w' + vdot N w w) / 2)) ≤
        s * (vdot N w' w' / 2 + φ w' - (vdot N w w / 2 + φ w) - vdot N g (diff w' w)) := by
      nlinarith
    exact le_of_mul_le_mul_left h5 hs
  linarith

/-- Subgradients of the regularised function differ from the point by a vector of bounded length. -/
theorem sub_bound {M : ℚ} {φ : (ℕ → ℚ) → ℚ} (hφ : HasSlope N M φ) (w g : ℕ → ℚ)
    (hg : Sub N (reg N φ) w g) : vdot N (diff g w) (diff g w) ≤ M := by
  refine le_of_shrink fun s hs hs1 => ?_
  let v : ℕ → ℚ := fun k => 1 * w k + s * diff g w k
  obtain ⟨e, he1, he⟩ := hφ v
  have h1 := he w
  have h3 := hg v
  have e1 : vdot N e (diff w v) = -s * vdot N e (diff g w) := by
    have : diff w v = fun k => -s * diff g w k + 0 * w k := by funext k; simp only [diff, v]; ring
    rw [this, vdot_lin]; ring
  have e3 : vdot N g (diff v w) = s * vdot N g (diff g w) := by
    have : diff v w = fun k => s * diff g w k + 0 * w k := by funext k; simp only [diff, v]; ring
    rw [this, vdot_lin]; ring
  have e4 : vdot N v v = 1 ^ 2 * vdot N w w + 2 * 1 * s * vdot N w (diff g w) +
      s ^ 2 * vdot N (diff g w) (diff g w) := vdot_sq _ _ _ _
  have e5 : vdot N (diff g w) (diff g w) = vdot N g (diff g w) - vdot N w (diff g w) := by
    conv_lhs => rw [vdot_comm]
    have : vdot N (diff g w) (diff g w) = vdot N (diff g w) (fun k => 1 * g k + -1 * w k) := by
      rw [← diff_eq]
    rw [this, vdot_lin, vdot_comm _ g, vdot_comm _ w]; ring
  rw [e1] at h1
  rw [e3] at h3
  unfold reg at h3
  rw [e4] at h3
  have h6 := vdot_young (N := N) e (diff g w) 1 one_pos
  have h7 : s * (vdot N (diff g w) (diff g w)) ≤
      s * (s * vdot N (diff g w) (diff g w) / 2 + vdot N e (diff g w)) := by
    rw [e5]
    rw [e5] at h3
    nlinarith
  have h8 := le_of_mul_le_mul_left h7 hs
  nlinarith

/-! ### one pass -/

/-- squared distance. -/
def dist2 (N : ℕ) (a b : ℕ → ℚ) : ℚ := vdot N (diff a b) (diff a b)

theorem dist2_nonneg (a b : ℕ → ℚ) : 0 ≤ dist2 N a b := vdot_nonneg _

theorem dist2_sum (a b c : ℕ → ℚ) : dist2 N a c ≤ 2 * dist2 N a b + 2 * dist2 N b c := by
  unfold dist2
  have h := vdot_nonneg (N := N) (fun k => 1 * diff a b k + -1 * diff b c k)
  rw [vdot_sq] at h
  have h2 : diff a c = fun k => 1 * diff a b k + 1 * diff b c k := by funext k; simp only [diff]; ring
  rw [h2, vdot_sq]
  linarith

/-- The step from `w` along `-g` with step length `1 / τ`. -/
theorem step_dist (w w' g u : ℕ → ℚ) (τ : ℚ) (hτ : 0 < τ) (hw : ∀ k < N, w' k = w k - 1 / τ * g k) :
    τ * dist2 N w' u = τ * dist2 N w u + 2 * vdot N g (diff u w) + vdot N g g / τ := by
  have h1 : dist2 N w' u = vdot N (fun k => 1 * diff w u k + -(1 / τ) * g k)
      (fun k => 1 * diff w u k + -(1 / τ) * g k) := by
    unfold dist2
    apply vdot_congr <;> intro k hk <;> simp only [diff] <;> rw [hw k hk] <;> ring
  have h2 : vdot N g (diff u w) = -vdot N (diff w u) g := by
    have : diff u w = fun k => -1 * diff w u k + 0 * g k := by funext k; simp only [diff]; ring
    rw [this, vdot_lin, vdot_comm g]; ring
  rw [h1, vdot_sq, h2]
  unfold dist2
  field_simp

/-- How far the first `i` steps of a pass move. -/
theorem drift (w g : ℕ → ℕ → ℚ) (τ G : ℚ) (hτ : 0 < τ) (m : ℕ)
    (hw : ∀ i < m, ∀ k < N, w (i + 1) k = w i k - 1 / (τ + i) * g i k)
    (hg : ∀ i < m, vdot N (g i) (g i) ≤ G) (i : ℕ) (hi : i ≤ m) :
    τ ^ 2 * dist2 N (w i) (w 0) ≤ (i : ℚ) ^ 2 * G := by
  induction i with
  | zero =>
    have : dist2 N (w 0) (w 0) = 0 := by unfold dist2 vdot diff; simp
    rw [this]; simp
  | succ i ih =>
    have ih := ih (by omega)
    have hi' : i < m := by omega
    have hpos : 0 < τ + i := by positivity
    have h1 : dist2 N (w (i + 1)) (w 0) = vdot N (fun k => 1 * diff (w i) (w 0) k + -(1 / (τ + i)) * g i k)
        (fun k => 1 * diff (w i) (w 0) k + -(1 / (τ + i)) * g i k) := by
      unfold dist2
      apply vdot_congr <;> intro k hk <;> simp only [diff] <;> rw [hw i hi' k hk] <;> ring
    rw [h1, vdot_sq]
    change τ ^ 2 * (1 ^ 2 * dist2 N (w i) (w 0) + _ + _) ≤ _
    have hG := hg i hi'
    have hgn := vdot_nonneg (N := N) (g i)
    have hle : τ ^ 2 * ((1 / (τ + i)) ^ 2 * vdot N (g i) (g i)) ≤ G := by
      have : τ ^ 2 * (1 / (τ + i)) ^ 2 ≤ 1 := by
        rw [one_div, inv_pow, ← div_eq_mul_inv, div_le_one (by positivity)]
        have : (0 : ℚ) ≤ i := by positivity
        nlinarith
      calc _ = (τ ^ 2 * (1 / (τ + i)) ^ 2) * vdot N (g i) (g i) := by ring
        _ ≤ 1 * vdot N (g i) (g i) := mul_le_mul_of_nonneg_right this hgn
        _ ≤ G := by linarith
    rcases Nat.eq_zero_or_pos i with rfl | hip
    · have h0 : dist2 N (w 0) (w 0) = 0 := by unfold dist2 vdot diff; simp
      have h0' : vdot N (diff (w 0) (w 0)) (g 0) = 0 := by unfold vdot diff; simp
      rw [h0, h0']
      push_cast at hle ⊢
      linarith
    · have hiq : (0 : ℚ) < i := by exact_mod_cast hip
      have hy := vdot_young (N := N) (diff (w i) (w 0)) (fun k => -(1 / (τ + i)) * g i k + 0 * g i k)
        (1 / i) (by positivity)
      rw [vdot_lin, vdot_sq] at hy
      have hy' : τ ^ 2 * (2 * 1 * -(1 / (τ + i)) * vdot N (diff (w i) (w 0)) (g i)) ≤
          1 / i * (τ ^ 2 * dist2 N (w i) (w 0)) +
            i * (τ ^ 2 * ((1 / (τ + i)) ^ 2 * vdot N (g i) (g i))) := by
        have := mul_le_mul_of_nonneg_left hy (sq_nonneg τ)
        rw [div_div_eq_mul_div, div_one] at this
        unfold dist2
        linarith
      have h4 : 1 / (i : ℚ) * (τ ^ 2 * dist2 N (w i) (w 0)) ≤ i * G := by
        rw [one_div, inv_mul_le_iff₀ hiq]
        linarith
      have h5 := mul_le_mul_of_nonneg_left hle hiq.le
      push_cast
      nlinarith

/-- **One pass** of incremental subgradient descent over the functions `reg (φ i)`, `i < m`, with step
lengths `1 / (τ + i)`. `u` is a point at which the mean of the functions is smaller than at the start of the
pass by at least half the squared distance. -/
theorem pass_dist (φ : ℕ → (ℕ → ℚ) → ℚ) (M : ℚ) (m : ℕ) (hφ : ∀ i < m, HasSlope N M (φ i))
    (w g : ℕ → ℕ → ℚ) (τ : ℚ) (hτ : 1 ≤ τ)
    (hsub : ∀ i < m, Sub N (reg N (φ i)) (w i) (g i))
    (hw : ∀ i < m, ∀ k < N, w (i + 1) k = w i k - 1 / (τ + i) * g i k)
    (h0 : vdot N (w 0) (w 0) ≤ M) (u : ℕ → ℚ)
    (hu : (∑ i ∈ range m, reg N (φ i) u) + m * (dist2 N (w 0) u / 2) ≤ ∑ i ∈ range m, reg N (φ i) (w 0)) :
    vdot N (w m) (w m) ≤ M ∧
    (∀ i ≤ m, τ ^ 2 * dist2 N (w i) (w 0) ≤ (i : ℚ) ^ 2 * (4 * M)) ∧
    (τ + m - 1) * dist2 N (w m) u ≤
      (τ - 1 - m) * dist2 N (w 0) u + (2 * m ^ 2 + m) * (4 * M) / τ := by
  have hτ0 : 0 < τ := by linarith
  -- iterates stay bounded
  have hwb : ∀ i ≤ m, vdot N (w i) (w i) ≤ M := by
    intro i
    induction i with
    | zero => intro _; exact h0
    | succ i ih =>
      intro hi
      have ih := ih (by omega)
      have hi' : i < m := by omega
      have hb := sub_bound (hφ i hi') (w i) (g i) (hsub i hi')
      have hpos : 0 < τ + i := by positivity
      set η := 1 / (τ + i) with hη
      have hη0 : 0 ≤ η := by positivity
      have hη1 : η ≤ 1 := by
        rw [hη, div_le_one hpos]
        have : (0 : ℚ) ≤ i := by positivity
        linarith
      have e : vdot N (w (i + 1)) (w (i + 1)) = vdot N (fun k => (1 - η) * w i k + -η * diff (g i) (w i) k)
          (fun k => (1 - η) * w i k + -η * diff (g i) (w i) k) := by
        apply vdot_congr <;> intro k hk <;> simp only [diff] <;> rw [hw i hi' k hk] <;> ring
      rw [e, vdot_sq]
      have hn := vdot_nonneg (N := N) (fun k => 1 * w i k + 1 * diff (g i) (w i) k)
      rw [vdot_sq] at hn
      have p1 : 0 ≤ η * (1 - η) := mul_nonneg hη0 (by linarith)
      have p2 := mul_nonneg p1 hn
      have p3 := mul_le_mul_of_nonneg_left ih (by linarith : 0 ≤ 1 - η)
      have p4 := mul_le_mul_of_nonneg_left hb hη0
      nlinarith
  have hG : ∀ i < m, vdot N (g i) (g i) ≤ 4 * M := by
    intro i hi
    have hb := sub_bound (hφ i hi) (w i) (g i) (hsub i hi)
    have e : g i = fun k => 1 * diff (g i) (w i) k + 1 * w i k := by funext k; simp only [diff]; ring
    have hn := vdot_nonneg (N := N) (fun k => 1 * diff (g i) (w i) k + -1 * w i k)
    rw [vdot_sq] at hn
    rw [e, vdot_sq]
    have := hwb i hi.le
    linarith
  have hdrift := fun i hi => drift w g τ (4 * M) hτ0 m hw hG i hi
  refine ⟨hwb m le_rfl, hdrift, ?_⟩
  have hM : 0 ≤ M := le_trans (vdot_nonneg _) h0
  -- single steps
  have hstep : ∀ i < m, (τ + i) * dist2 N (w (i + 1)) u ≤
      (τ + i - 1) * dist2 N (w i) u + 2 * (reg N (φ i) u - reg N (φ i) (w 0)) +
        2 * m * (4 * M) / τ + (4 * M) / τ := by
    intro i hi
    have hpos : 0 < τ + i := by positivity
    rw [step_dist (w i) (w (i + 1)) (g i) u (τ + i) hpos (hw i hi)]
    have hs := sub_strong (hφ i hi) (w i) (g i) (hsub i hi) u
    have hsym : vdot N (diff u (w i)) (diff u (w i)) = dist2 N (w i) u := by
      unfold dist2 vdot diff; exact sum_congr rfl fun k _ => by ring
    rw [hsym] at hs
    have hgd : vdot N (g i) (g i) / (τ + i) ≤ 4 * M / τ := by
      apply div_le_div₀ (by linarith) (hG i hi) hτ0
      have : (0 : ℚ) ≤ i := by positivity
      linarith
    -- the function at the current point and at the start of the pass
    have hlip : reg N (φ i) (w 0) - reg N (φ i) (w i) ≤ m * (4 * M) / τ := by
      obtain ⟨e, he1, he2⟩ := hφ i hi (w 0)
      have h1 := sub_of_slope (w 0) e he2 (w i)
      set e' : ℕ → ℚ := fun k => 1 * w 0 k + 1 * e k with he'
      have h2 : vdot N e' e' ≤ 4 * M := by
        rw [he', vdot_sq]
        have hn := vdot_nonneg (N := N) (fun k => 1 * w 0 k + -1 * e k)
        rw [vdot_sq] at hn
        linarith
      have hmq : (0 : ℚ) < m := by exact_mod_cast (by omega : 0 < m)
      have hy := vdot_young (N := N) e' (fun k => -1 * diff (w i) (w 0) k + 0 * w 0 k) (m / τ) (by positivity)
      rw [vdot_lin, vdot_sq (diff (w i) (w 0)) (w 0) (-1) 0] at hy
      have hd := hdrift i hi.le
      unfold dist2 at hd
      have him : (i : ℚ) ^ 2 ≤ m ^ 2 := by
        have : (i : ℚ) ≤ m := by exact_mod_cast hi.le
        have : (0 : ℚ) ≤ i := by positivity
        nlinarith
      have hd2 : τ ^ 2 * vdot N (diff (w i) (w 0)) (diff (w i) (w 0)) ≤ m ^ 2 * (4 * M) :=
        le_trans hd (mul_le_mul_of_nonneg_right him (by linarith))
      have hd3 : vdot N (diff (w i) (w 0)) (diff (w i) (w 0)) / (m / τ) ≤ m * (4 * M) / τ := by
        rw [div_div_eq_mul_div, div_le_div_iff₀ hmq hτ0]
        calc _ = τ ^ 2 * vdot N (diff (w i) (w 0)) (diff (w i) (w 0)) := by ring
          _ ≤ _ := hd2
          _ = _ := by ring
      have h3 : m / τ * vdot N e' e' ≤ m * (4 * M) / τ := by
        rw [div_mul_eq_mul_div, div_le_div_iff_of_pos_right hτ0]
        exact mul_le_mul_of_nonneg_left h2 hmq.le
      have h4 : ((-1) ^ 2 * vdot N (diff (w i) (w 0)) (diff (w i) (w 0)) +
          2 * -1 * 0 * vdot N (diff (w i) (w 0)) (w 0) + 0 ^ 2 * vdot N (w 0) (w 0)) / (m / τ) =
          vdot N (diff (w i) (w 0)) (diff (w i) (w 0)) / (m / τ) := by ring
      rw [h4] at hy
      linarith
    have : 2 * m * (4 * M) / τ = 2 * (m * (4 * M) / τ) := by ring
    rw [this]
    linarith
  -- sum up
  have hsum : ∀ j ≤ m, (τ + j - 1) * dist2 N (w j) u ≤ (τ - 1) * dist2 N (w 0) u +
      2 * (∑ i ∈ range j, reg N (φ i) u - ∑ i ∈ range j, reg N (φ i) (w 0)) +
        j * (2 * m * (4 * M) / τ + (4 * M) / τ) := by
    intro j
    induction j with
    | zero => intro _; simp
    | succ j ih =>
      intro hj
      have ih := ih (by omega)
      have hs := hstep j (by omega)
      rw [sum_range_succ, sum_range_succ]
      push_cast
      have e : (τ + (j + 1) - 1) * dist2 N (w (j + 1)) u = (τ + j) * dist2 N (w (j + 1)) u := by ring
      rw [e]
      linarith
  have := hsum m le_rfl
  have e : (2 * (m : ℚ) ^ 2 + m) * (4 * M) / τ = m * (2 * m * (4 * M) / τ + (4 * M) / τ) := by ring
  rw [e]
  linarith

/-! ### many passes -/

theorem dist2_le (a b : ℕ → ℚ) : dist2 N a b ≤ 2 * vdot N a a + 2 * vdot N b b := by
  unfold dist2
  have h := vdot_nonneg (N := N) (fun k => 1 * a k + 1 * b k)
  rw [vdot_sq] at h
  rw [diff_eq, vdot_sq]
  linarith

/-- The minimum of a regularised function is strongly convex. -/
theorem min_strong {M : ℚ} {ψ : (ℕ → ℚ) → ℚ} (hψ : HasSlope N M ψ) (u : ℕ → ℚ)
    (hu : ∀ x, reg N ψ u ≤ reg N ψ x) (w : ℕ → ℚ) : reg N ψ u + dist2 N w u / 2 ≤ reg N ψ w := by
  have h0 : ∀ a : ℕ → ℚ, vdot N (fun _ => 0) a = 0 := by intro a; simp [vdot]
  have := sub_strong hψ u (fun _ => 0) (fun w' => by rw [h0]; linarith [hu w']) w
  rw [h0] at this
  unfold dist2
  linarith

/-- **Many passes.** Incremental subgradient descent with step lengths `1 / (τ + t)` in passes of `m` steps,
such that in every pass the mean of the functions is `reg ψ`, approaches the minimum `u` of `reg ψ`. -/
theorem run_dist (φ : ℕ → (ℕ → ℚ) → ℚ) (ψ : (ℕ → ℚ) → ℚ) (M M' : ℚ) (m P : ℕ) (hm : 0 < m)
    (hφ : ∀ t < P * m, HasSlope N M (φ t)) (hψ : HasSlope N M' ψ)
    (hmean : ∀ p < P, ∀ x, ∑ i ∈ range m, reg N (φ (p * m + i)) x = m * reg N ψ x)
    (w g : ℕ → ℕ → ℚ) (τ : ℚ) (hτ : 1 ≤ τ)
    (hsub : ∀ t < P * m, Sub N (reg N (φ t)) (w t) (g t))
    (hw : ∀ t < P * m, ∀ k < N, w (t + 1) k = w t k - 1 / (τ + t) * g t k)
    (h0 : vdot N (w 0) (w 0) ≤ M) (u : ℕ → ℚ) (hu : ∀ x, reg N ψ u ≤ reg N ψ x) (p : ℕ) (hp : p ≤ P) :
    vdot N (w (p * m)) (w (p * m)) ≤ M ∧
    (τ + p * m - 1) * dist2 N (w (p * m)) u ≤
      max (4 * (2 * m ^ 2 + m) * M) ((τ - 1) * dist2 N (w 0) u) ∧
    ∀ i ≤ m, p < P → (τ + p * m) ^ 2 * dist2 N (w (p * m + i)) (w (p * m)) ≤ (m : ℚ) ^ 2 * (4 * M) := by
  have hM : 0 ≤ M := le_trans (vdot_nonneg _) h0
  set B := max (4 * (2 * (m : ℚ) ^ 2 + m) * M) ((τ - 1) * dist2 N (w 0) u) with hB
  have hm1 : (1 : ℚ) ≤ m := by exact_mod_cast hm
  have pass : ∀ p < P, vdot N (w (p * m)) (w (p * m)) ≤ M →
      vdot N (w (p * m + m)) (w (p * m + m)) ≤ M ∧
      (∀ i ≤ m, (τ + p * m) ^ 2 * dist2 N (w (p * m + i)) (w (p * m)) ≤ (i : ℚ) ^ 2 * (4 * M)) ∧
      (τ + p * m + m - 1) * dist2 N (w (p * m + m)) u ≤
        (τ + p * m - 1 - m) * dist2 N (w (p * m)) u + (2 * m ^ 2 + m) * (4 * M) / (τ + p * m) := by
    intro p hp h
    have hlt : ∀ i < m, p * m + i < P * m := by
      intro i hi
      calc p * m + i < p * m + m := by omega
        _ = (p + 1) * m := by ring
        _ ≤ P * m := Nat.mul_le_mul_right _ (by omega)
    refine pass_dist (fun i => φ (p * m + i)) M m (fun i hi => hφ _ (hlt i hi))
      (fun i => w (p * m + i)) (fun i => g (p * m + i)) (τ + p * m) ?_
      (fun i hi => hsub _ (hlt i hi)) ?_ h u ?_
    · have : (0 : ℚ) ≤ p * m := by positivity
      linarith
    · intro i hi k hk
      have := hw (p * m + i) (hlt i hi) k hk
      push_cast at this
      rw [add_assoc τ]
      exact this
    · rw [hmean p hp, hmean p hp]
      have := mul_le_mul_of_nonneg_left (min_strong hψ u hu (w (p * m))) (by linarith : (0 : ℚ) ≤ m)
      simp only [Nat.add_zero]
      linarith
  have main : ∀ p ≤ P, vdot N (w (p * m)) (w (p * m)) ≤ M ∧
      (τ + p * m - 1) * dist2 N (w (p * m)) u ≤ B := by
    intro p
    induction p with
    | zero =>
      intro _
      rw [Nat.zero_mul]
      refine ⟨h0, ?_⟩
      push_cast
      rw [zero_mul, add_zero]
      exact le_max_right _ _
    | succ p ih =>
      intro hp
      obtain ⟨i1, i2⟩ := ih (by omega)
      obtain ⟨j1, -, j3⟩ := pass p (by omega) i1
      have e : (p + 1) * m = p * m + m := by ring
      rw [e]
      refine ⟨j1, ?_⟩
      push_cast
      set s : ℚ := τ + p * m - 1 with hs
      have hs0 : 0 ≤ s := by
        have : (0 : ℚ) ≤ p * m := by positivity
        rw [hs]; linarith
      have e1 : τ + (p + 1) * m - 1 = τ + p * m + m - 1 := by ring
      rw [e1]
      refine le_trans j3 ?_
      set d := dist2 N (w (p * m)) u with hd
      have hd0 : 0 ≤ d := dist2_nonneg _ _
      have hτs : τ + p * m = s + 1 := by rw [hs]; ring
      rw [hτs]
      set K := (2 * (m : ℚ) ^ 2 + m) * (4 * M) with hK
      have hK0 : 0 ≤ K := by rw [hK]; positivity
      have hBK : K ≤ B := by
        rw [hB, hK]; refine le_trans (le_of_eq ?_) (le_max_left _ _); ring
      have hKs : K / (s + 1) ≤ K := div_le_self hK0 (by linarith)
      rcases le_or_gt s m with hsm | hsm
      · have : (s - m) * d ≤ 0 := mul_nonpos_of_nonpos_of_nonneg (by linarith) hd0
        linarith
      · have hspos : 0 < s := by linarith
        have h1 : K / (s + 1) ≤ K / s := by
          apply div_le_div_of_nonneg_left hK0 hspos; linarith
        have h2 : (s - m) * (s * d) ≤ (s - m) * B := mul_le_mul_of_nonneg_left i2 (by linarith)
        have h3 : (s - m) * d ≤ (s - m) * B / s := by
          rw [le_div_iff₀ hspos]; linarith
        have h4 : (s - m) * B / s = B - m * B / s := by field_simp
        have h5 : K / s ≤ m * B / s := by
          apply div_le_div_of_nonneg_right _ hspos.le
          nlinarith
        linarith
  refine ⟨(main p hp).1, (main p hp).2, fun i hi hpP => ?_⟩
  have := (pass p hpP (main p hp).1).2.1 i hi
  refine le_trans this (mul_le_mul_of_nonneg_right ?_ (by linarith))
  have : (i : ℚ) ≤ m := by exact_mod_cast hi
  have : (0 : ℚ) ≤ i := by positivity
  nlinarith

/-- The constant in the bound for all steps. -/
def rate (m : ℕ) (M τ d₀ u₂ : ℚ) : ℚ :=
  8 * (m + 1) * m ^ 2 * M + 2 * (max (4 * (2 * m ^ 2 + m) * M) ((τ - 1) * d₀) + (m + 1) * (2 * M + 2 * u₂))

/-- The distance to the minimum after any number of steps. -/
theorem run_dist_step (φ : ℕ → (ℕ → ℚ) → ℚ) (ψ : (ℕ → ℚ) → ℚ) (M M' : ℚ) (m P : ℕ) (hm : 0 < m)
    (hφ : ∀ t < P * m, HasSlope N M (φ t)) (hψ : HasSlope N M' ψ)
    (hmean : ∀ p < P, ∀ x, ∑ i ∈ range m, reg N (φ (p * m + i)) x = m * reg N ψ x)
    (w g : ℕ → ℕ → ℚ) (τ : ℚ) (hτ : 1 ≤ τ)
    (hsub : ∀ t < P * m, Sub N (reg N (φ t)) (w t) (g t))
    (hw : ∀ t < P * m, ∀ k < N, w (t + 1) k = w t k - 1 / (τ + t) * g t k)
    (h0 : vdot N (w 0) (w 0) ≤ M) (u : ℕ → ℚ) (hu : ∀ x, reg N ψ u ≤ reg N ψ x) (t : ℕ) (ht : t ≤ P * m) :
    (τ + t) * dist2 N (w t) u ≤ rate m M τ (dist2 N (w 0) u) (vdot N u u) := by
  have hM : 0 ≤ M := le_trans (vdot_nonneg _) h0
  have hm1 : (1 : ℚ) ≤ m := by exact_mod_cast hm
  obtain ⟨p, i, hi, hpP, rfl, hp⟩ : ∃ p i, i ≤ m ∧ (i = 0 ∨ p < P) ∧ t = p * m + i ∧ p ≤ P := by
    refine ⟨t / m, t % m, (Nat.mod_lt _ hm).le, ?_, ?_, ?_⟩
    · rcases Nat.eq_zero_or_pos (t % m) with h | h
      · exact Or.inl h
      · right
        rw [Nat.div_lt_iff_lt_mul hm]
        refine lt_of_le_of_ne ht fun h' => ?_
        rw [h'] at h
        simp at h
    · rw [Nat.mul_comm]; exact (Nat.div_add_mod t m).symm
    · exact Nat.div_le_of_le_mul (by rw [Nat.mul_comm]; exact ht)
  obtain ⟨h1, h2, h3⟩ := run_dist φ ψ M M' m P hm hφ hψ hmean w g τ hτ hsub hw h0 u hu p hp
  set σ : ℚ := τ + p * m with hσ
  have hσ1 : 1 ≤ σ := by
    have : (0 : ℚ) ≤ p * m := by positivity
    rw [hσ]; linarith
  set d1 := dist2 N (w (p * m + i)) (w (p * m)) with hd1
  set d2 := dist2 N (w (p * m)) u with hd2
  have hd10 : 0 ≤ d1 := dist2_nonneg _ _
  have hd20 : 0 ≤ d2 := dist2_nonneg _ _
  have htri : dist2 N (w (p * m + i)) u ≤ 2 * d1 + 2 * d2 := dist2_sum _ _ _
  have hd1le : σ ^ 2 * d1 ≤ (m : ℚ) ^ 2 * (4 * M) := by
    rcases hpP with rfl | hpP
    · have : d1 = 0 := by rw [hd1]; unfold dist2 vdot diff; simp
      rw [this, mul_zero]; positivity
    · exact h3 i hi hpP
  have hd2le : d2 ≤ 2 * M + 2 * vdot N u u := le_trans (dist2_le _ _) (by linarith)
  have hle : τ + ((p * m + i : ℕ) : ℚ) ≤ σ + m := by
    push_cast
    rw [hσ]
    have : (i : ℚ) ≤ m := by exact_mod_cast hi
    linarith
  have hd0 : 0 ≤ dist2 N (w (p * m + i)) u := dist2_nonneg _ _
  have a1 : (σ + m) * d1 ≤ (m + 1) * (m ^ 2 * (4 * M)) := by
    have b1 : σ + m ≤ (m + 1) * σ ^ 2 := by
      have c1 : σ ≤ σ ^ 2 := by nlinarith
      have c2 : (m : ℚ) * 1 ≤ m * σ ^ 2 := mul_le_mul_of_nonneg_left (by linarith) (by linarith)
      linarith
    calc (σ + m) * d1 ≤ (m + 1) * σ ^ 2 * d1 := mul_le_mul_of_nonneg_right b1 hd10
      _ = (m + 1) * (σ ^ 2 * d1) := by ring
      _ ≤ _ := mul_le_mul_of_nonneg_left hd1le (by linarith)
  have a2 : (m + 1) * d2 ≤ (m + 1) * (2 * M + 2 * vdot N u u) := mul_le_mul_of_nonneg_left hd2le (by linarith)
  unfold rate
  calc (τ + ((p * m + i : ℕ) : ℚ)) * dist2 N (w (p * m + i)) u
      ≤ (σ + m) * dist2 N (w (p * m + i)) u := mul_le_mul_of_nonneg_right hle hd0
    _ ≤ (σ + m) * (2 * d1 + 2 * d2) := mul_le_mul_of_nonneg_left htri (by linarith)
    _ = 2 * ((σ + m) * d1) + 2 * ((σ - 1) * d2 + (m + 1) * d2) := by ring
    _ ≤ _ := by linarith

/-! ### weighted means -/

/-- The distance of a weighted mean to `u` is at most the weighted mean of the distances. -/
theorem mean_dist (c : ℕ → ℚ) (hc : ∀ j, 0 ≤ c j) (x : ℕ → ℕ → ℚ) (u : ℕ → ℚ) (T : ℕ)
    (hS : 0 < ∑ j ∈ range T, c j) (y : ℕ → ℚ)
    (hy : ∀ k < N, y k = (∑ j ∈ range T, c j * x j k) / ∑ j ∈ range T, c j) :
    (∑ j ∈ range T, c j) * dist2 N y u ≤ ∑ j ∈ range T, c j * dist2 N (x j) u := by
  set S := ∑ j ∈ range T, c j with hSdef
  have hcoord : ∀ k < N, S * (y k - u k) = ∑ j ∈ range T, c j * (x j k - u k) := by
    intro k hk
    have : ∑ j ∈ range T, c j * (x j k - u k) = ∑ j ∈ range T, c j * x j k - S * u k := by
      rw [hSdef, sum_mul, ← sum_sub_distrib]
      exact sum_congr rfl fun j _ => by ring
    rw [this, hy k hk]
    field_simp
  have hk : ∀ k < N, S * ((y k - u k) * (y k - u k)) ≤
      ∑ j ∈ range T, c j * ((x j k - u k) * (x j k - u k)) := by
    intro k hk
    set z := y k - u k with hz
    have h1 : 0 ≤ ∑ j ∈ range T, c j * ((x j k - u k - z) * (x j k - u k - z)) :=
      sum_nonneg fun j _ => mul_nonneg (hc j) (mul_self_nonneg _)
    have h2 : ∑ j ∈ range T, c j * ((x j k - u k - z) * (x j k - u k - z)) =
        ∑ j ∈ range T, c j * ((x j k - u k) * (x j k - u k)) -
          2 * z * ∑ j ∈ range T, c j * (x j k - u k) + z * z * S := by
      rw [hSdef, mul_sum, mul_sum, ← sum_sub_distrib, ← sum_add_distrib]
      exact sum_congr rfl fun j _ => by ring
    rw [h2, ← hcoord k hk] at h1
    linarith
  unfold dist2 vdot
  simp only [diff]
  simp only [mul_sum]
  rw [sum_comm]
  refine sum_le_sum fun k hk' => ?_
  exact hk k (mem_range.mp hk')

end Verif.Descent
