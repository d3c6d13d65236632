import Verif.Props.C44
import Verif.Props.C86
import Verif.Lemmas.QPInstances

/-!
# How much a new constraint raises the dual value of the n-slack learner
-/

namespace Verif.Props

open Finset Verif.Spec Verif.Learner Verif.NSlack
open Verif.OneSlack (Phase weightsOf)

variable {X Y : Type}

/-- `ξ` is zero or the violation of a constraint held for a sample. -/
def Sel (dim : ℕ) (l : List (NCon Y)) (w : W) (ξ : ℚ) : Prop :=
  ξ = 0 ∨ ∃ c ∈ l, ξ = c.loss - dot dim w c.dj

theorem Sel.mono {dim : ℕ} {l l' : List (NCon Y)} {w : W} {ξ : ℚ} (h : Sel dim l w ξ) (hl : ∀ c ∈ l, c ∈ l') :
    Sel dim l' w ξ := by
  rcases h with h | ⟨c, hc, h⟩
  · exact .inl h
  · exact .inr ⟨c, hl c hc, h⟩

/-- the weights and the value solve the problem given by the working sets: the value is at least the objective of the
weights, whatever constraints are picked, and for any other weights some constraints can be picked such that their
objective exceeds the value by half the squared distance of the weights. -/
def NOpt (dim : ℕ) (C : ℚ) (n : ℕ) (ws : WS Y) (w : W) (v : ℚ) : Prop :=
  (∀ ξ : ℕ → ℚ, (∀ i < n, Sel dim (ws i) w (ξ i)) → dot dim w w / 2 + C * ∑ i ∈ range n, ξ i ≤ v) ∧
  ∀ w' : W, ∃ ξ : ℕ → ℚ, (∀ i < n, Sel dim (ws i) w' (ξ i)) ∧
    v + dot dim (fun k => w' k - w k) (fun k => w' k - w k) / 2 ≤ dot dim w' w' / 2 + C * ∑ i ∈ range n, ξ i

/-- the largest violation. -/
theorem exists_sel_max (dim : ℕ) (l : List (NCon Y)) (w : W) :
    ∃ ξ, Sel dim l w ξ ∧ 0 ≤ ξ ∧ ∀ c ∈ l, c.loss - dot dim w c.dj ≤ ξ := by
  induction l with
  | nil => exact ⟨0, .inl rfl, le_rfl, by simp⟩
  | cons c l ih =>
    obtain ⟨ξ, h1, h2, h3⟩ := ih
    by_cases h : c.loss - dot dim w c.dj ≤ ξ
    · refine ⟨ξ, h1.mono (by simp +contextual), h2, ?_⟩
      intro d hd
      rcases List.mem_cons.mp hd with rfl | hd
      · exact h
      · exact h3 d hd
    · have h := not_le.mp h
      refine ⟨_, .inr ⟨c, by simp, rfl⟩, by linarith, ?_⟩
      intro d hd
      rcases List.mem_cons.mp hd with rfl | hd
      · exact le_rfl
      · exact (h3 d hd).trans h.le

theorem bsum_le {f : NCon Y → ℚ} {l : List (NCon Y)} {ξ : ℚ} (hle : ∀ c ∈ l, f c ≤ ξ) {a : List ℚ} (hpos : ∀ x ∈ a, 0 ≤ x)
    (hlen : a.length = l.length) : bsum f l a ≤ ξ * a.sum := by
  rw [← bsum_const _ _ _ hlen]
  unfold bsum
  clear hlen
  induction l generalizing a with
  | nil => simp
  | cons c l ih =>
    cases a with
    | nil => simp
    | cons y a =>
      rw [List.zipWith_cons_cons, List.sum_cons, List.zipWith_cons_cons, List.sum_cons]
      have b1 := ih (fun c hc => hle c (by simp [hc])) (a := a) (fun a ha => hpos a (by simp [ha]))
      have b2 := mul_le_mul_of_nonneg_right (hle c (by simp)) (hpos y (by simp))
      linarith

/-- an optimal solution of the QP gives weights and value. -/
theorem nopt_of_optimal {dim : ℕ} {C : ℚ} (hC : 0 ≤ C) {n : ℕ} {ws : WS Y} {x : List ℚ}
    (hf : (NSlack.qpOf dim none C n ws 0).Feasible x)
    (hopt : ∀ x', (NSlack.qpOf dim none C n ws 0).Feasible x' →
      (NSlack.qpOf dim none C n ws 0).value x ≤ (NSlack.qpOf dim none C n ws 0).value x') :
    NOpt dim C n ws (weightsOf (flat n ws) x) (-(NSlack.qpOf dim none C n ws 0).value x) := by
  constructor
  · intro ξ hξ
    have := optimal_slacks dim C hC n ws 0 le_rfl x hf hopt ξ hξ
    simpa using this
  · intro w'
    obtain ⟨h1, h2, h3, -⟩ := (NSlack.feasible_qpOf _ _ _ _ _ _ _).mp hf
    have hsel : ∀ i, ∃ ξ, Sel dim (ws i) w' ξ ∧ 0 ≤ ξ ∧ ∀ c ∈ ws i, c.loss - dot dim w' c.dj ≤ ξ :=
      fun i => exists_sel_max dim (ws i) w'
    choose ξ hξ using hsel
    refine ⟨ξ, fun i _ => (hξ i).1, ?_⟩
    rw [NSlack.value_qpOf _ _ _ _ _ _ _ h1]
    set w := weightsOf (flat n ws) x with hw
    rw [dot_sub_left, dot_sub_right, dot_sub_right, dot_comm dim w w']
    have hfl := flat_length ws n
    have e1 : dot dim w' w = ∑ j ∈ range n, bsum (fun c => dot dim w' c.dj) (ws j) (slice ws x j) := by
      rw [← flat_sum ws n x h1 fun c => dot dim w' c.1, dot_comm, hw, OneSlack.dot_weightsOf dim (flat n ws) x (by omega) w']
      exact sum_congr rfl fun i _ => by rw [dot_comm]
    have e2 : ∑ j ∈ range n, bsum (fun c => c.loss - dot dim w' c.dj) (ws j) (slice ws x j) =
        ∑ j ∈ range n, bsum NCon.loss (ws j) (slice ws x j) - dot dim w' w := by
      have a1 := flat_sum ws n x h1 fun c => c.2 - dot dim w' c.1
      have a2 := flat_sum ws n x h1 fun c => c.2
      have a3 := flat_sum ws n x h1 fun c => dot dim w' c.1
      simp only at a1 a2 a3
      rw [e1, ← a1, ← a3]
      change _ = ∑ j ∈ range n, bsum (fun c => c.loss) (ws j) (slice ws x j) - _
      rw [← a2, ← sum_sub_distrib]
      exact sum_congr rfl fun i _ => by ring
    have e3 : ∑ j ∈ range n, bsum (fun c => c.loss - dot dim w' c.dj) (ws j) (slice ws x j) ≤ C * ∑ j ∈ range n, ξ j := by
      rw [mul_sum]
      refine sum_le_sum fun j hj => ?_
      have hj' := mem_range.mp hj
      refine (bsum_le (hξ j).2.2 ?_ (slice_length ws h1 hj')).trans ?_
      · intro a ha
        have hax : a ∈ x := List.mem_of_mem_drop (List.mem_of_mem_take ha)
        obtain ⟨q, hq, rfl⟩ := List.getElem_of_mem hax
        have := h2 q hq
        rwa [List.getD_eq_getElem _ _ hq] at this
      · rw [mul_comm C]
        exact mul_le_mul_of_nonneg_left (h3 j hj') (hξ j).2.1
    rw [e2] at e3
    simp only [zero_mul, add_zero]
    linarith

/-- More constraints: the value grows at least by half the squared change of the weights. -/
theorem nopt_mono {dim : ℕ} {C : ℚ} {n : ℕ} {ws ws' : WS Y} {w w' : W} {v v' : ℚ} (h : NOpt dim C n ws w v)
    (h' : NOpt dim C n ws' w' v') (hsub : ∀ i, ∀ c ∈ ws i, c ∈ ws' i) :
    v + dot dim (fun k => w' k - w k) (fun k => w' k - w k) / 2 ≤ v' := by
  obtain ⟨ξ, h1, h2⟩ := h.2 w'
  exact h2.trans (h'.1 ξ fun i hi => (h1 i hi).mono (hsub i))

/-- The gain of a constraint that is violated by `δ` more than what is held for the sample. -/
theorem nopt_gain {dim : ℕ} {C : ℚ} (hC : 0 ≤ C) {n : ℕ} {ws ws' : WS Y} {w w' : W} {v v' : ℚ} (h : NOpt dim C n ws w v)
    (h' : NOpt dim C n ws' w' v') (hsub : ∀ i, ∀ c ∈ ws i, c ∈ ws' i) {i : ℕ} (hi : i < n) {c : NCon Y} (hc : c ∈ ws' i)
    {δ R μ : ℚ} (hδ : 0 < δ) (hgap : ∀ ξ, Sel dim (ws i) w ξ → ξ + δ ≤ c.loss - dot dim w c.dj)
    (hR : ∀ d ∈ ws i, dot dim (fun k => c.dj k - d.dj k) (fun k => c.dj k - d.dj k) ≤ R) (hR0 : dot dim c.dj c.dj ≤ R)
    (hμ : 0 ≤ μ) (hμ1 : 2 * μ ≤ C * δ) (hμ2 : 2 * R * μ ≤ δ ^ 2) : v + μ ≤ v' := by
  obtain ⟨ξ, h1, h2⟩ := h.2 w'
  set q := dot dim (fun k => w' k - w k) (fun k => w' k - w k) with hq
  have hq0 : 0 ≤ q := dot_self_nonneg _ _
  -- the new constraint, compared with the one picked for the sample
  obtain ⟨t, ht1, ht2⟩ : ∃ t : ℚ, t ^ 2 ≤ R * q ∧ ξ i + δ - t ≤ c.loss - dot dim w' c.dj := by
    rcases h1 i hi with h0 | ⟨d, hd, h0⟩
    · refine ⟨dot dim (fun k => w' k - w k) c.dj, ?_, ?_⟩
      · refine (cauchy_dot dim _ _).trans ?_
        rw [mul_comm]
        have e1 : ∑ k ∈ range dim, c.dj k ^ 2 = dot dim c.dj c.dj := by
          unfold dot; exact sum_congr rfl fun k _ => by ring
        have e2 : ∑ k ∈ range dim, (w' k - w k) ^ 2 = q := by
          rw [hq]; unfold dot; exact sum_congr rfl fun k _ => by ring
        rw [e1, e2]
        exact mul_le_mul_of_nonneg_right hR0 hq0
      · have := hgap 0 (.inl rfl)
        rw [dot_sub_left, h0]
        linarith
    · refine ⟨dot dim (fun k => w' k - w k) (fun k => c.dj k - d.dj k), ?_, ?_⟩
      · refine (cauchy_dot dim _ _).trans ?_
        rw [mul_comm]
        have e1 : ∑ k ∈ range dim, (c.dj k - d.dj k) ^ 2 =
            dot dim (fun k => c.dj k - d.dj k) (fun k => c.dj k - d.dj k) := by
          unfold dot; exact sum_congr rfl fun k _ => by ring
        have e2 : ∑ k ∈ range dim, (w' k - w k) ^ 2 = q := by
          rw [hq]; unfold dot; exact sum_congr rfl fun k _ => by ring
        rw [e1, e2]
        exact mul_le_mul_of_nonneg_right (hR d hd) hq0
      · have := hgap _ (.inr ⟨d, hd, rfl⟩)
        rw [dot_sub_left, dot_sub_right, dot_sub_right, h0]
        linarith
  have hgain : ∀ r : ℚ, r ≤ 0 ∨ ξ i + r ≤ c.loss - dot dim w' c.dj → v + q / 2 + C * r ≤ v' := by
    intro r hr
    rcases hr with hr | hr
    · have a1 := h'.1 ξ fun j hj => (h1 j hj).mono (hsub j)
      have a2 : C * r ≤ 0 := mul_nonpos_of_nonneg_of_nonpos hC hr
      linarith
    · have a1 := h'.1 (Function.update ξ i (c.loss - dot dim w' c.dj)) (by
        intro j hj
        by_cases hji : j = i
        · subst hji
          rw [Function.update_self]
          exact .inr ⟨c, hc, rfl⟩
        · rw [Function.update_of_ne hji]
          exact (h1 j hj).mono (hsub j))
      rw [sum_update_of_mem (mem_range.mpr hi)] at a1
      have a2 : ∑ j ∈ range n, ξ j = ξ i + ∑ j ∈ range n \ {i}, ξ j := by
        rw [← sum_sdiff (s₁ := {i}) (s₂ := range n) (by simpa using hi), sum_singleton]
        ring
      rw [a2] at h2
      have a3 := mul_le_mul_of_nonneg_left hr hC
      linarith
  by_cases hcase : δ ≤ t
  · have a1 := hgain 0 (.inl le_rfl)
    have a2 : δ ^ 2 ≤ R * q := le_trans (by nlinarith) ht1
    have hRpos : 0 < R := by
      by_contra hR'
      have := mul_nonpos_of_nonpos_of_nonneg (not_lt.mp hR') hq0
      nlinarith [sq_pos_of_pos hδ]
    have a3 : 2 * R * μ ≤ R * q := hμ2.trans a2
    have a4 : 2 * μ ≤ q := by
      by_contra hc'
      have := mul_lt_mul_of_pos_left (not_le.mp hc') hRpos
      linarith
    linarith
  · have hlt := not_le.mp hcase
    have a1 := hgain (δ - t) (.inr (by linarith))
    by_cases ht0 : t ≤ 0
    · have : C * δ ≤ C * (δ - t) := mul_le_mul_of_nonneg_left (by linarith) hC
      linarith
    · have ht0 := not_le.mp ht0
      -- `t = s δ`
      have b1 : 2 * μ * (δ - t) ≤ C * (δ - t) * δ := by
        have := mul_le_mul_of_nonneg_right hμ1 (by linarith : 0 ≤ δ - t)
        linarith
      have b2 : 2 * μ * t ^ 2 ≤ q * δ ^ 2 := by
        have c1 := mul_le_mul_of_nonneg_left ht1 (by linarith : 0 ≤ 2 * μ)
        have c2 := mul_le_mul_of_nonneg_right hμ2 hq0
        nlinarith
      have b3 : μ * δ ^ 2 ≤ (q / 2 + C * (δ - t)) * δ ^ 2 := by
        have c1 := mul_le_mul_of_nonneg_right b1 hδ.le
        have c2 : 0 ≤ μ * (δ - t) ^ 2 := mul_nonneg hμ (sq_nonneg _)
        nlinarith
      have b4 := le_of_mul_le_mul_right b3 (by positivity)
      linarith

end Verif.Props
