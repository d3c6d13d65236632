import Verif.Model.OneSlack
import Mathlib.Tactic.Linarith
import Mathlib.Tactic.Ring
import Mathlib.Tactic.FieldSimp
import Mathlib.Tactic.Positivity
import Mathlib.Algebra.BigOperators.Field
import Mathlib.Data.List.Forall2

/-!
# The quadratic program of the one-slack learner in terms of sums
-/

namespace Verif.QP

open Finset

theorem rowDot_eq (r x : List ℚ) (h : r.length = x.length) :
    rowDot r x = ∑ i ∈ range x.length, r.getD i 0 * x.getD i 0 := by
  unfold rowDot
  induction r generalizing x with
  | nil =>
    have : x = [] := List.length_eq_zero_iff.mp h.symm
    subst this
    simp
  | cons a r ih =>
    cases x with
    | nil => simp at h
    | cons b x =>
      rw [List.zipWith_cons_cons, List.sum_cons, ih x (by simpa using h), List.length_cons,
        sum_range_succ']
      simp [add_comm]

/-- a quadratic that stays above its value at 0 on `[0, 1]` has nonnegative slope there. -/
theorem slope_nonneg {a b : ℚ} (h : ∀ t : ℚ, 0 ≤ t → t ≤ 1 → 0 ≤ t * a + t ^ 2 * b) : 0 ≤ a := by
  by_contra hc
  have ha : a < 0 := not_le.mp hc
  by_cases hb : b ≤ -a / 2
  · have := h 1 (by norm_num) le_rfl
    linarith
  · have hb' : -a / 2 < b := not_le.mp hb
    have hbp : 0 < b := by linarith
    have ht1 : -a / (2 * b) ≤ 1 := by
      rw [div_le_one (by linarith)]; linarith
    have ht0 : 0 ≤ -a / (2 * b) := by apply div_nonneg <;> linarith
    have := h _ ht0 ht1
    have e : -a / (2 * b) * a + (-a / (2 * b)) ^ 2 * b = -(a ^ 2) / (4 * b) := by
      field_simp
      ring
    rw [e] at this
    have hneg : -(a ^ 2) / (4 * b) < 0 := by
      apply div_neg_of_neg_of_pos
      · have : 0 < a ^ 2 := by nlinarith
        linarith
      · linarith
    linarith

end Verif.QP

namespace Verif.OneSlack

open Finset Verif.Learner

/-- constraint number `i`. -/
def con (cs : List Con) (i : ℕ) : Con := cs.getD i (fun _ => 0, 0)

theorem weightsOf_eq (cs : List Con) (x : List ℚ) (h : x.length = cs.length) (k : ℕ) :
    weightsOf cs x k = ∑ i ∈ range cs.length, x.getD i 0 * (con cs i).1 k := by
  unfold weightsOf con
  induction cs generalizing x with
  | nil =>
    have : x = [] := List.length_eq_zero_iff.mp h
    subst this
    simp
  | cons c cs ih =>
    cases x with
    | nil => simp at h
    | cons b x =>
      rw [List.zipWith_cons_cons, List.sum_cons, ih x (by simpa using h), List.length_cons,
        sum_range_succ']
      simp [add_comm]

theorem dot_weightsOf (dim : ℕ) (cs : List Con) (x : List ℚ) (h : x.length = cs.length) (v : W) :
    dot dim (weightsOf cs x) v = ∑ i ∈ range cs.length, x.getD i 0 * dot dim (con cs i).1 v := by
  unfold dot
  simp only [weightsOf_eq cs x h, Finset.sum_mul, Finset.mul_sum]
  rw [Finset.sum_comm]
  exact sum_congr rfl fun i _ => sum_congr rfl fun k _ => by ring

theorem getD_mapIdx {α : Type} (l : List α) (f : ℕ → α → ℚ) (d : α) (i : ℕ) (h : i < l.length) :
    (l.mapIdx f).getD i 0 = f i (l.getD i d) := by
  simp [List.getD_eq_getElem?_getD, h]

/-- value of the QP. -/
theorem value_qpOf (dim : ℕ) (neg : Option (List ℕ)) (cn : ℚ) (cs : List Con) (eps : ℚ) (x : List ℚ)
    (h : x.length = cs.length) :
    (qpOf dim neg cn cs eps).value x =
      (dot dim (weightsOf cs x) (weightsOf cs x) + eps * ∑ i ∈ range cs.length, x.getD i 0 ^ 2) / 2 -
        ∑ i ∈ range cs.length, x.getD i 0 * (con cs i).2 := by
  unfold QP.Problem.value qpOf
  simp only
  rw [QP.rowDot_eq _ _ (by simp [h]), QP.rowDot_eq _ _ (by simp [h]), h]
  have hq : ∑ i ∈ range cs.length, (cs.map fun c => -c.2).getD i 0 * x.getD i 0 =
      -∑ i ∈ range cs.length, x.getD i 0 * (con cs i).2 := by
    rw [← sum_neg_distrib]
    refine sum_congr rfl fun i hi => ?_
    have hi' := mem_range.mp hi
    unfold con
    simp [List.getD_eq_getElem?_getD, hi', mul_comm]
  have hP : ∑ i ∈ range cs.length, ((cs.mapIdx fun i c => cs.mapIdx fun j d =>
        dot dim c.1 d.1 + if i = j then eps else 0).map fun r => QP.rowDot r x).getD i 0 * x.getD i 0 =
      dot dim (weightsOf cs x) (weightsOf cs x) + eps * ∑ i ∈ range cs.length, x.getD i 0 ^ 2 := by
    rw [dot_weightsOf dim cs x h, mul_sum, ← sum_add_distrib]
    refine sum_congr rfl fun i hi => ?_
    have hi' := mem_range.mp hi
    have e : ((cs.mapIdx fun i c => cs.mapIdx fun j d =>
        dot dim c.1 d.1 + if i = j then eps else 0).map fun r => QP.rowDot r x).getD i 0 =
        QP.rowDot (cs.mapIdx fun j d => dot dim (con cs i).1 d.1 + if i = j then eps else 0) x := by
      unfold con
      simp [List.getD_eq_getElem?_getD, hi']
    rw [e, QP.rowDot_eq _ _ (by simp [h]), h, dot_comm dim (con cs i).1, dot_weightsOf dim cs x h]
    have : ∀ j ∈ range cs.length, (cs.mapIdx fun j d => dot dim (con cs i).1 d.1 +
        if i = j then eps else 0).getD j 0 * x.getD j 0 =
        x.getD j 0 * dot dim (con cs j).1 (con cs i).1 + if i = j then eps * x.getD j 0 else 0 := by
      intro j hj
      rw [getD_mapIdx cs _ (fun _ => 0, 0) j (mem_range.mp hj)]
      change (dot dim (con cs i).1 (con cs j).1 + _) * _ = _
      rw [dot_comm dim (con cs i).1]
      split_ifs <;> ring
    rw [sum_congr rfl this, sum_add_distrib, sum_ite_eq, if_pos hi]
    ring
  rw [hP, hq]
  ring

/-- what feasibility means. -/
theorem feasible_qpOf (dim : ℕ) (neg : Option (List ℕ)) (cn : ℚ) (cs : List Con) (eps : ℚ) (x : List ℚ) :
    (qpOf dim neg cn cs eps).Feasible x ↔
      x.length = cs.length ∧ (∀ i < cs.length, 0 ≤ x.getD i 0) ∧
      (∑ i ∈ range cs.length, x.getD i 0 = cn) ∧ ∀ k ∈ neg.getD [], weightsOf cs x k ≤ 0 := by
  unfold QP.Problem.Feasible
  have hlen : (qpOf dim neg cn cs eps).q.length = cs.length := by simp [qpOf]
  rw [hlen]
  refine and_congr_right fun h => ?_
  have hG : List.Forall₂ (fun r h => QP.rowDot r x ≤ h) (qpOf dim neg cn cs eps).G
      (qpOf dim neg cn cs eps).h ↔ (∀ i < cs.length, 0 ≤ x.getD i 0) ∧
        ∀ k ∈ neg.getD [], weightsOf cs x k ≤ 0 := by
    have happ : ∀ (a c : List (List ℚ)) (b d : List ℚ), a.length = b.length →
        (List.Forall₂ (fun r h => QP.rowDot r x ≤ h) (a ++ c) (b ++ d) ↔
          List.Forall₂ (fun r h => QP.rowDot r x ≤ h) a b ∧
          List.Forall₂ (fun r h => QP.rowDot r x ≤ h) c d) := by
      intro a c
      induction a with
      | nil =>
        intro b d hb
        have : b = [] := List.length_eq_zero_iff.mp hb.symm
        subst this
        simp
      | cons r a ih =>
        intro b d hb
        cases b with
        | nil => simp at hb
        | cons h b =>
          simp only [List.cons_append, List.forall₂_cons]
          rw [ih b d (by simpa using hb), and_assoc]
    change List.Forall₂ _ (_ ++ _) (_ ++ _) ↔ _
    rw [happ _ _ _ _ (by simp)]
    refine and_congr ?_ ?_
    · rw [List.forall₂_map_left_iff, List.forall₂_map_right_iff, List.forall₂_same]
      constructor
      · intro hf i hi
        have := hf i (List.mem_range.mpr hi)
        rw [QP.rowDot_eq _ _ (by simp [h]), h] at this
        rw [sum_eq_single i] at this
        · simp [List.getD_eq_getElem?_getD, hi] at this
          simpa [List.getD_eq_getElem?_getD] using this
        · intro j hj hne
          have := mem_range.mp hj
          simp [List.getD_eq_getElem?_getD, this, Ne.symm hne]
        · intro hn; exact absurd (mem_range.mpr hi) hn
      · intro hf i hi
        have hi' := List.mem_range.mp hi
        rw [QP.rowDot_eq _ _ (by simp [h]), h, sum_eq_single i]
        · have := hf i hi'
          simp [List.getD_eq_getElem?_getD, hi']
          simpa [List.getD_eq_getElem?_getD] using this
        · intro j hj hne
          have := mem_range.mp hj
          simp [List.getD_eq_getElem?_getD, this, Ne.symm hne]
        · intro hn; exact absurd (mem_range.mpr hi') hn
    · rw [List.forall₂_map_left_iff, List.forall₂_map_right_iff, List.forall₂_same]
      refine forall₂_congr fun k _ => ?_
      rw [QP.rowDot_eq _ _ (by simp [h]), h, weightsOf_eq cs x h]
      have : ∀ i ∈ range cs.length, (cs.map fun c => c.1 k).getD i 0 * x.getD i 0 =
          x.getD i 0 * (con cs i).1 k := by
        intro i hi
        have := mem_range.mp hi
        unfold con
        simp [List.getD_eq_getElem?_getD, this, mul_comm]
      rw [sum_congr rfl this]
  rw [hG]
  have hA : List.Forall₂ (fun r b => QP.rowDot r x = b) (qpOf dim neg cn cs eps).A
      (qpOf dim neg cn cs eps).b ↔ ∑ i ∈ range cs.length, x.getD i 0 = cn := by
    change List.Forall₂ _ [_] [_] ↔ _
    simp only [List.forall₂_cons, List.Forall₂.nil, and_true]
    rw [QP.rowDot_eq _ _ (by simp [h]), h]
    have : ∀ i ∈ range cs.length, (cs.map fun _ => (1 : ℚ)).getD i 0 * x.getD i 0 = x.getD i 0 := by
      intro i hi
      have := mem_range.mp hi
      simp [List.getD_eq_getElem?_getD, this]
    rw [sum_congr rfl this]
  rw [hA]
  tauto

/-- First-order optimality: at an optimum of the QP without sign constraints, the largest slack times the
total weight is bounded by the dual value. -/
theorem optimal_slack (dim : ℕ) (cn : ℚ) (hcn : 0 ≤ cn) (cs : List Con) (eps : ℚ) (heps : 0 ≤ eps)
    (x : List ℚ) (hf : (qpOf dim none cn cs eps).Feasible x)
    (hopt : ∀ x', (qpOf dim none cn cs eps).Feasible x' →
      (qpOf dim none cn cs eps).value x ≤ (qpOf dim none cn cs eps).value x')
    (i : ℕ) (hi : i < cs.length) :
    dot dim (weightsOf cs x) (weightsOf cs x) / 2 +
      cn * ((con cs i).2 - dot dim (weightsOf cs x) (con cs i).1) ≤
      -(qpOf dim none cn cs eps).value x + eps * cn ^ 2 := by
  obtain ⟨hl, hpos, hsum, -⟩ := (feasible_qpOf _ _ _ _ _ _).mp hf
  set n := cs.length with hn
  set α : ℕ → ℚ := fun j => x.getD j 0 with hα
  set w := weightsOf cs x with hw
  -- move towards the vertex `i`
  let xt : ℚ → List ℚ := fun t => (List.range n).map fun j => (1 - t) * α j + if j = i then t * cn else 0
  have hxl : ∀ t, (xt t).length = cs.length := fun t => by simp [xt, hn]
  have hxget : ∀ t, ∀ j < n, (xt t).getD j 0 = (1 - t) * α j + if j = i then t * cn else 0 := by
    intro t j hj
    simp [xt, List.getD_eq_getElem?_getD, hj]
  have hαi : ∀ j < n, α j ≤ cn := by
    intro j hj
    rw [← hsum]
    exact single_le_sum (f := α) (fun k hk => hpos k (mem_range.mp hk)) (mem_range.mpr hj)
  have hfe : ∀ t, 0 ≤ t → t ≤ 1 → (qpOf dim none cn cs eps).Feasible (xt t) := by
    intro t h0 h1
    rw [feasible_qpOf]
    refine ⟨hxl t, ?_, ?_, by simp⟩
    · intro j hj
      rw [hxget t j hj]
      have := hpos j hj
      have h3 : 0 ≤ (1 - t) * α j := mul_nonneg (by linarith) this
      have h4 : 0 ≤ t * cn := mul_nonneg h0 hcn
      split_ifs <;> linarith
    · rw [sum_congr rfl fun j hj => hxget t j (mem_range.mp hj), sum_add_distrib, ← mul_sum, hsum,
        sum_ite_eq', if_pos (mem_range.mpr hi)]
      ring
  have hwt : ∀ t k, weightsOf cs (xt t) k = w k + t * (cn * (con cs i).1 k - w k) := by
    intro t k
    rw [weightsOf_eq cs _ (hxl t), hw, weightsOf_eq cs x hl]
    have : ∀ j ∈ range cs.length, (xt t).getD j 0 * (con cs j).1 k =
        (1 - t) * (x.getD j 0 * (con cs j).1 k) + if j = i then t * cn * (con cs j).1 k else 0 := by
      intro j hj
      rw [hxget t j (mem_range.mp hj)]
      split_ifs <;> simp only [hα] <;> ring
    rw [sum_congr rfl this, sum_add_distrib, ← mul_sum, sum_ite_eq', if_pos (mem_range.mpr hi)]
    ring
  have hwd : ∀ t, dot dim (weightsOf cs (xt t)) (weightsOf cs (xt t)) =
      dot dim w w + 2 * t * (cn * dot dim w (con cs i).1 - dot dim w w) +
        t ^ 2 * ∑ k ∈ range dim, (cn * (con cs i).1 k - w k) ^ 2 := by
    intro t
    unfold dot
    simp only [hwt t, mul_sum, ← sum_sub_distrib, ← sum_add_distrib]
    exact sum_congr rfl fun k _ => by ring
  have hsq : ∀ t, ∑ j ∈ range n, (xt t).getD j 0 ^ 2 = ∑ j ∈ range n, α j ^ 2 +
      2 * t * (cn * α i - ∑ j ∈ range n, α j ^ 2) +
      t ^ 2 * ∑ j ∈ range n, ((if j = i then cn else 0) - α j) ^ 2 := by
    intro t
    have : cn * α i = ∑ j ∈ range n, (if j = i then cn else 0) * α j := by
      simp only [ite_mul, zero_mul]
      rw [sum_ite_eq', if_pos (mem_range.mpr hi)]
    rw [this]
    simp only [mul_sum, ← sum_sub_distrib, ← sum_add_distrib]
    refine sum_congr rfl fun j hj => ?_
    rw [hxget t j (mem_range.mp hj)]
    split_ifs <;> ring
  have hlo : ∀ t, ∑ j ∈ range n, (xt t).getD j 0 * (con cs j).2 =
      ∑ j ∈ range n, α j * (con cs j).2 +
        t * (cn * (con cs i).2 - ∑ j ∈ range n, α j * (con cs j).2) := by
    intro t
    have : ∀ j ∈ range n, (xt t).getD j 0 * (con cs j).2 =
        (1 - t) * (α j * (con cs j).2) + if j = i then t * cn * (con cs j).2 else 0 := by
      intro j hj
      rw [hxget t j (mem_range.mp hj)]
      split_ifs <;> ring
    rw [sum_congr rfl this, sum_add_distrib, ← mul_sum, sum_ite_eq', if_pos (mem_range.mpr hi)]
    ring
  have hv := value_qpOf dim none cn cs eps x hl
  have hslope := QP.slope_nonneg
    (a := (cn * dot dim w (con cs i).1 - dot dim w w) + eps * (cn * α i - ∑ j ∈ range n, α j ^ 2) -
      (cn * (con cs i).2 - ∑ j ∈ range n, α j * (con cs j).2))
    (b := (∑ k ∈ range dim, (cn * (con cs i).1 k - w k) ^ 2 +
      eps * ∑ j ∈ range n, ((if j = i then cn else 0) - α j) ^ 2) / 2) (by
      intro t h0 h1
      have := hopt _ (hfe t h0 h1)
      rw [hv, value_qpOf dim none cn cs eps _ (hxl t), hwd t, ← hn, hsq t, hlo t] at this
      simp only [hα] at this ⊢
      nlinarith)
  have hαsq : 0 ≤ ∑ j ∈ range n, α j ^ 2 := sum_nonneg fun j _ => sq_nonneg _
  have h5 : eps * (cn * α i) ≤ eps * cn ^ 2 := by
    apply mul_le_mul_of_nonneg_left _ heps
    rw [sq]
    exact mul_le_mul_of_nonneg_left (hαi i hi) hcn
  have h6 : 0 ≤ eps * ∑ j ∈ range n, α j ^ 2 := mul_nonneg heps hαsq
  rw [hv, ← hn]
  simp only [hα] at *
  linarith

end Verif.OneSlack
