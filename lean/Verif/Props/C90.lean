import Verif.Model.SVM
import Verif.Lemmas.QP
import Mathlib.Data.Finset.Max

/-!
# C90: the binary SVM finds the hyperplane of maximal margin
-/

namespace Verif.Props

open Finset Verif.SVM

/-! ### specification -/

/-- The objective of the soft-margin SVM. -/
def svmObjective (C : ℚ) (n d : ℕ) (X : ℕ → ℕ → ℚ) (y : ℕ → ℚ) (w : ℕ → ℚ) (b : ℚ) : ℚ :=
  (∑ k ∈ range d, w k ^ 2) / 2 + C * ∑ i ∈ range n, max 0 (1 - y i * (∑ k ∈ range d, w k * X i k + b))

/-- Labels are `-1` and `+1`. -/
def SignLabels (n : ℕ) (y : ℕ → ℚ) : Prop := ∀ i < n, y i = 1 ∨ y i = -1

/-- `(w, b)` minimises the objective. -/
def IsSVM (C : ℚ) (X : Mat) (y : Vec) (w : ℕ → ℚ) (b : ℚ) : Prop :=
  ∀ w' b', svmObjective C X.rows X.cols X.get y.get w b ≤ svmObjective C X.rows X.cols X.get y.get w' b'

/-! ### the dual problem in terms of sums -/

/-- `Σ a_i y_i x_i` -/
def svmCombine (n : ℕ) (X : ℕ → ℕ → ℚ) (y a : ℕ → ℚ) : ℕ → ℚ := fun k => ∑ i ∈ range n, a i * y i * X i k

theorem dot_svmCombine (n d : ℕ) (X : ℕ → ℕ → ℚ) (y a v : ℕ → ℚ) :
    dot d (svmCombine n X y a) v = ∑ i ∈ range n, a i * (y i * dot d (X i) v) := by
  unfold svmCombine
  rw [dot_sum_left]
  refine sum_congr rfl fun i _ => ?_
  have : (fun k => a i * y i * X i k) = fun k => (a i * y i) * X i k := rfl
  rw [this, dot_smul_left]
  ring

theorem getD_rangeMap (n i : ℕ) (hi : i < n) (f : ℕ → ℚ) : ((List.range n).map f).getD i 0 = f i := by
  simp [List.getD_eq_getElem?_getD, hi]

theorem svm_value (C : ℚ) (X : Mat) (y : Vec) (x : List ℚ) (h : x.length = X.rows) :
    (SVM.qpOf C X y).value x =
      dot X.cols (svmCombine X.rows X.get y.get (fun i => x.getD i 0))
        (svmCombine X.rows X.get y.get (fun i => x.getD i 0)) / 2 - ∑ i ∈ range X.rows, x.getD i 0 := by
  unfold QP.Problem.value SVM.qpOf
  simp only
  rw [QP.rowDot_eq _ _ (by simp [h]), QP.rowDot_eq _ _ (by simp [h]), h]
  have hq : ∑ i ∈ range X.rows, ((List.range X.rows).map fun _ => (-1 : ℚ)).getD i 0 * x.getD i 0 =
      -∑ i ∈ range X.rows, x.getD i 0 := by
    rw [← sum_neg_distrib]
    refine sum_congr rfl fun i hi => ?_
    rw [getD_rangeMap _ _ (mem_range.mp hi)]
    ring
  have hP : ∀ i ∈ range X.rows, (((List.range X.rows).map fun i => (List.range X.rows).map fun j =>
      dot X.cols (fun k => X.get i k * y.get i) (fun k => X.get j k * y.get j)).map
        fun r => QP.rowDot r x).getD i 0 * x.getD i 0 =
      x.getD i 0 * (y.get i * dot X.cols (X.get i) (svmCombine X.rows X.get y.get (fun i => x.getD i 0))) := by
    intro i hi
    rw [List.map_map, getD_rangeMap _ _ (mem_range.mp hi)]
    simp only [Function.comp_apply]
    rw [QP.rowDot_eq _ _ (by simp [h]), h, dot_comm X.cols (X.get i), dot_svmCombine, mul_comm]
    congr 1
    rw [mul_sum]
    refine sum_congr rfl fun j hj => ?_
    rw [getD_rangeMap _ _ (mem_range.mp hj)]
    have e1 : (fun k => X.get i k * y.get i) = fun k => y.get i * X.get i k := by funext k; ring
    have e2 : (fun k => X.get j k * y.get j) = fun k => y.get j * X.get j k := by funext k; ring
    rw [e1, e2, dot_smul_left, dot_smul_right, dot_comm X.cols (X.get j)]
    ring
  rw [sum_congr rfl hP, hq, ← dot_svmCombine]
  ring

theorem svm_feasible (C : ℚ) (X : Mat) (y : Vec) (x : List ℚ) :
    (SVM.qpOf C X y).Feasible x ↔ x.length = X.rows ∧ (∀ i < X.rows, 0 ≤ x.getD i 0 ∧ x.getD i 0 ≤ C) ∧
      ∑ i ∈ range X.rows, y.get i * x.getD i 0 = 0 := by
  unfold QP.Problem.Feasible
  have hlen : (SVM.qpOf C X y).q.length = X.rows := by simp [SVM.qpOf]
  rw [hlen]
  refine and_congr_right fun h => ?_
  have happ : ∀ (a c : List (List ℚ)) (b d : List ℚ), a.length = b.length →
      (List.Forall₂ (fun r h => QP.rowDot r x ≤ h) (a ++ c) (b ++ d) ↔
        List.Forall₂ (fun r h => QP.rowDot r x ≤ h) a b ∧
        List.Forall₂ (fun r h => QP.rowDot r x ≤ h) c d) := by
    intro a c
    induction a with
    | nil =>
      intro b d hb
      have : b = [] := List.length_eq_zero_iff.mp hb.symm
      subst this
      simp
    | cons r a ih =>
      intro b d hb
      cases b with
      | nil => simp at hb
      | cons h b =>
        simp only [List.cons_append, List.forall₂_cons]
        rw [ih b d (by simpa using hb), and_assoc]
  have hrow : ∀ (c : ℚ), ∀ i < X.rows,
      QP.rowDot ((List.range X.rows).map fun j => if i = j then c else 0) x = c * x.getD i 0 := by
    intro c i hi
    rw [QP.rowDot_eq _ _ (by simp [h]), h, sum_eq_single i]
    · rw [getD_rangeMap _ _ hi, if_pos rfl]
    · intro j hj hne
      rw [getD_rangeMap _ _ (mem_range.mp hj), if_neg (Ne.symm hne), zero_mul]
    · intro hn; exact absurd (mem_range.mpr hi) hn
  have hG : List.Forall₂ (fun r h => QP.rowDot r x ≤ h) (SVM.qpOf C X y).G (SVM.qpOf C X y).h ↔
      ∀ i < X.rows, 0 ≤ x.getD i 0 ∧ x.getD i 0 ≤ C := by
    change List.Forall₂ _ (_ ++ _) (_ ++ _) ↔ _
    rw [happ _ _ _ _ (by simp)]
    rw [List.forall₂_map_left_iff, List.forall₂_map_right_iff, List.forall₂_same,
      List.forall₂_map_left_iff, List.forall₂_map_right_iff, List.forall₂_same]
    constructor
    · rintro ⟨h1, h2⟩ i hi
      have k1 := h1 i (List.mem_range.mpr hi)
      have k2 := h2 i (List.mem_range.mpr hi)
      rw [hrow _ i hi] at k1 k2
      exact ⟨by linarith, by linarith⟩
    · intro hf
      refine ⟨fun i hi => ?_, fun i hi => ?_⟩
      · have hi' := List.mem_range.mp hi
        rw [hrow _ i hi']
        linarith [(hf i hi').1]
      · have hi' := List.mem_range.mp hi
        rw [hrow _ i hi']
        linarith [(hf i hi').2]
  have hA : List.Forall₂ (fun r b => QP.rowDot r x = b) (SVM.qpOf C X y).A (SVM.qpOf C X y).b ↔
      ∑ i ∈ range X.rows, y.get i * x.getD i 0 = 0 := by
    change List.Forall₂ _ [_] [_] ↔ _
    simp only [List.forall₂_cons, List.Forall₂.nil, and_true]
    rw [QP.rowDot_eq _ _ (by simp [h]), h]
    rw [sum_congr rfl fun i hi => by rw [getD_rangeMap _ _ (mem_range.mp hi)]]
  rw [hG, hA]

/-! ### optimality conditions -/

/-- Room for a change of multiplier `i` in the direction of its label. -/
def svmUp (C : ℚ) (y a : ℕ → ℚ) (i : ℕ) : ℚ := if y i = 1 then C - a i else a i

/-- Room for a change of multiplier `i` against the direction of its label. -/
def svmLow (C : ℚ) (y a : ℕ → ℚ) (i : ℕ) : ℚ := if y i = 1 then a i else C - a i

/-- At a dual optimum no pair of multipliers can be improved. -/
theorem svm_exchange (C : ℚ) (X : Mat) (y : Vec) (x : List ℚ) (hy : SignLabels X.rows y.get)
    (hf : (SVM.qpOf C X y).Feasible x) (hopt : ∀ x', (SVM.qpOf C X y).Feasible x' →
      (SVM.qpOf C X y).value x ≤ (SVM.qpOf C X y).value x')
    (i j : ℕ) (hi : i < X.rows) (hj : j < X.rows) (hu : 0 < svmUp C y.get (fun i => x.getD i 0) i)
    (hl : 0 < svmLow C y.get (fun i => x.getD i 0) j) :
    y.get i - dot X.cols (svmCombine X.rows X.get y.get (fun i => x.getD i 0)) (X.get i) ≤
      y.get j - dot X.cols (svmCombine X.rows X.get y.get (fun i => x.getD i 0)) (X.get j) := by
  rcases eq_or_ne i j with rfl | hij
  · exact le_rfl
  obtain ⟨hlen, hbox, hsum⟩ := (svm_feasible C X y x).mp hf
  set a : ℕ → ℚ := fun i => x.getD i 0 with ha
  set w := svmCombine X.rows X.get y.get a with hw
  set r := min (svmUp C y.get a i) (svmLow C y.get a j) with hr
  have hrpos : 0 < r := lt_min hu hl
  have hri : r ≤ svmUp C y.get a i := min_le_left _ _
  have hrj : r ≤ svmLow C y.get a j := min_le_right _ _
  have hyy : ∀ i < X.rows, y.get i * y.get i = 1 := by
    intro i hi
    rcases hy i hi with h | h <;> rw [h] <;> norm_num
  have key : ∀ t : ℚ, 0 ≤ t → t ≤ 1 →
      0 ≤ t * (r * (dot X.cols w (X.get i) - y.get i - (dot X.cols w (X.get j) - y.get j))) +
        t ^ 2 * (r ^ 2 * (dot X.cols (fun k => X.get i k - X.get j k) (fun k => X.get i k - X.get j k) / 2)) := by
    intro t ht0 ht1
    let a' : ℕ → ℚ := fun k => a k + (if k = i then t * r * y.get i else 0) - (if k = j then t * r * y.get j else 0)
    let x' : List ℚ := (List.range X.rows).map a'
    have hx' : ∀ k < X.rows, x'.getD k 0 = a' k := fun k hk => getD_rangeMap _ _ hk _
    have htr : 0 ≤ t * r := mul_nonneg ht0 hrpos.le
    have htr' : t * r ≤ r := by nlinarith
    have hfeas : (SVM.qpOf C X y).Feasible x' := by
      rw [svm_feasible]
      refine ⟨by simp [x'], fun k hk => ?_, ?_⟩
      · rw [hx' k hk]
        have hb := hbox k hk
        change 0 ≤ a k ∧ a k ≤ C at hb
        change 0 ≤ a k + _ - _ ∧ a k + _ - _ ≤ C
        by_cases hki : k = i
        · subst hki
          rw [if_pos rfl, if_neg hij]
          unfold svmUp at hri
          rcases hy k hk with h | h
          · rw [if_pos h] at hri
            rw [h]
            exact ⟨by linarith, by linarith⟩
          · rw [if_neg (by rw [h]; norm_num)] at hri
            rw [h]
            exact ⟨by linarith, by linarith⟩
        · rw [if_neg hki]
          by_cases hkj : k = j
          · subst hkj
            rw [if_pos rfl]
            unfold svmLow at hrj
            rcases hy k hk with h | h
            · rw [if_pos h] at hrj
              rw [h]
              exact ⟨by linarith, by linarith⟩
            · rw [if_neg (by rw [h]; norm_num)] at hrj
              rw [h]
              exact ⟨by linarith, by linarith⟩
          · rw [if_neg hkj]
            exact ⟨by linarith [hb.1], by linarith [hb.2]⟩
      · rw [sum_congr rfl fun k hk => by rw [hx' k (mem_range.mp hk)]]
        have : ∀ k ∈ range X.rows, y.get k * a' k = y.get k * a k +
            ((if k = i then y.get k * (t * r * y.get i) else 0) - (if k = j then y.get k * (t * r * y.get j) else 0)) := by
          intro k _
          change y.get k * (a k + _ - _) = _
          split_ifs <;> ring
        rw [sum_congr rfl this, sum_add_distrib, sum_sub_distrib, sum_ite_eq', sum_ite_eq', if_pos (mem_range.mpr hi),
          if_pos (mem_range.mpr hj), hsum]
        have h1 := hyy i hi
        have h2 := hyy j hj
        have e1 : y.get i * (t * r * y.get i) = t * r * (y.get i * y.get i) := by ring
        have e2 : y.get j * (t * r * y.get j) = t * r * (y.get j * y.get j) := by ring
        rw [e1, e2, h1, h2]
        ring
    have hle := hopt x' hfeas
    rw [svm_value C X y x hlen, svm_value C X y x' (by simp [x'])] at hle
    have hcomb : svmCombine X.rows X.get y.get (fun i => x'.getD i 0) =
        fun k => w k + t * r * (X.get i k - X.get j k) := by
      funext k
      unfold svmCombine
      have : ∀ l ∈ range X.rows, x'.getD l 0 * y.get l * X.get l k = a l * y.get l * X.get l k +
          ((if l = i then t * r * y.get i * y.get l * X.get l k else 0) -
            (if l = j then t * r * y.get j * y.get l * X.get l k else 0)) := by
        intro l hl
        rw [hx' l (mem_range.mp hl)]
        change (a l + _ - _) * _ * _ = _
        split_ifs <;> ring
      rw [sum_congr rfl this, sum_add_distrib, sum_sub_distrib, sum_ite_eq', sum_ite_eq', if_pos (mem_range.mpr hi),
          if_pos (mem_range.mpr hj)]
      have h1 := hyy i hi
      have h2 := hyy j hj
      have e1 : t * r * y.get i * y.get i * X.get i k = t * r * (y.get i * y.get i) * X.get i k := by ring
      have e2 : t * r * y.get j * y.get j * X.get j k = t * r * (y.get j * y.get j) * X.get j k := by ring
      rw [e1, e2, h1, h2]
      change w k + _ = _
      ring
    have hsum' : ∑ k ∈ range X.rows, x'.getD k 0 = ∑ k ∈ range X.rows, a k + t * r * (y.get i - y.get j) := by
      have : ∀ k ∈ range X.rows, x'.getD k 0 = a k +
          ((if k = i then t * r * y.get i else 0) - (if k = j then t * r * y.get j else 0)) := by
        intro k hk
        rw [hx' k (mem_range.mp hk)]
        change a k + _ - _ = _
        ring
      rw [sum_congr rfl this, sum_add_distrib, sum_sub_distrib, sum_ite_eq', sum_ite_eq', if_pos (mem_range.mpr hi),
          if_pos (mem_range.mpr hj)]
      ring
    rw [hcomb, hsum'] at hle
    change dot X.cols w w / 2 - _ ≤ _ at hle
    have hexp : dot X.cols (fun k => w k + t * r * (X.get i k - X.get j k))
        (fun k => w k + t * r * (X.get i k - X.get j k)) = dot X.cols w w +
        2 * (t * r) * (dot X.cols w (X.get i) - dot X.cols w (X.get j)) +
        (t * r) ^ 2 * dot X.cols (fun k => X.get i k - X.get j k) (fun k => X.get i k - X.get j k) := by
      rw [dot_add_left, dot_add_right, dot_add_right]
      have e : (fun k => t * r * (X.get i k - X.get j k)) = fun k => (t * r) * (fun k => X.get i k - X.get j k) k := rfl
      rw [e, dot_smul_left, dot_smul_right, dot_smul_left, dot_smul_right,
        dot_comm X.cols (fun k => X.get i k - X.get j k) w, dot_sub_right]
      ring
    rw [hexp] at hle
    nlinarith [hle]
  have hslope := QP.slope_nonneg key
  have := (mul_nonneg_iff_of_pos_left hrpos).mp hslope
  linarith

/-- There is an intercept that separates the two kinds of multipliers. -/
theorem svm_intercept (C : ℚ) (n : ℕ) (y a F : ℕ → ℚ)
    (h : ∀ i < n, ∀ j < n, 0 < svmUp C y a i → 0 < svmLow C y a j → F i ≤ F j) :
    ∃ b, (∀ i < n, 0 < svmUp C y a i → F i ≤ b) ∧ ∀ j < n, 0 < svmLow C y a j → b ≤ F j := by
  by_cases hne : ((range n).filter fun i => 0 < svmUp C y a i).Nonempty
  · obtain ⟨i, hi, hmax⟩ := exists_max_image _ F hne
    rw [mem_filter, mem_range] at hi
    refine ⟨F i, fun k hk hu => hmax k (by rw [mem_filter, mem_range]; exact ⟨hk, hu⟩), fun j hj hl => h i hi.1 j hj hi.2 hl⟩
  · have hno : ∀ i < n, ¬ 0 < svmUp C y a i := by
      intro i hi hu
      exact hne ⟨i, by rw [mem_filter, mem_range]; exact ⟨hi, hu⟩⟩
    by_cases hne' : ((range n).filter fun i => 0 < svmLow C y a i).Nonempty
    · obtain ⟨i, hi, hmin⟩ := exists_min_image _ F hne'
      exact ⟨F i, fun k hk hu => absurd hu (hno k hk), fun j hj hl => hmin j (by rw [mem_filter, mem_range]; exact ⟨hj, hl⟩)⟩
    · refine ⟨0, fun k hk hu => absurd hu (hno k hk), fun j hj hl => ?_⟩
      exact absurd ⟨j, by rw [mem_filter, mem_range]; exact ⟨hj, hl⟩⟩ hne'

/-- An intercept between the two kinds of multipliers makes the primal optimal. -/
theorem svm_kkt (C : ℚ) (hC : 0 ≤ C) (X : Mat) (y : Vec) (a : ℕ → ℚ) (hy : SignLabels X.rows y.get)
    (hbox : ∀ i < X.rows, 0 ≤ a i ∧ a i ≤ C) (hsum : ∑ i ∈ range X.rows, y.get i * a i = 0) (b : ℚ)
    (hu : ∀ i < X.rows, 0 < svmUp C y.get a i →
      y.get i - dot X.cols (svmCombine X.rows X.get y.get a) (X.get i) ≤ b)
    (hl : ∀ j < X.rows, 0 < svmLow C y.get a j →
      b ≤ y.get j - dot X.cols (svmCombine X.rows X.get y.get a) (X.get j)) :
    IsSVM C X y (svmCombine X.rows X.get y.get a) b := by
  intro w' b'
  set w := svmCombine X.rows X.get y.get a with hw
  have obj : ∀ v c, svmObjective C X.rows X.cols X.get y.get v c = dot X.cols v v / 2 +
      ∑ i ∈ range X.rows, C * max 0 (1 - y.get i * (dot X.cols v (X.get i) + c)) := by
    intro v c
    unfold svmObjective dot
    rw [mul_sum]
    congr 2
    exact sum_congr rfl fun k _ => by ring
  rw [obj, obj]
  have hcs : ∀ i ∈ range X.rows, C * max 0 (1 - y.get i * (dot X.cols w (X.get i) + b)) =
      a i * (1 - y.get i * (dot X.cols w (X.get i) + b)) := by
    intro i hi
    have hi' := mem_range.mp hi
    obtain ⟨h0, h1⟩ := hbox i hi'
    have u := hu i hi'
    have l := hl i hi'
    unfold svmUp at u
    unfold svmLow at l
    rcases hy i hi' with h | h
    · rw [if_pos h] at u l
      rw [h] at u l ⊢
      rcases eq_or_lt_of_le h1 with h1 | h1
      · rcases eq_or_lt_of_le h0 with h0 | h0
        · rw [← h1, ← h0]; ring
        · have := l h0
          rw [max_eq_right (by linarith), h1]
      · have k := u (by linarith)
        rw [max_eq_left (by linarith)]
        rcases eq_or_lt_of_le h0 with h0 | h0
        · rw [← h0]; ring
        · have := l h0
          have e : 1 - 1 * (dot X.cols w (X.get i) + b) = 0 := by linarith
          rw [e]; ring
    · rw [if_neg (by rw [h]; norm_num)] at u l
      rw [h] at u l ⊢
      rcases eq_or_lt_of_le h1 with h1 | h1
      · rcases eq_or_lt_of_le h0 with h0 | h0
        · rw [← h1, ← h0]; ring
        · have := u h0
          rw [max_eq_right (by linarith), h1]
      · have k := l (by linarith)
        rw [max_eq_left (by linarith)]
        rcases eq_or_lt_of_le h0 with h0 | h0
        · rw [← h0]; ring
        · have := u h0
          have e : 1 - -1 * (dot X.cols w (X.get i) + b) = 0 := by linarith
          rw [e]; ring
  rw [sum_congr rfl hcs]
  have hdual : ∀ v c, ∑ i ∈ range X.rows, a i * (1 - y.get i * (dot X.cols v (X.get i) + c)) =
      ∑ i ∈ range X.rows, a i - dot X.cols w v := by
    intro v c
    have : ∀ i ∈ range X.rows, a i * (1 - y.get i * (dot X.cols v (X.get i) + c)) =
        a i - a i * (y.get i * dot X.cols (X.get i) v) - c * (y.get i * a i) := by
      intro i _
      rw [dot_comm X.cols v]; ring
    rw [sum_congr rfl this, sum_sub_distrib, sum_sub_distrib, ← mul_sum, hsum, hw, dot_svmCombine]
    ring
  have hweak : ∑ i ∈ range X.rows, a i * (1 - y.get i * (dot X.cols w' (X.get i) + b')) ≤
      ∑ i ∈ range X.rows, C * max 0 (1 - y.get i * (dot X.cols w' (X.get i) + b')) := by
    refine sum_le_sum fun i hi => ?_
    obtain ⟨h0, h1⟩ := hbox i (mem_range.mp hi)
    calc _ ≤ a i * max 0 (1 - y.get i * (dot X.cols w' (X.get i) + b')) :=
          mul_le_mul_of_nonneg_left (le_max_right _ _) h0
      _ ≤ _ := mul_le_mul_of_nonneg_right h1 (le_max_left _ _)
  rw [hdual] at hweak ⊢
  have hsq : 0 ≤ dot X.cols (fun k => w' k - w k) (fun k => w' k - w k) := dot_self_nonneg _ _
  rw [dot_sub_left, dot_sub_right, dot_sub_right, dot_comm X.cols w' w] at hsq
  linarith

/-! ### what `fit` computes -/

theorem sum_supportVectors (n : ℕ) (x : List ℚ) (f : ℕ → ℚ)
    (hcut : ∀ i < n, x.getD i 0 = 0 ∨ 1 / 10 ^ 5 < x.getD i 0) (h0 : ∀ i < n, x.getD i 0 = 0 → f i = 0) :
    ((supportVectors n x).map f).sum = ∑ i ∈ range n, f i := by
  unfold supportVectors
  induction n with
  | zero => simp
  | succ n ih =>
    rw [List.range_succ, List.filter_append, List.map_append, List.sum_append, sum_range_succ,
      ih (fun i hi => hcut i (by omega)) (fun i hi => h0 i (by omega))]
    congr 1
    rw [List.filter_singleton]
    by_cases h : (1 : ℚ) / 10 ^ 5 < x.getD n 0
    · simp only [h, decide_true, cond_true, List.map_cons, List.map_nil, List.sum_cons, List.sum_nil, add_zero]
    · have : x.getD n 0 = 0 := (hcut n (by omega)).resolve_right h
      simp only [h, decide_false, cond_false, List.map_nil, List.sum_nil]
      exact (h0 n (by omega) this).symm

/-- Decomposition of a successful `fit`. -/
theorem svm_fit_ok {qp : QP.Solver} {C : ℚ} {X : Mat} {y : Vec} {f : Fitted} (h : SVM.fit qp C X y = .ok f) :
    ∃ s, qp (SVM.qpOf C X y) = some s ∧ supportVectors X.rows s.x ≠ [] ∧ f.sv = supportVectors X.rows s.x ∧
      (f.a = fun i => s.x.getD i 0) ∧ f.b = interceptSum X y f.sv f.a / f.sv.length ∧ f.w = SVM.weights X y f.sv f.a := by
  unfold SVM.fit at h
  split_ifs at h
  cases hs : qp (SVM.qpOf C X y) with
  | none => rw [hs] at h; simp at h
  | some s =>
    rw [hs] at h
    simp only at h
    split_ifs at h with h1
    injection h with h
    subst h
    exact ⟨s, rfl, h1, rfl, rfl, rfl, rfl⟩

theorem svm_weights_eq (X : Mat) (y : Vec) (x : List ℚ)
    (hcut : ∀ i < X.rows, x.getD i 0 = 0 ∨ 1 / 10 ^ 5 < x.getD i 0) :
    (SVM.weights X y (supportVectors X.rows x) (fun i => x.getD i 0)).get =
      svmCombine X.rows X.get y.get (fun i => x.getD i 0) := by
  funext k
  unfold SVM.weights svmCombine
  simp only
  rw [sum_supportVectors X.rows x _ hcut]
  intro i _ h
  rw [h]; ring

theorem svm_intercept_eq (X : Mat) (y : Vec) (x : List ℚ)
    (hcut : ∀ i < X.rows, x.getD i 0 = 0 ∨ 1 / 10 ^ 5 < x.getD i 0) :
    interceptSum X y (supportVectors X.rows x) (fun i => x.getD i 0) =
      ((supportVectors X.rows x).map fun n => y.get n -
        dot X.cols (svmCombine X.rows X.get y.get (fun i => x.getD i 0)) (X.get n)).sum := by
  unfold interceptSum
  congr 1
  refine List.map_congr_left fun n _ => ?_
  rw [sum_supportVectors X.rows x _ hcut (by intro i _ h; simp only [h]; ring), dot_svmCombine]
  congr 1
  exact sum_congr rfl fun i _ => by ring

/-- **C90** (weights): with an exact QP solver whose solution has no positive multipliers that the cut-off `1e-5`
drops, the weights of `SVM.fit` are those of the soft-margin SVM: with some intercept they minimise the
objective over all weights and intercepts. -/
theorem C90_weights_partial (qp : QP.Solver) (hqp : QP.Exact qp) (C : ℚ) (hC : 0 ≤ C) (X : Mat) (y : Vec)
    (hy : SignLabels X.rows y.get) (f : Fitted) (hfit : SVM.fit qp C X y = .ok f)
    (hcut : ∀ i < X.rows, f.a i = 0 ∨ 1 / 10 ^ 5 < f.a i) :
    ∃ b, IsSVM C X y f.w.get b := by
  obtain ⟨s, hs, _, hsv, ha, _, hw⟩ := svm_fit_ok hfit
  obtain ⟨hf, hval⟩ := hqp.1 _ _ hs
  have hopt : ∀ x', (SVM.qpOf C X y).Feasible x' → (SVM.qpOf C X y).value s.x ≤ (SVM.qpOf C X y).value x' := by
    intro x' hx'
    rw [← hval]
    exact hqp.2 _ _ hs x' hx'
  obtain ⟨_, hbox, hsum⟩ := (svm_feasible C X y s.x).mp hf
  obtain ⟨b, h1, h2⟩ := svm_intercept C X.rows y.get (fun i => s.x.getD i 0)
    (fun i => y.get i - dot X.cols (svmCombine X.rows X.get y.get (fun i => s.x.getD i 0)) (X.get i))
    (fun i hi j hj hu hl => svm_exchange C X y s.x hy hf hopt i j hi hj hu hl)
  refine ⟨b, ?_⟩
  rw [ha] at hcut
  rw [hw, hsv, ha, svm_weights_eq X y s.x hcut]
  exact svm_kkt C hC X y _ hy hbox hsum b h1 h2

/-- **C90** (hyperplane, the part that holds): if in addition no support vector is at the bound `C`, weights and
intercept of `SVM.fit` minimise the objective, every support vector lies exactly on the margin, every other
sample on its side of it, and `predict` reproduces the training labels. Missing: support vectors at the bound,
for which the intercept is wrong in general (`C90_violated_bounded`), and multipliers that the cut-off drops. -/
theorem C90_hyperplane_partial (qp : QP.Solver) (hqp : QP.Exact qp) (C : ℚ) (hC : 0 ≤ C) (X : Mat) (y : Vec)
    (hy : SignLabels X.rows y.get) (f : Fitted) (hfit : SVM.fit qp C X y = .ok f)
    (hcut : ∀ i < X.rows, f.a i = 0 ∨ 1 / 10 ^ 5 < f.a i) (hfree : ∀ i < X.rows, f.a i < C) :
    IsSVM C X y f.w.get f.b ∧
    (∀ i ∈ f.sv, y.get i * (dot X.cols f.w.get (X.get i) + f.b) = 1) ∧
    (∀ i < X.rows, 1 ≤ y.get i * (dot X.cols f.w.get (X.get i) + f.b)) ∧
    ∃ p, SVM.predict f X = .ok p ∧ p.size = X.rows ∧ ∀ i < X.rows, p.get i = y.get i := by
  obtain ⟨s, hs, hne, hsv, ha, hb, hw⟩ := svm_fit_ok hfit
  obtain ⟨hf, hval⟩ := hqp.1 _ _ hs
  have hopt : ∀ x', (SVM.qpOf C X y).Feasible x' → (SVM.qpOf C X y).value s.x ≤ (SVM.qpOf C X y).value x' := by
    intro x' hx'
    rw [← hval]
    exact hqp.2 _ _ hs x' hx'
  obtain ⟨_, hbox, hsum⟩ := (svm_feasible C X y s.x).mp hf
  obtain ⟨b, h1, h2⟩ := svm_intercept C X.rows y.get (fun i => s.x.getD i 0)
    (fun i => y.get i - dot X.cols (svmCombine X.rows X.get y.get (fun i => s.x.getD i 0)) (X.get i))
    (fun i hi j hj hu hl => svm_exchange C X y s.x hy hf hopt i j hi hj hu hl)
  rw [ha] at hcut hfree
  simp only at hfree
  have hfw : f.w.get = svmCombine X.rows X.get y.get (fun i => s.x.getD i 0) := by
    rw [hw, hsv, ha, svm_weights_eq X y s.x hcut]
  have hmem : ∀ i ∈ f.sv, i < X.rows ∧ 0 < s.x.getD i 0 := by
    intro i hi
    rw [hsv] at hi
    unfold supportVectors at hi
    rw [List.mem_filter, List.mem_range] at hi
    have h := hi.2
    simp only [decide_eq_true_eq] at h
    exact ⟨hi.1, lt_trans (by norm_num) h⟩
  have hF : ∀ i ∈ f.sv, y.get i - dot X.cols (svmCombine X.rows X.get y.get (fun i => s.x.getD i 0)) (X.get i) = b := by
    intro i hi
    obtain ⟨hi', hpos⟩ := hmem i hi
    have hlt := hfree i hi'
    refine le_antisymm (h1 i hi' ?_) (h2 i hi' ?_)
    · unfold svmUp; simp only; split_ifs <;> linarith
    · unfold svmLow; simp only; split_ifs <;> linarith
  have hfb : f.b = b := by
    rw [hb, hsv, ha, svm_intercept_eq X y s.x hcut]
    have hmap : ((supportVectors X.rows s.x).map fun n => y.get n -
        dot X.cols (svmCombine X.rows X.get y.get (fun i => s.x.getD i 0)) (X.get n)) =
        (supportVectors X.rows s.x).map fun _ => b :=
      List.map_congr_left fun i hi => hF i (by rw [hsv]; exact hi)
    rw [hmap, List.map_const', List.sum_replicate, nsmul_eq_mul]
    have hlen : ((supportVectors X.rows s.x).length : ℚ) ≠ 0 := by
      rw [Nat.cast_ne_zero]
      exact fun h => hne (List.length_eq_zero_iff.mp h)
    field_simp
  have hmargin : ∀ i < X.rows, 1 ≤ y.get i * (dot X.cols f.w.get (X.get i) + f.b) := by
    intro i hi
    rw [hfw, hfb]
    have hlt := hfree i hi
    rcases hy i hi with h | h
    · have := h1 i hi (by unfold svmUp; simp only; rw [if_pos h]; linarith)
      rw [h] at this ⊢
      linarith
    · have := h2 i hi (by unfold svmLow; simp only; rw [if_neg (by rw [h]; norm_num)]; linarith)
      rw [h] at this ⊢
      linarith
  refine ⟨?_, ?_, hmargin, ?_⟩
  · rw [hfw, hfb]
    exact svm_kkt C hC X y _ hy hbox hsum b h1 h2
  · intro i hi
    have := hF i hi
    rw [hfw, hfb]
    rcases hy i (hmem i hi).1 with h | h
    · rw [h] at this ⊢; linarith
    · rw [h] at this ⊢; linarith
  · unfold SVM.predict decisionFunction
    rw [if_neg (by rw [hw]; simp [SVM.weights])]
    refine ⟨_, rfl, rfl, fun i hi => ?_⟩
    have := hmargin i hi
    rw [dot_comm X.cols f.w.get] at this
    change (if 0 < dot X.cols (X.get i) f.w.get + f.b then (1 : ℚ) else
      if dot X.cols (X.get i) f.w.get + f.b < 0 then -1 else 0) = _
    rcases hy i hi with h | h
    · rw [h] at this ⊢
      rw [if_pos (by linarith)]
    · rw [h] at this ⊢
      rw [if_neg (by linarith), if_pos (by linarith)]

/-- **C90 violated** (one class): if all labels are equal, `fit` divides by zero whatever the samples are. -/
theorem C90_violated_one_class (qp : QP.Solver) (hqp : QP.Sound qp) (C : ℚ) (X : Mat) (y : Vec) (c : ℚ) (hc : c ≠ 0)
    (hy : ∀ i < X.rows, y.get i = c) (hsize : y.size = X.rows) (hs : (qp (SVM.qpOf C X y)).isSome) :
    SVM.fit qp C X y = .error .zeroDivisionError := by
  obtain ⟨s, hs⟩ := Option.isSome_iff_exists.mp hs
  obtain ⟨_, hbox, hsum⟩ := (svm_feasible C X y s.x).mp (hqp _ _ hs).1
  have hzero : ∀ i < X.rows, s.x.getD i 0 = 0 := by
    have h1 : ∑ i ∈ range X.rows, s.x.getD i 0 = 0 := by
      have : ∑ i ∈ range X.rows, y.get i * s.x.getD i 0 = c * ∑ i ∈ range X.rows, s.x.getD i 0 := by
        rw [mul_sum]
        exact sum_congr rfl fun i hi => by rw [hy i (mem_range.mp hi)]
      rw [this] at hsum
      exact (mul_eq_zero.mp hsum).resolve_left hc
    intro i hi
    exact (sum_eq_zero_iff_of_nonneg (fun i hi => (hbox i (mem_range.mp hi)).1)).mp h1 i (mem_range.mpr hi)
  unfold SVM.fit
  rw [if_neg (by simp [hsize]), hs]
  simp only
  rw [if_pos]
  unfold supportVectors
  rw [List.filter_eq_nil_iff]
  intro i hi
  rw [hzero i (List.mem_range.mp hi)]
  simp

/-- A solver that knows the optimum of one problem. -/
def svmSolver (C : ℚ) (X : Mat) (y : Vec) (x : List ℚ) : QP.Solver := fun p =>
  if p = SVM.qpOf C X y then some ⟨x, (SVM.qpOf C X y).value x⟩ else none

/-- Multipliers with an intercept between the two kinds are optimal. -/
theorem svmSolver_exact (C : ℚ) (X : Mat) (y : Vec) (x : List ℚ) (hlen : x.length = X.rows)
    (hy : SignLabels X.rows y.get)
    (hbox : ∀ i < X.rows, 0 ≤ x.getD i 0 ∧ x.getD i 0 ≤ C) (hsum : ∑ i ∈ range X.rows, y.get i * x.getD i 0 = 0)
    (b : ℚ)
    (hu : ∀ i < X.rows, 0 < svmUp C y.get (fun i => x.getD i 0) i →
      y.get i - dot X.cols (svmCombine X.rows X.get y.get (fun i => x.getD i 0)) (X.get i) ≤ b)
    (hl : ∀ j < X.rows, 0 < svmLow C y.get (fun i => x.getD i 0) j →
      b ≤ y.get j - dot X.cols (svmCombine X.rows X.get y.get (fun i => x.getD i 0)) (X.get j)) :
    QP.Exact (svmSolver C X y x) := by
  have key : ∀ p s, svmSolver C X y x p = some s → p = SVM.qpOf C X y ∧ s = ⟨x, (SVM.qpOf C X y).value x⟩ := by
    intro p s h
    unfold svmSolver at h
    split_ifs at h with hp
    exact ⟨hp, (Option.some.inj h).symm⟩
  refine ⟨fun p s h => ?_, fun p s h x' hx' => ?_⟩
  · obtain ⟨rfl, rfl⟩ := key p s h
    exact ⟨(svm_feasible C X y x).mpr ⟨hlen, hbox, hsum⟩, rfl⟩
  · obtain ⟨rfl, rfl⟩ := key p s h
    obtain ⟨hlen', hbox', hsum'⟩ := (svm_feasible C X y x').mp hx'
    change (SVM.qpOf C X y).value x ≤ _
    rw [svm_value C X y x hlen, svm_value C X y x' hlen']
    set w := svmCombine X.rows X.get y.get (fun i => x.getD i 0) with hw
    set w' := svmCombine X.rows X.get y.get (fun i => x'.getD i 0) with hw'
    have hsq : 0 ≤ dot X.cols (fun k => w' k - w k) (fun k => w' k - w k) := dot_self_nonneg _ _
    rw [dot_sub_left, dot_sub_right, dot_sub_right, dot_comm X.cols w w'] at hsq
    have e1 : dot X.cols w' w = ∑ i ∈ range X.rows, x'.getD i 0 * (y.get i * dot X.cols (X.get i) w) := dot_svmCombine _ _ _ _ _ _
    have e2 : dot X.cols w w = ∑ i ∈ range X.rows, x.getD i 0 * (y.get i * dot X.cols (X.get i) w) := dot_svmCombine _ _ _ _ _ _
    have e3 : ∑ i ∈ range X.rows, (x'.getD i 0 - x.getD i 0) * (1 - y.get i * (dot X.cols (X.get i) w + b)) ≤ 0 := by
      apply sum_nonpos
      intro i hi
      have hi' := mem_range.mp hi
      obtain ⟨h0, h1⟩ := hbox i hi'
      obtain ⟨h0', h1'⟩ := hbox' i hi'
      have u := hu i hi'
      have l := hl i hi'
      rw [dot_comm X.cols w] at u l
      unfold svmUp at u
      unfold svmLow at l
      rcases hy i hi' with h | h
      · rw [if_pos h] at u l
        rw [h] at u l ⊢
        simp only at u l
        rcases eq_or_lt_of_le h1 with h1 | h1
        · rcases eq_or_lt_of_le h0 with h0 | h0
          · have : x'.getD i 0 = x.getD i 0 := by linarith
            rw [this]; simp
          · have := l h0
            exact mul_nonpos_of_nonpos_of_nonneg (by linarith) (by linarith)
        · have k := u (by linarith)
          rcases eq_or_lt_of_le h0 with h0 | h0
          · exact mul_nonpos_of_nonneg_of_nonpos (by linarith) (by linarith)
          · have := l h0
            have e : 1 - 1 * (dot X.cols (X.get i) w + b) = 0 := by linarith
            rw [e]; simp
      · rw [if_neg (by rw [h]; norm_num)] at u l
        rw [h] at u l ⊢
        simp only at u l
        rcases eq_or_lt_of_le h1 with h1 | h1
        · rcases eq_or_lt_of_le h0 with h0 | h0
          · have : x'.getD i 0 = x.getD i 0 := by linarith
            rw [this]; simp
          · have := u h0
            exact mul_nonpos_of_nonpos_of_nonneg (by linarith) (by linarith)
        · have k := l (by linarith)
          rcases eq_or_lt_of_le h0 with h0 | h0
          · exact mul_nonpos_of_nonneg_of_nonpos (by linarith) (by linarith)
          · have := u h0
            have e : 1 - -1 * (dot X.cols (X.get i) w + b) = 0 := by linarith
            rw [e]; simp
    have e4 : ∑ i ∈ range X.rows, (x'.getD i 0 - x.getD i 0) * (1 - y.get i * (dot X.cols (X.get i) w + b)) =
        (∑ i ∈ range X.rows, x'.getD i 0 - ∑ i ∈ range X.rows, x.getD i 0) - (dot X.cols w' w - dot X.cols w w) -
          b * (∑ i ∈ range X.rows, y.get i * x'.getD i 0 - ∑ i ∈ range X.rows, y.get i * x.getD i 0) := by
      rw [e1, e2]
      simp only [← sum_sub_distrib, mul_sum]
      exact sum_congr rfl fun i _ => by ring
    rw [e4, hsum, hsum'] at e3
    linarith

/-- Two negative samples at 0 and a positive one at 1. -/
def svmX : Mat := ⟨3, 1, fun i _ => if i = 2 then 1 else 0⟩

/-- Their labels. -/
def svmY : Vec := ⟨3, fun i => if i = 2 then 1 else -1⟩

theorem svmY_sign : SignLabels svmX.rows svmY.get := by
  intro i _
  unfold svmY
  simp only
  split_ifs
  · exact Or.inl rfl
  · exact Or.inr rfl

/-- **C90 violated** (bounded support vectors): with `C = 1`, an exact solver and no dropped multipliers, the
intercept of `SVM.fit` is not optimal: the positive sample is at the bound but takes part in the average. -/
theorem C90_violated_bounded : ∃ qp, QP.Exact qp ∧ ∃ f, SVM.fit qp 1 svmX svmY = .ok f ∧
    (∀ i < svmX.rows, f.a i = 0 ∨ 1 / 10 ^ 5 < f.a i) ∧ ¬ IsSVM 1 svmX svmY f.w.get f.b := by
  refine ⟨svmSolver 1 svmX svmY [1 / 2, 1 / 2, 1], ?_, ?_⟩
  · exact svmSolver_exact 1 svmX svmY _ rfl svmY_sign (by decide +kernel) (by decide +kernel) (-1)
      (by decide +kernel) (by decide +kernel)
  · refine ⟨⟨[0, 1, 2], fun i => [1 / 2, 1 / 2, 1].getD i 0, -2 / 3,
      SVM.weights svmX svmY [0, 1, 2] fun i => [1 / 2, 1 / 2, 1].getD i 0⟩, ?_, ?_, ?_⟩
    · unfold SVM.fit svmSolver
      rw [if_neg (by decide), if_pos rfl]
      have h1 : supportVectors svmX.rows [1 / 2, 1 / 2, 1] = [0, 1, 2] := by decide +kernel
      simp only [h1]
      have h2 : interceptSum svmX svmY [0, 1, 2] (fun i => [1 / 2, 1 / 2, 1].getD i 0) / (([0, 1, 2] : List ℕ).length : ℚ) =
          -2 / 3 := by decide +kernel
      rw [h2]
      rfl
    · decide +kernel
    · intro h
      have := h (fun _ => 1) (-1)
      revert this
      decide +kernel

/-- The hypotheses of `C90_violated_one_class` can be met: three positive samples, all multipliers 0. -/
example : QP.Sound (svmSolver 1 svmX ⟨3, fun _ => 1⟩ [0, 0, 0]) ∧
    (svmSolver 1 svmX ⟨3, fun _ => 1⟩ [0, 0, 0] (SVM.qpOf 1 svmX ⟨3, fun _ => 1⟩)).isSome := by
  refine ⟨(svmSolver_exact 1 svmX ⟨3, fun _ => 1⟩ _ rfl (fun _ _ => Or.inl rfl) (by decide +kernel) (by decide +kernel) 1
      (by decide +kernel) (by decide +kernel)).1, ?_⟩
  unfold svmSolver
  rw [if_pos rfl]
  rfl

/-- The hypotheses of `C90_hyperplane_partial` can be met: the same samples with `C = 3`. -/
example : QP.Exact (svmSolver 3 svmX svmY [1, 1, 2]) ∧ SignLabels svmX.rows svmY.get ∧
    ∃ f, SVM.fit (svmSolver 3 svmX svmY [1, 1, 2]) 3 svmX svmY = .ok f ∧
      (∀ i < svmX.rows, f.a i = 0 ∨ 1 / 10 ^ 5 < f.a i) ∧ ∀ i < svmX.rows, f.a i < 3 := by
  refine ⟨svmSolver_exact 3 svmX svmY _ rfl svmY_sign (by decide +kernel) (by decide +kernel) (-1)
      (by decide +kernel) (by decide +kernel), svmY_sign, ?_⟩
  have h1 : supportVectors svmX.rows [1, 1, 2] = [0, 1, 2] := by decide +kernel
  have : ∃ f, SVM.fit (svmSolver 3 svmX svmY [1, 1, 2]) 3 svmX svmY = .ok f ∧
      f.a = fun i => ([1, 1, 2] : List ℚ).getD i 0 := by
    unfold SVM.fit svmSolver
    rw [if_neg (by decide), if_pos rfl]
    simp only [h1]
    exact ⟨_, rfl, rfl⟩
  obtain ⟨f, hf, ha⟩ := this
  refine ⟨f, hf, ?_, ?_⟩
  · rw [ha]; decide +kernel
  · rw [ha]; decide +kernel

end Verif.Props
