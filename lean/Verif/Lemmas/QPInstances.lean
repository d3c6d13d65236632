import Verif.Lemmas.QPExists
import Verif.Lemmas.NSlack
import Verif.Props.C40
import Verif.Props.C90

/-!
# The quadratic programs of the learners have optimal solutions
-/

namespace Verif.QP

open Finset Verif.OneSlack Verif.Props

/-- Gram matrices, with something added on the diagonal, are positive semidefinite. -/
theorem gram_convex (p : Problem) (dim : ℕ) (cs : List Con) (eps : ℚ) (heps : 0 ≤ eps)
    (hP : p.P = cs.mapIdx fun i c => cs.mapIdx fun j d => dot dim c.1 d.1 + if i = j then eps else 0)
    (hq : p.q.length = cs.length) : p.Convex := by
  have hentry : ∀ i < cs.length, ∀ j < cs.length, p.entry i j =
      dot dim (con cs i).1 (con cs j).1 + if i = j then eps else 0 := by
    intro i hi j hj
    unfold Problem.entry con
    rw [hP]
    simp [List.getD_eq_getElem?_getD, hi, hj]
  refine ⟨?_, ?_⟩
  · intro i hi j hj
    rw [hq] at hi hj
    rw [hentry i hi j hj, hentry j hj i hi, dot_comm]
    by_cases h : i = j
    · rw [if_pos h, if_pos h.symm]
    · rw [if_neg h, if_neg (Ne.symm h)]
  · intro v
    rw [hq]
    have e : ∑ i ∈ range cs.length, ∑ j ∈ range cs.length, v i * p.entry i j * v j =
        dot dim (fun k => ∑ i ∈ range cs.length, v i * (con cs i).1 k)
          (fun k => ∑ i ∈ range cs.length, v i * (con cs i).1 k) + eps * ∑ i ∈ range cs.length, v i ^ 2 := by
      rw [dot_sum_left, mul_sum, ← sum_add_distrib]
      refine sum_congr rfl fun i hi => ?_
      rw [dot_smul_left, dot_sum_right, mul_sum]
      have : ∀ j ∈ range cs.length, v i * p.entry i j * v j =
          v i * dot dim (con cs i).1 (fun k => v j * (con cs j).1 k) + if i = j then eps * v i * v j else 0 := by
        intro j hj
        rw [hentry i (mem_range.mp hi) j (mem_range.mp hj), dot_smul_right]
        split_ifs <;> ring
      rw [sum_congr rfl this, sum_add_distrib, sum_ite_eq, if_pos hi]
      ring
    rw [e]
    exact add_nonneg (dot_self_nonneg _ _) (mul_nonneg heps (sum_nonneg fun i _ => sq_nonneg _))

/-- The program of the one-slack learner has an optimal solution if it has feasible points. -/
theorem oneSlack_optimal (dim : ℕ) (neg : Option (List ℕ)) (cn : ℚ) (cs : List Con) (eps : ℚ) (heps : 0 ≤ eps)
    (hne : ∃ x, (OneSlack.qpOf dim neg cn cs eps).Feasible x) : ∃ x, (OneSlack.qpOf dim neg cn cs eps).Optimal x := by
  refine exists_optimal _ (gram_convex _ dim cs eps heps rfl (by simp [OneSlack.qpOf])) ⟨cn, fun x hx i hi => ?_⟩ hne
  obtain ⟨-, h1, h2, -⟩ := (OneSlack.feasible_qpOf dim neg cn cs eps x).mp hx
  have hi' : i < cs.length := by simpa [OneSlack.qpOf] using hi
  rw [abs_of_nonneg (h1 i hi'), ← h2]
  exact single_le_sum (f := fun i => x.getD i 0) (fun j hj => h1 j (mem_range.mp hj)) (mem_range.mpr hi')

/-- Without sign constraints it has feasible points as soon as there is a constraint. -/
theorem oneSlack_feasible (dim : ℕ) (cn : ℚ) (hcn : 0 ≤ cn) (cs : List Con) (hcs : cs ≠ []) (eps : ℚ) :
    ∃ x, (OneSlack.qpOf dim none cn cs eps).Feasible x := by
  have hpos : 0 < cs.length := List.length_pos_iff.mpr hcs
  have hget : ∀ i < cs.length, ((List.range cs.length).map fun i => if i = 0 then cn else 0).getD i 0 =
      if i = 0 then cn else 0 := fun i hi => getD_rangeMap _ _ hi _
  refine ⟨(List.range cs.length).map fun i => if i = 0 then cn else 0, ?_⟩
  rw [OneSlack.feasible_qpOf]
  refine ⟨by simp, fun i hi => ?_, ?_, by simp⟩
  · rw [hget i hi]
    split
    · exact hcn
    · exact le_rfl
  · rw [sum_congr rfl fun i hi => hget i (mem_range.mp hi), sum_ite_eq', if_pos (mem_range.mpr hpos)]

/-- A complete and exact solver never needs the second attempt. -/
theorem complete_first {qp : Solver} (hqp : Exact qp) (hc : Complete qp) (dim : ℕ) (cn : ℚ) : FirstAttempt qp dim cn := by
  intro cs sol h
  rcases solveQP_ok h with h | ⟨h1, h⟩
  · exact h
  · exfalso
    have hf := (hqp.1 _ _ h).1
    rw [OneSlack.feasible_qpOf, ← OneSlack.feasible_qpOf (eps := 0)] at hf
    have := hc _ (oneSlack_optimal dim none cn cs 0 le_rfl ⟨_, hf⟩)
    rw [h1] at this
    simp at this

/-- The multipliers of a working set sum up block by block. -/
theorem sum_slices {Y : Type} (ws : NSlack.WS Y) (x : List ℚ) (n : ℕ) :
    (x.take (NSlack.offset ws n)).sum = ∑ j ∈ range n, (NSlack.slice ws x j).sum := by
  induction n with
  | zero => simp [NSlack.offset]
  | succ n ih =>
    have e : NSlack.offset ws (n + 1) = NSlack.offset ws n + (ws n).length := by
      simp [NSlack.offset, List.range_succ]
    rw [sum_range_succ, ← ih, e, List.take_add, List.sum_append]
    rfl

theorem getD_le_sum (x : List ℚ) (h : ∀ i < x.length, 0 ≤ x.getD i 0) (i : ℕ) (hi : i < x.length) : x.getD i 0 ≤ x.sum := by
  have hm : x.getD i 0 ∈ x := by rw [List.getD_eq_getElem _ _ hi]; exact List.getElem_mem _
  refine List.single_le_sum (fun a ha => ?_) _ hm
  obtain ⟨j, hj, rfl⟩ := List.mem_iff_getElem.mp ha
  have := h j hj
  rwa [List.getD_eq_getElem _ _ hj] at this

/-- The program of the n-slack learner has an optimal solution. -/
theorem nSlack_optimal {Y : Type} (dim : ℕ) (neg : Option (List ℕ)) (C : ℚ) (hC : 0 ≤ C) (n : ℕ) (ws : NSlack.WS Y) (eps : ℚ)
    (heps : 0 ≤ eps) : ∃ x, (NSlack.qpOf dim neg C n ws eps).Optimal x := by
  refine exists_optimal _ (gram_convex _ dim (NSlack.flat n ws) eps heps rfl (by simp [NSlack.qpOf]))
    ⟨n * C, fun x hx i hi => ?_⟩ ⟨List.replicate (NSlack.offset ws n) 0, ?_⟩
  · obtain ⟨h0, h1, h2, -⟩ := (NSlack.feasible_qpOf dim neg C n ws eps x).mp hx
    have hi' : i < x.length := by
      rw [h0, ← NSlack.flat_length]; simpa [NSlack.qpOf] using hi
    rw [abs_of_nonneg (h1 i hi')]
    refine (getD_le_sum x h1 i hi').trans ?_
    have e := sum_slices ws x n
    rw [List.take_of_length_le (by rw [h0])] at e
    rw [e]
    calc _ ≤ ∑ j ∈ range n, C := sum_le_sum fun j hj => h2 j (mem_range.mp hj)
      _ = n * C := by simp
  · rw [NSlack.feasible_qpOf]
    have hg : ∀ i, (List.replicate (NSlack.offset ws n) (0 : ℚ)).getD i 0 = 0 := by
      intro i
      rw [List.getD_eq_getElem?_getD, List.getElem?_replicate]
      split <;> rfl
    refine ⟨by simp, fun i _ => (hg i).ge, fun i _ => ?_, fun k _ => ?_⟩
    · have : ∀ a ∈ NSlack.slice ws (List.replicate (NSlack.offset ws n) 0) i, a = 0 := by
        intro a ha
        unfold NSlack.slice at ha
        exact (List.mem_replicate.mp (List.mem_of_mem_drop (List.mem_of_mem_take ha))).2
      rw [List.sum_eq_zero this]
      exact hC
    · rw [weightsOf_eq _ _ (by rw [NSlack.flat_length]; simp)]
      simp only [hg, zero_mul, sum_const_zero]
      exact le_rfl

/-- The program of the binary SVM has an optimal solution. -/
theorem svm_optimal (C : ℚ) (hC : 0 ≤ C) (X : Mat) (y : Vec) : ∃ x, (SVM.qpOf C X y).Optimal x := by
  let cs : List Con := (List.range X.rows).map fun i => (fun k => X.get i k * y.get i, 0)
  have hlen : cs.length = X.rows := by simp [cs]
  have hP : (SVM.qpOf C X y).P = cs.mapIdx fun i c => cs.mapIdx fun j d => dot X.cols c.1 d.1 + if i = j then 0 else 0 := by
    unfold SVM.qpOf
    apply List.ext_getElem (by simp [cs])
    intro i h1 h2
    apply List.ext_getElem (by simp [cs])
    intro j h3 h4
    simp [cs]
  refine exists_optimal _ (gram_convex _ X.cols cs 0 le_rfl hP (by rw [hlen]; simp [SVM.qpOf]))
    ⟨C, fun x hx i hi => ?_⟩ ⟨List.replicate X.rows 0, ?_⟩
  · obtain ⟨-, h1, -⟩ := (svm_feasible C X y x).mp hx
    have hi' : i < X.rows := by simpa [SVM.qpOf] using hi
    rw [abs_of_nonneg (h1 i hi').1]
    exact (h1 i hi').2
  · rw [svm_feasible]
    have hg : ∀ i, (List.replicate X.rows (0 : ℚ)).getD i 0 = 0 := by
      intro i
      rw [List.getD_eq_getElem?_getD, List.getElem?_replicate]
      split <;> rfl
    refine ⟨by simp, fun i _ => ?_, ?_⟩
    · rw [hg]; exact ⟨le_rfl, hC⟩
    · simp only [hg, mul_zero, sum_const_zero]

end Verif.QP
