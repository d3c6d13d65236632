import Verif.Model.MultiLabel
import Verif.Lemmas.GraphCRF
import Verif.Props.C23

/-!
# C17: MultiLabelClf — score equals weights times features
-/

namespace Verif.Props

open Finset Verif.Common Verif.Spec
open Verif.MultiLabel (takeVec dropVec unaryMarginals)

/-- Score of a set of labels, spelled out: every label that is present contributes its weights times the
features, every absent one the negative of that; every edge contributes the weight of the pair of
states of its labels. -/
def multiLabelScore (L F : ℕ) (edges : List (ℕ × ℕ)) (x w : ℕ → ℚ) (y : ℕ → ℕ) : ℚ :=
  ∑ l ∈ range L, (if y l = 1 then 1 else -1) * ∑ f ∈ range F, w (l * F + f) * x f +
  ∑ e ∈ range edges.length,
    w (L * F + e * 4 + y (edges.getD e (0, 0)).1 * 2 + y (edges.getD e (0, 0)).2)

theorem ml_unary_ok {m : MultiLabel.Model} {x w : Vec} (hx : x.size = m.nFeatures)
    (hw : w.size = MultiLabel.sizeJointFeature m) :
    MultiLabel.unaryPotentials m x w = .ok ⟨m.nLabels, 2, fun l s =>
      if s = 0 then -∑ f ∈ range m.nFeatures, x.get f * w.get (l * m.nFeatures + f)
      else ∑ f ∈ range m.nFeatures, x.get f * w.get (l * m.nFeatures + f)⟩ := by
  have : m.nLabels * m.nFeatures ≤ w.size := by
    rw [hw]; unfold MultiLabel.sizeJointFeature; rw [mul_comm]; omega
  have hs : (takeVec w (m.nLabels * m.nFeatures)).size = m.nLabels * m.nFeatures := by
    unfold takeVec; simp only; omega
  unfold MultiLabel.unaryPotentials
  simp only [bind, Except.bind, Vec.reshape2]
  rw [if_pos hs]
  simp only
  rw [if_neg (by omega)]
  rfl

theorem ml_pairwise_ok {m : MultiLabel.Model} {w : Vec}
    (hw : w.size = MultiLabel.sizeJointFeature m) :
    MultiLabel.pairwisePotentials m w = .ok ⟨m.edges.length, 2, 2, fun e a b =>
      w.get (m.nLabels * m.nFeatures + ((e * 2 + a) * 2 + b))⟩ := by
  unfold MultiLabel.pairwisePotentials Vec.reshape3 dropVec
  simp only
  rw [if_pos (by
    rw [hw]; unfold MultiLabel.sizeJointFeature
    rw [mul_comm m.nFeatures]; omega)]

theorem dot_ravel3 (t : Ten) (w : ℕ → ℚ) :
    dot t.ravel.size w t.ravel.get = ∑ i ∈ range t.d0, ∑ j ∈ range t.d1, ∑ k ∈ range t.d2,
      w ((i * t.d1 + j) * t.d2 + k) * t.get i j k := by
  unfold dot Ten.ravel
  simp only
  rw [sum_range_mul' (t.d0 * t.d1) t.d2, sum_range_mul' t.d0 t.d1]
  apply sum_congr rfl; intro i _
  apply sum_congr rfl; intro j hj
  apply sum_congr rfl; intro k hk
  rw [flat_div (mem_range.mp hk), flat_mod (mem_range.mp hk), flat_div (mem_range.mp hj),
    flat_mod (mem_range.mp hj)]

theorem ml_joint_ok {m : MultiLabel.Model} {x : Vec} {y : Labels} (hy : y.size = m.nLabels)
    (hv : Valid m.nLabels 2 y.get) (he : EdgesIn m.nLabels m.edges) :
    MultiLabel.jointFeature m x (.discrete y) =
      .ok ((unaryMarginals x y.size (fun l => 2 * (y.get l : ℚ) - 1)).ravel.append
        (Ten.ravel ⟨m.edges.length, 2, 2, fun e a b =>
          if a = y.get (edge m.edges e).1 ∧ b = y.get (edge m.edges e).2 then 1 else 0⟩)) := by
  unfold MultiLabel.jointFeature
  simp only
  rw [if_neg (not_not.mpr fun e hee => by
    have := he e hee
    exact ⟨by omega, by omega, hv _ this.1, hv _ this.2⟩)]

/-- **C17.** For every `MultiLabelClf`, sample, weight vector of the advertised size and every set of
labels (given as a 0/1 vector): potentials and joint feature are computed without error, the joint
feature has the advertised size, and weights times joint feature equals the energy under the
potentials used by inference; both equal `multiLabelScore`. -/
theorem C17_multilabel_energy (m : MultiLabel.Model) (x w : Vec) (y : Labels)
    (hx : x.size = m.nFeatures) (hw : w.size = MultiLabel.sizeJointFeature m)
    (hy : y.size = m.nLabels) (hv : Valid m.nLabels 2 y.get) (he : EdgesIn m.nLabels m.edges) :
    ∃ U P ψ, MultiLabel.unaryPotentials m x w = .ok U ∧ MultiLabel.pairwisePotentials m w = .ok P ∧
      MultiLabel.jointFeature m x (.discrete y) = .ok ψ ∧
      ψ.size = MultiLabel.sizeJointFeature m ∧
      w.dot ψ = computeEnergy U (.ten P) m.edges y ∧
      w.dot ψ = .ok (multiLabelScore m.nLabels m.nFeatures m.edges x.get w.get y.get) := by
  have hsize : ((unaryMarginals x y.size (fun l => 2 * (y.get l : ℚ) - 1)).ravel.append
        (Ten.ravel ⟨m.edges.length, 2, 2, fun e a b =>
          if a = y.get (edge m.edges e).1 ∧ b = y.get (edge m.edges e).2 then 1 else 0⟩)).size =
        MultiLabel.sizeJointFeature m := by
    unfold MultiLabel.sizeJointFeature Vec.append Mat.ravel Ten.ravel unaryMarginals
    simp only
    rw [hy, hx, mul_comm m.nLabels]; ring
  refine ⟨_, _, _, ml_unary_ok hx hw, ml_pairwise_ok hw, ml_joint_ok hy hv he, hsize, ?_⟩
  have hscore : ∀ l < m.nLabels, y.get l = 0 ∨ y.get l = 1 := by
    intro l hl; have := hv l hl; omega
  have hd : w.dot ((unaryMarginals x y.size (fun l => 2 * (y.get l : ℚ) - 1)).ravel.append
        (Ten.ravel ⟨m.edges.length, 2, 2, fun e a b =>
          if a = y.get (edge m.edges e).1 ∧ b = y.get (edge m.edges e).2 then 1 else 0⟩)) =
      .ok (multiLabelScore m.nLabels m.nFeatures m.edges x.get w.get y.get) := by
    unfold Vec.dot
    rw [hsize, if_pos hw, hw, ← hsize, dot_append, dot_ravel, dot_ravel3]
    congr 1
    unfold multiLabelScore
    congr 1
    · simp only [unaryMarginals]
      rw [hy, hx]
      apply sum_congr rfl; intro l hl
      rw [mul_sum]
      apply sum_congr rfl; intro f _
      rcases hscore l (mem_range.mp hl) with h | h
      · rw [h, if_neg (by decide)]; push_cast; ring
      · rw [h, if_pos rfl]; push_cast; ring
    · simp only [Mat.ravel, unaryMarginals]
      rw [hy, hx]
      apply sum_congr rfl; intro e hee
      have hm := he _ (edge_mem (mem_range.mp hee))
      have h1 := hv _ hm.1
      have h2 := hv _ hm.2
      have : m.edges.getD e (0, 0) = edge m.edges e := rfl
      rw [this]
      set a0 := y.get (edge m.edges e).1
      set b0 := y.get (edge m.edges e).2
      rw [sum_eq_single a0]
      · rw [sum_eq_single b0]
        · rw [if_pos ⟨rfl, rfl⟩, mul_one]
          congr 1
          ring
        · intro b _ hb; rw [if_neg (fun h => hb h.2), mul_zero]
        · intro h; exact absurd (mem_range.mpr h2) h
      · intro a _ ha
        apply sum_eq_zero
        intro b _
        rw [if_neg (fun h => ha h.1), mul_zero]
      · intro h; exact absurd (mem_range.mpr h1) h
  rw [hd]
  refine ⟨?_, rfl⟩
  rw [computeEnergy_ok ⟨m.nLabels, 2, _⟩ _ m.edges y
    ⟨m.edges.length, 2, 2, fun e a b => w.get (m.nLabels * m.nFeatures + ((e * 2 + a) * 2 + b))⟩
    (by simp [validateParams]) hy hv he]
  congr 1
  unfold multiLabelScore score
  congr 1
  · apply sum_congr rfl; intro l hl
    rcases hscore l (mem_range.mp hl) with h | h
    · rw [h, if_neg (by decide)]
      simp only [if_true]
      rw [neg_one_mul, neg_inj]
      apply sum_congr rfl; intro f _; ring
    · rw [h, if_pos rfl, one_mul]
      simp only [Nat.one_ne_zero, if_false]
      apply sum_congr rfl; intro f _; ring
  · apply sum_congr rfl; intro e _
    simp only
    congr 1
    ring

/-- **C22 (`MultiLabelClf`, characterisation).** The joint feature of a discrete labelling has
`len(y) * len(x) + 4 * n_edges` entries: the advertised number for a labelling and a sample of the
right sizes. -/
theorem C22_multilabel_size_partial (m : MultiLabel.Model) (x : Vec) (y : Labels) (ψ : Vec)
    (h : MultiLabel.jointFeature m x (.discrete y) = .ok ψ) :
    ψ.size = y.size * x.size + 4 * m.edges.length ∧
    (y.size = m.nLabels → x.size = m.nFeatures → ψ.size = MultiLabel.sizeJointFeature m) := by
  unfold MultiLabel.jointFeature at h
  simp only at h
  split at h
  · cases h
  · injection h with h
    have : ψ.size = y.size * x.size + 4 * m.edges.length := by
      rw [← h]
      unfold Vec.append Mat.ravel Ten.ravel unaryMarginals
      simp only
      ring
    refine ⟨this, fun h1 h2 => ?_⟩
    rw [this, h1, h2, mul_comm m.nLabels]
    rfl

/-- **C22 is false for `MultiLabelClf` given a labelling of the wrong length**: `joint_feature` does not
check it and returns a vector of the wrong size instead of raising. -/
theorem C22_violated_multilabel :
    ∃ (m : MultiLabel.Model) (x : Vec) (y : Labels) (ψ : Vec), x.size = m.nFeatures ∧
      MultiLabel.jointFeature m x (.discrete y) = .ok ψ ∧
      ψ.size ≠ MultiLabel.sizeJointFeature m :=
  ⟨⟨3, 1, []⟩, ⟨1, fun _ => 1⟩, ⟨2, fun _ => 1⟩, _, rfl, by
    unfold MultiLabel.jointFeature
    simp only
    rw [if_neg (by simp)], by decide⟩

theorem append_get (a b : Vec) (k : ℕ) :
    (a.append b).get k = if k < a.size then a.get k else b.get (k - a.size) := rfl

/-- **C23 (`MultiLabelClf`).** The joint feature of a relaxed labelling is affine in the marginals
(coefficients summing to one; it is not homogeneous because the sign `2μ - 1` is not), and on the
one-hot encoding of a labelling it equals the discrete joint feature. -/
theorem C23_multilabel_affine (m : MultiLabel.Model) (x : Vec) (u u' p p' : ℕ → ℚ) (a b : ℚ)
    (hab : a + b = 1) :
    ∃ ψ ψ' ψ'',
      MultiLabel.jointFeature m x
        (.relaxed ⟨m.nLabels * 2, u⟩ ⟨m.edges.length * 2 ^ 2, p⟩) = .ok ψ ∧
      MultiLabel.jointFeature m x
        (.relaxed ⟨m.nLabels * 2, u'⟩ ⟨m.edges.length * 2 ^ 2, p'⟩) = .ok ψ' ∧
      MultiLabel.jointFeature m x
        (.relaxed ⟨m.nLabels * 2, fun k => a * u k + b * u' k⟩
          ⟨m.edges.length * 2 ^ 2, fun k => a * p k + b * p' k⟩) = .ok ψ'' ∧
      ∀ k, ψ''.get k = a * ψ.get k + b * ψ'.get k := by
  have hok : ∀ u p : ℕ → ℚ, MultiLabel.jointFeature m x
      (.relaxed ⟨m.nLabels * 2, u⟩ ⟨m.edges.length * 2 ^ 2, p⟩) =
      .ok ((unaryMarginals x m.nLabels (fun l => 2 * u (l * 2 + 1) - 1)).ravel.append
        ⟨m.edges.length * 2 ^ 2, p⟩) := by
    intro u p
    unfold MultiLabel.jointFeature
    simp only
    rw [if_neg (by omega)]
    congr 4
    omega
  refine ⟨_, _, _, hok u p, hok u' p', hok _ _, ?_⟩
  intro k
  simp only [append_get, Mat.ravel, unaryMarginals]
  split
  · have : b = 1 - a := by linarith
    subst this
    ring
  · rfl

/-- **C23 (`MultiLabelClf`), one-hot part.** -/
theorem C23_multilabel_onehot (m : MultiLabel.Model) (x : Vec) (y : Labels)
    (hy : y.size = m.nLabels) (hv : Valid m.nLabels 2 y.get) (he : EdgesIn m.nLabels m.edges) :
    ∃ ψ ψ', MultiLabel.jointFeature m x (.discrete y) = .ok ψ ∧
      MultiLabel.jointFeature m x
        (.relaxed (hotUnary m.nLabels 2 y.get) (hotEdges 2 m.edges y.get)) = .ok ψ' ∧
      ψ'.size = ψ.size ∧ ∀ k < ψ.size, ψ'.get k = ψ.get k := by
  refine ⟨_, ((unaryMarginals x m.nLabels
    (fun l => 2 * (hotUnary m.nLabels 2 y.get).get (l * 2 + 1) - 1)).ravel.append
      (hotEdges 2 m.edges y.get)), ml_joint_ok hy hv he, ?_, ?_, ?_⟩
  · have hs : (hotUnary m.nLabels 2 y.get).size = m.nLabels * 2 := rfl
    unfold MultiLabel.jointFeature
    simp only
    rw [if_neg (by omega), hs]
    congr 4
    omega
  · simp only [Vec.append, Mat.ravel, unaryMarginals, Ten.ravel, hotEdges]
    rw [hy, mul_assoc, pow_two]
  · intro k hk
    simp only [append_get, Mat.ravel, unaryMarginals, hotUnary, hotEdges, Ten.ravel, hy]
    simp only [Vec.append, Mat.ravel, unaryMarginals, Ten.ravel, hy] at hk
    split
    · rename_i hlt
      have hl : k / x.size < m.nLabels := Nat.div_lt_of_lt_mul (by rw [mul_comm]; exact hlt)
      rw [flat_div (by omega), flat_mod (by omega)]
      have := hv _ hl
      have h01 : y.get (k / x.size) = 0 ∨ y.get (k / x.size) = 1 := by omega
      rcases h01 with h | h <;> rw [h] <;> norm_num
    · rfl

/-- concrete instance: three labels, two features, one edge. -/
example : (do
    let m : MultiLabel.Model := ⟨3, 2, [(0, 2)]⟩
    let x : Vec := ⟨2, fun f => f + 1⟩
    let y : Labels := ⟨3, fun l => if l = 1 then 0 else 1⟩
    let w : Vec := ⟨10, fun k => [1, 2, 3, 4, 5, 6, 0, 0, 0, 9].getD k 0⟩
    let U ← MultiLabel.unaryPotentials m x w
    let P ← MultiLabel.pairwisePotentials m w
    let ψ ← MultiLabel.jointFeature m x (.discrete y)
    pure (← w.dot ψ, ← computeEnergy U (.ten P) m.edges y, ψ.size)) =
    (.ok (20, 20, 10) : Except PyErr (ℚ × ℚ × ℕ)) := by decide +kernel

end Verif.Props
