import Verif.Model.Batch
import Verif.Props.C18
import Verif.Props.C19

/-!
# C25: batch operations equal per-sample operations
-/

namespace Verif.Props

open Finset Verif.Common Verif.Unstructured Verif.Batch

/-! ### generic model -/

theorem batchLoop_spec {α : Type} (jf : α → Except PyErr Vec) (size : ℕ) :
    ∀ (l : List α) (acc : Vec), acc.size = size →
      (∀ r, batchLoop jf l acc = .ok r ↔
        ∃ vs : List Vec, List.Forall₂ (fun a v => jf a = .ok v ∧ v.size = size) l vs ∧
          r.size = size ∧ ∀ k, r.get k = acc.get k + (vs.map (fun v => v.get k)).sum) := by
  intro l
  induction l with
  | nil =>
    intro acc hacc r
    simp only [batchLoop]
    constructor
    · intro h
      cases h
      exact ⟨[], List.Forall₂.nil, hacc, fun k => by simp⟩
    · rintro ⟨vs, hvs, hs, hk⟩
      cases hvs
      congr 1
      cases acc; cases r
      simp only at hacc hs hk ⊢
      rw [hacc, hs]
      congr 1
      funext k
      simpa using (hk k).symm
  | cons a l ih =>
    intro acc hacc r
    simp only [batchLoop]
    cases hj : jf a with
    | error err =>
      simp only
      constructor
      · intro h; cases h
      · rintro ⟨vs, hvs, _⟩
        cases hvs with
        | cons h _ => rw [hj] at h; cases h.1
    | ok v =>
      simp only
      by_cases hv : v.size = size
      · have hadd : addInto acc v = .ok ⟨acc.size, fun k => acc.get k + v.get k⟩ := by
          unfold addInto; rw [if_neg (by omega)]
        rw [hadd]
        simp only
        rw [ih ⟨acc.size, fun k => acc.get k + v.get k⟩ hacc r]
        constructor
        · rintro ⟨vs, hvs, hs, hk⟩
          refine ⟨v :: vs, List.Forall₂.cons ⟨hj, hv⟩ hvs, hs, fun k => ?_⟩
          rw [hk k]; simp only [List.map_cons, List.sum_cons]; ring
        · rintro ⟨vs, hvs, hs, hk⟩
          cases hvs with
          | @cons _ v' _ vs' h hvs' =>
            rw [hj] at h
            obtain ⟨h1, h2⟩ := h
            injection h1 with h1
            subst h1
            refine ⟨vs', hvs', hs, fun k => ?_⟩
            rw [hk k]; simp only [List.map_cons, List.sum_cons]; ring
      · have hadd : addInto acc v = .error .valueError := by
          unfold addInto; rw [if_pos (by omega)]
        rw [hadd]
        simp only
        constructor
        · intro h; cases h
        · rintro ⟨vs, hvs, _⟩
          cases hvs with
          | cons h _ =>
            rw [hj] at h
            obtain ⟨h1, h2⟩ := h
            injection h1 with h1
            subst h1
            exact absurd h2 hv

/-- **C25 (generic `batch_joint_feature`).** It succeeds with result `r` exactly when the joint feature of
every sample exists and has the advertised size, and then `r` is their entrywise sum. -/
theorem C25_batch_joint_feature {α : Type} (size : ℕ) (jf : α → Except PyErr Vec) (l : List α)
    (r : Vec) :
    batchJointFeature size jf l = .ok r ↔
      ∃ vs : List Vec, List.Forall₂ (fun a v => jf a = .ok v ∧ v.size = size) l vs ∧
        r.size = size ∧ ∀ k, r.get k = (vs.map (fun v => v.get k)).sum := by
  unfold batchJointFeature
  rw [batchLoop_spec jf size l ⟨size, fun _ => 0⟩ rfl r]
  simp only [zero_add]

/-- **C25 (generic `batch_inference`, `batch_loss`, `batch_loss_augmented_inference`).** They return the
list `rs` exactly when the per-sample function succeeds on every sample with the corresponding entry
of `rs`, in order. -/
theorem C25_batch_comprehension {α β : Type} (f : α → Except PyErr β) (l : List α) (rs : List β) :
    comprehension f l = .ok rs ↔ List.Forall₂ (fun a b => f a = .ok b) l rs := by
  induction l generalizing rs with
  | nil =>
    simp only [comprehension]
    constructor
    · intro h; cases h; exact List.Forall₂.nil
    · intro h; cases h; rfl
  | cons a l ih =>
    simp only [comprehension]
    constructor
    · intro h
      split at h
      · cases h
      · rename_i b hb
        split at h
        · cases h
        · rename_i bs hbs
          cases h
          exact List.Forall₂.cons hb ((ih bs).mp hbs)
    · intro h
      cases h with
      | cons h1 h2 =>
        rw [h1]
        simp only
        rw [(ih _).mpr h2]

/-! ### predict -/

theorem parallelSlots_spec {α β : Type} (f : α → β) (l : List α) (schedule : List ℕ) (j : ℕ)
    (init : ℕ → Option β) :
    schedule.foldl (fun slots i => fun j => if j = i then (l[i]?).map f else slots j) init j =
      if j ∈ schedule then (l[j]?).map f else init j := by
  induction schedule generalizing init with
  | nil => simp
  | cons i s ih =>
    simp only [List.foldl_cons]
    rw [ih]
    by_cases hj : j ∈ s
    · simp [hj]
    · by_cases hi : j = i
      · simp [hi]
      · simp [hj, hi]

/-- **C25 (`predict`).** If every sample's task is run (in any order, any number of times), `predict`
returns the inference result of every sample in order: the same list for every number of jobs and
every schedule. -/
theorem C25_predict {X Y : Type} (inference : X → Y) (l : List X) (nJobs : ℤ) (schedule : List ℕ)
    (h : ∀ i < l.length, i ∈ schedule) :
    predict inference (fun l => l.map inference) nJobs schedule l
      = (l.map inference).map some := by
  unfold predict
  split
  · unfold parallelRun
    apply List.ext_getElem
    · simp
    · intro i h1 h2
      simp only [List.length_map, List.length_range] at h1
      simp only [List.getElem_map, List.getElem_range, parallelSlots]
      rw [parallelSlots_spec, if_pos (h i h1), List.getElem?_eq_getElem h1]
      rfl
  · rfl

/-! ### BinaryClf -/

/-- Row `i` of a feature matrix. -/
def row (X : Mat) (i : ℕ) : Vec := ⟨X.cols, X.get i⟩

/-- **C25 (BinaryClf).** `batch_joint_feature` is the sum of the joint features. -/
theorem C25_binary_joint_feature (X : Mat) (Y : ILabels) (hY : Y.size = X.rows)
    (hv : ∀ i < X.rows, Y.get i = -1 ∨ Y.get i = 1) :
    ∃ (r : Vec) (ψ : ℕ → Vec), binBatchJointFeature X Y = .ok r ∧ r.size = X.cols ∧
      (∀ i < X.rows, binJointFeature (row X i) (Y.get i) = .ok (ψ i)) ∧
      ∀ k, r.get k = ∑ i ∈ range X.rows, (ψ i).get k := by
  refine ⟨_, fun i => ⟨X.cols, fun k => (Y.get i : ℚ) * X.get i k / 2⟩,
    by unfold binBatchJointFeature; rw [if_neg (by omega)], rfl, ?_, ?_⟩
  · intro i hi
    unfold binJointFeature
    rw [if_neg (not_not.mpr (hv i hi))]
    rfl
  · intro k
    simp only
    apply sum_congr rfl; intro i _; ring

/-- **C25 (BinaryClf).** `batch_inference` agrees with `inference` sample by sample. -/
theorem C25_binary_inference (X : Mat) (w : Vec) (hw : X.cols = w.size) :
    ∃ r, binBatchInference X w = .ok r ∧ r.size = X.rows ∧
      ∀ i < X.rows, binInference (row X i) w = .ok (r.get i) := by
  refine ⟨_, by unfold binBatchInference; rw [if_neg (by omega)], rfl, ?_⟩
  intro i _
  unfold binInference Vec.dot row
  simp only
  rw [if_pos hw]

/-- **C25 (BinaryClf).** `batch_loss_augmented_inference` agrees with the per-sample version (including
the result `0` at the margin, see C19). -/
theorem C25_binary_loss_augmented (X : Mat) (Y : ILabels) (w : Vec) (hw : X.cols = w.size)
    (hY : Y.size = X.rows) :
    ∃ r, binBatchLossAugmented X Y w = .ok r ∧ r.size = X.rows ∧
      ∀ i < X.rows, binLossAugmented (row X i) (Y.get i) w = .ok (r.get i) := by
  refine ⟨_, by unfold binBatchLossAugmented; rw [if_neg (by omega), if_neg (by omega)], rfl, ?_⟩
  intro i _
  unfold binLossAugmented Vec.dot row
  simp only
  rw [if_pos hw]

/-- **C25 (BinaryClf).** `batch_loss` agrees with `loss`. -/
theorem C25_binary_loss (Y Yhat : ILabels) (h : Y.size = Yhat.size) :
    ∃ r, binBatchLoss Y Yhat = .ok r ∧ r.size = Y.size ∧
      ∀ i < Y.size, r.get i = binLoss (Y.get i) (Yhat.get i) := by
  exact ⟨_, by unfold binBatchLoss; rw [if_neg (by omega)], rfl, fun i _ => rfl⟩

/-- The batch version of `joint_feature` accepts the non-label `0`, which the per-sample version
rejects. -/
theorem C25_binary_joint_feature_unchecked (X : Mat) (Y : ILabels) (hY : Y.size = X.rows)
    (i : ℕ) (hi : Y.get i = 0) :
    (∃ r, binBatchJointFeature X Y = .ok r) ∧
      binJointFeature (row X i) (Y.get i) = .error .valueError := by
  constructor
  · exact ⟨_, by unfold binBatchJointFeature; rw [if_neg (by omega)]⟩
  · rw [hi]; simp [binJointFeature]

/-! ### MultiClassClf -/

theorem csFold_spec (X : Mat) (Y : Labels) (n : ℕ) (out : ℕ → ℕ → ℚ) (s j : ℕ) (hj : j < X.cols) :
    (List.range n).foldl (csStep X Y) out s j =
      out s j + ∑ i ∈ range n, if s = Y.get i then X.get i j else 0 := by
  induction n with
  | zero => simp
  | succ n ih =>
    rw [List.range_succ, List.foldl_append, List.foldl_cons, List.foldl_nil, sum_range_succ]
    unfold csStep
    by_cases h : s = Y.get n
    · rw [if_pos ⟨h, hj⟩, if_pos h]
      have := ih
      unfold csStep at this
      rw [this]; ring
    · rw [if_neg (fun hh => h hh.1), if_neg h]
      have := ih
      unfold csStep at this
      rw [this]; ring

/-- **C25 (MultiClassClf).** `batch_joint_feature` is the sum of the per-sample joint features, with and
without `rescale_C`. -/
theorem C25_multiclass_joint_feature (m : MultiClass) (X : Mat) (Y T : Labels)
    (hX : X.cols = m.nFeatures) (hY : Y.size = X.rows) (hT : T.size = X.rows)
    (hv : ∀ i < X.rows, Y.get i < m.nStates) (ht : ∀ i < X.rows, T.get i < m.classWeight.size) :
    ∃ (r : Vec) (ψ : ℕ → Vec), mcBatchJointFeature m X Y (some T) = .ok r ∧ r.size = m.size ∧
      (∀ i < X.rows, mcJointFeature m (row X i) (Y.get i) (some (T.get i)) = .ok (ψ i)) ∧
      ∀ k < m.size, r.get k = ∑ i ∈ range X.rows, (ψ i).get k := by
  rcases hr : m.rescaleC with _ | _
  · refine ⟨Mat.ravel ⟨m.nStates, m.nFeatures,
        (List.range X.rows).foldl (csStep X Y) (fun _ _ => 0)⟩,
      fun i => Mat.ravel ⟨m.nStates, m.nFeatures, fun s f => if s = Y.get i then X.get i f else 0⟩,
      ?_, rfl, ?_, ?_⟩
    · unfold mcBatchJointFeature crammerSinger
      rw [hr]
      simp only [Bool.false_eq_true, if_false]
      rw [if_neg (by omega), if_neg (by omega), if_neg (not_not.mpr hv)]
    · intro i hi
      unfold mcJointFeature
      rw [if_neg (by have := hv i hi; omega), if_neg (by simp [row, hX]), hr]
      rfl
    · intro k hk
      unfold Mat.ravel
      simp only
      have hF : 0 < m.nFeatures := by
        rcases Nat.eq_zero_or_pos m.nFeatures with h | h
        · simp [MultiClass.size, h] at hk
        · exact h
      rw [csFold_spec X Y _ _ _ _ (by rw [hX]; exact Nat.mod_lt _ hF), zero_add]
  · refine ⟨Mat.ravel ⟨m.nStates, m.nFeatures, fun l f =>
        ∑ i ∈ (range X.rows).filter (fun i => Y.get i = l),
          X.get i f * m.classWeight.get (T.get i)⟩,
      fun i => Mat.ravel ⟨m.nStates, m.nFeatures,
        fun s f => (if s = Y.get i then X.get i f else 0) * m.classWeight.get (T.get i)⟩,
      ?_, rfl, ?_, ?_⟩
    · unfold mcBatchJointFeature
      rw [hr]
      simp only [if_true]
      rw [if_neg (by omega), if_neg (by omega), if_neg (not_not.mpr (fun i hi _ => ht i (by omega)))]
    · intro i hi
      unfold mcJointFeature
      rw [if_neg (by have := hv i hi; omega), if_neg (by simp [row, hX]), hr]
      simp only [if_true]
      rw [if_neg (by have := ht i hi; omega)]
      rfl
    · intro k hk
      unfold Mat.ravel
      simp only
      rw [sum_filter]
      apply sum_congr rfl
      intro i _
      by_cases h : Y.get i = k / m.nFeatures
      · rw [if_pos h, if_pos h.symm]
      · rw [if_neg h, if_neg (Ne.symm h)]; ring

theorem mcBatchScores_ok {m : MultiClass} {X : Mat} {w : Vec} (hS : 0 < m.nStates)
    (hX : X.cols = m.nFeatures) (hw : w.size = m.size) :
    mcBatchScores m X w = .ok ⟨X.rows, m.nStates,
      fun i c => ∑ f ∈ range X.cols, X.get i f * w.get (c * m.nFeatures + f)⟩ := by
  have h : w.size / m.nStates = m.nFeatures := by
    rw [hw]; exact Nat.mul_div_cancel_left _ hS
  unfold mcBatchScores
  rw [if_neg (by omega), if_neg (by rw [hw]; simp [MultiClass.size]), h]
  unfold Vec.reshape2
  rw [if_pos (by rw [hw]; rfl)]
  unfold Mat.mul Mat.T
  simp only
  rw [if_pos hX]

theorem batchScore_eq {m : MultiClass} (X : Mat) (w : Vec) (hX : X.cols = m.nFeatures) (i c : ℕ) :
    ∑ f ∈ range X.cols, X.get i f * w.get (c * m.nFeatures + f) =
      classScore m.nFeatures w.get (row X i).get c := by
  unfold classScore row
  rw [hX]
  apply sum_congr rfl; intro f _; ring

/-- **C25 (MultiClassClf).** `batch_inference` agrees with `inference` sample by sample. -/
theorem C25_multiclass_inference (m : MultiClass) (X : Mat) (w : Vec) (hS : 0 < m.nStates)
    (hX : X.cols = m.nFeatures) (hw : w.size = m.size) :
    ∃ r, mcBatchInference m X w = .ok r ∧ r.size = X.rows ∧
      ∀ i < X.rows, mcInference m (row X i) w = .ok (r.get i) := by
  refine ⟨_, by unfold mcBatchInference; rw [mcBatchScores_ok hS hX hw], rfl, ?_⟩
  intro i _
  unfold mcInference
  rw [mcScores_ok (x := row X i) hS hX hw]
  simp only
  congr 1
  apply argmaxN_congr
  intro c _
  rw [batchScore_eq X w hX]

/-- rank of a cell in the mask of the other classes. -/
theorem maskRank_other (S n : ℕ) (Y : Labels) (hv : ∀ i < n, Y.get i < S) (i c : ℕ) (hi : i < n)
    (hc : c < S) (hne : c ≠ Y.get i) :
    maskRank (otherClasses Y) S i c / (S - 1) = i := by
  have hcount : ∀ r < n, ((range S).filter (fun k => otherClasses Y r k = true)).card = S - 1 := by
    intro r hr
    have : (range S).filter (fun k => otherClasses Y r k = true) = (range S).erase (Y.get r) := by
      ext k
      simp [otherClasses, and_comm]
    rw [this, card_erase_of_mem (mem_range.mpr (hv r hr)), card_range]
  have h1 : ∑ r ∈ range i, ((range S).filter (fun k => otherClasses Y r k = true)).card
      = i * (S - 1) := by
    rw [sum_congr rfl (fun r hr => hcount r (by have := mem_range.mp hr; omega))]
    simp
  have h2 : ((range c).filter (fun k => otherClasses Y i k = true)).card < S - 1 := by
    rw [← hcount i hi]
    apply card_lt_card
    rw [ssubset_iff_of_subset]
    · exact ⟨c, by simp [otherClasses, hc, hne], by simp⟩
    · intro k hk
      simp only [mem_filter, mem_range] at hk ⊢
      exact ⟨by omega, hk.2⟩
  unfold maskRank
  rw [h1]
  exact flat_div h2

/-- **C25 (MultiClassClf).** `batch_loss_augmented_inference` agrees with the per-sample version, with
class weights, without, and with `rescale_C`. (`huni`: when the flag `uniform_class_weight` is set
all class weights are one, which `_set_class_weight` guarantees.) -/
theorem C25_multiclass_loss_augmented (m : MultiClass) (X : Mat) (Y : Labels) (w : Vec)
    (hS : 0 < m.nStates) (hX : X.cols = m.nFeatures) (hw : w.size = m.size)
    (hY : Y.size = X.rows) (hv : ∀ i < X.rows, Y.get i < m.nStates)
    (hc : m.classWeight.size = m.nStates)
    (huni : m.uniform = true → ∀ c < m.nStates, m.classWeight.get c = 1) :
    ∃ r, mcBatchLossAugmented m X Y w = .ok r ∧ r.size = X.rows ∧
      ∀ i < X.rows, mcLossAugmented m (row X i) (Y.get i) w = .ok (r.get i) := by
  by_cases hflag : m.rescaleC = true ∨ m.uniform = true
  · refine ⟨_, by
      unfold mcBatchLossAugmented
      rw [mcBatchScores_ok hS hX hw]
      simp only
      rw [if_neg (by omega), if_pos hflag], rfl, ?_⟩
    intro i hi
    unfold mcLossAugmented
    rw [mcScores_ok (x := row X i) hS hX hw]
    simp only
    rcases hr : m.rescaleC with _ | _
    · have hu : m.uniform = true := by simpa [hr] using hflag
      simp only [Bool.false_eq_true, if_false]
      rw [if_neg (by have := hv i hi; omega)]
      congr 1
      apply argmaxN_congr
      intro c _
      rw [huni hu _ (hv i hi), batchScore_eq X w hX]
      simp [otherClasses]
    · simp only [if_true]
      congr 1
      apply argmaxN_congr
      intro c _
      rw [batchScore_eq X w hX]
      simp [otherClasses]
  · have hr : m.rescaleC = false := by
      rcases h : m.rescaleC with _ | _
      · rfl
      · exact absurd (Or.inl h) hflag
    have hcount : maskRank (otherClasses Y) m.nStates X.rows 0 = X.rows * (m.nStates - 1) := by
      unfold maskRank
      simp only [range_zero, filter_empty, card_empty, add_zero]
      have hrow : ∀ r ∈ range X.rows,
          ((range m.nStates).filter (fun k => otherClasses Y r k = true)).card = m.nStates - 1 := by
        intro r hrr
        have hlt := hv r (mem_range.mp hrr)
        have : (range m.nStates).filter (fun k => otherClasses Y r k = true)
            = (range m.nStates).erase (Y.get r) := by
          ext k
          simp [otherClasses, and_comm]
        rw [this, card_erase_of_mem (mem_range.mpr hlt), card_range]
      rw [sum_congr rfl hrow]
      simp
    refine ⟨_, by
      unfold mcBatchLossAugmented
      rw [mcBatchScores_ok hS hX hw]
      simp only
      rw [if_neg (by omega), if_neg hflag, if_neg (not_not.mpr (fun i hi => by
        rw [hc]; exact hv i (by omega)))]
      unfold addMasked npRepeat
      simp only
      rw [if_neg (by rw [hcount, hY]; simp)], rfl, ?_⟩
    intro i hi
    unfold mcLossAugmented
    rw [mcScores_ok (x := row X i) hS hX hw, hr]
    simp only [Bool.false_eq_true, if_false]
    rw [if_neg (by have := hv i hi; omega)]
    congr 1
    apply argmaxN_congr
    intro c hcS
    by_cases h : c = Y.get i
    · simp only [otherClasses, h, ne_eq, not_true, if_false, decide_false, Bool.false_eq_true]
      rw [← batchScore_eq X w hX]
    · rw [maskRank_other m.nStates X.rows Y hv i c hi hcS h]
      simp only [otherClasses, h, ne_eq, not_false_eq_true, if_true, decide_true]
      rw [← batchScore_eq X w hX]

/-- **C25 (MultiClassClf).** `batch_loss` agrees with `loss`. -/
theorem C25_multiclass_loss (m : MultiClass) (Y Yhat : Labels) (h : Y.size = Yhat.size)
    (hv : ∀ i < Y.size, Y.get i < m.classWeight.size) :
    ∃ r, mcBatchLoss m Y Yhat = .ok r ∧ r.size = Y.size ∧
      ∀ i < Y.size, mcLoss m (Y.get i) (Yhat.get i) = .ok (r.get i) := by
  refine ⟨_, by unfold mcBatchLoss; rw [if_neg (by omega), if_neg (not_not.mpr hv)], rfl, ?_⟩
  intro i hi
  unfold mcLoss
  rw [if_neg (by have := hv i hi; omega)]

/-- concrete instance: three classes with weights 1, 2, 5 and three samples, whose true classes differ. -/
example : (do
    let m : MultiClass := ⟨3, 2, ⟨3, fun c => [1, 2, 5].getD c 0⟩, false, false⟩
    let X : Mat := ⟨3, 2, fun i f => if f = 0 then i else 1 - i⟩
    let w : Vec := ⟨6, fun k => [3, 1, 0, 2, 4, 0].getD k 0⟩
    let Y : Labels := ⟨3, fun i => 2 - i⟩
    let r ← mcBatchLossAugmented m X Y w
    pure ((List.range 3).map r.get, (List.range 3).map fun i =>
      match mcLossAugmented m (row X i) (Y.get i) w with | .ok y => y | .error _ => 9)) =
      (.ok ([1, 2, 2], [1, 2, 2]) : Except PyErr (List ℕ × List ℕ)) :=
  by decide +kernel

/-- concrete instance of the schedule: tasks finishing in the order 2, 0, 1. -/
example : parallelRun (fun x : ℕ => x * x) [3, 4, 5] [2, 0, 1] = [some 9, some 16, some 25] := by
  decide

end Verif.Props
