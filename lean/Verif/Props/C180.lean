import Verif.Spec.Reordered
import Verif.Lemmas.Sym
import Verif.Lemmas.ReadsEntries
import Verif.Props.C150

/-!
# C180: the order of the features does not matter
-/

namespace Verif.Props

open Finset Verif.Spec Verif.Lemmas Verif.Learner Verif.Common

variable {X X' Y : Type} {ρ : Equiv.Perm ℕ} {f : X → X'} {m : SModel X Y} {m' : SModel X' Y}

theorem multiple_one {d : ℕ} {w w' : ℕ → ℚ} : Multiple ρ 1 d w w' ↔ InOrder ρ d w w' := by
  unfold Multiple InOrder
  simp only [one_mul]

theorem reordered_units (h : Reordered ρ f m m') : OtherUnits ρ 1 1 f m m' where
  order := h.order
  dim := h.dim
  rescaleC := h.rescaleC
  isTuple := h.isTuple
  feature x y := multiple_one.mpr (h.feature x y)
  featureR x y t := multiple_one.mpr (h.featureR x y t)
  loss y z := by rw [h.loss, one_mul]
  continuousLoss y z := by rw [h.continuousLoss, one_mul]
  maxLoss y := by rw [h.maxLoss, one_mul]
  lossAug x y w w' r hw := h.lossAug x y w w' r (multiple_one.mp (by rwa [div_one] at hw))
  inference x w w' hw := h.inference x w w' (multiple_one.mp (by rwa [div_one] at hw))

/-- StructuredPerceptron: with its features in another order it learns the weights in that order, with the same loss curve. -/
theorem C180_perceptron (h : Reordered ρ f m m') (o o' : Perceptron.Obj) (hcfg : o'.cfg = o.cfg) (havg : o'.average = o.average)
    (samples : List (X × Y)) :
    BothRun (fun r r' => InOrder ρ m.dim r.w r'.w ∧ r'.lossCurve = r.lossCurve ∧ r'.average = r.average)
      (Perceptron.fit m o samples) (Perceptron.fit m' o' (samples.map fun s => (f s.1, s.2))) := by
  have hr := C150_perceptron one_pos (reordered_units h) (c := 1)
    (fun x w w' hw => h.inference x w w' (multiple_one.mp (by rwa [mul_one] at hw))) o o' (by rw [hcfg]; simp) havg samples
  unfold inUnits at hr
  generalize Perceptron.fit m o samples = r at hr ⊢
  generalize Perceptron.fit m' o' _ = r' at hr ⊢
  cases hr with
  | error e => exact .error e
  | ok hr => exact .ok ⟨multiple_one.mp (by simpa only [mul_one] using hr.1), hr.2⟩

theorem subObjUnits_one (o : Subgradient.Obj) (w : Option W) : subObjUnits 1 1 o w = { o with w := w } := by
  unfold subObjUnits subConfigUnits
  simp

/-- SubgradientSSVM, cold or warm start: everything but the order of the weights is the same. -/
theorem C180_subgradient (h : Reordered ρ f m m') (order : ℕ → List (X × Y)) (o : Subgradient.Obj)
    (w' : Option W) (hw : Option.Rel (InOrder ρ m.dim) o.w w') (samples : List (X × Y)) (warm : Bool) :
    BothRun (fun r r' => ∃ w v, r.w = some w ∧ InOrder ρ m.dim w v ∧ r' = { r with w := some v })
      (Subgradient.fit m order o samples warm)
      (Subgradient.fit m' (fun i => (order i).map fun s => (f s.1, s.2)) { o with w := w' }
        (samples.map fun s => (f s.1, s.2)) warm) := by
  have hr := C150_subgradient one_pos one_pos (reordered_units h) order o w' (by
      intro w e
      rw [e] at hw
      cases hw with
      | some hv => exact ⟨_, rfl, by rw [div_one]; exact multiple_one.mpr hv⟩) (by
      intro e
      rw [e] at hw
      cases hw with
      | none => rfl) samples warm
  rw [subObjUnits_one] at hr
  unfold inUnits at hr
  generalize Subgradient.fit m order o samples warm = r at hr ⊢
  generalize Subgradient.fit m' _ _ _ warm = r' at hr ⊢
  cases hr with
  | error e => exact .error e
  | ok hr =>
    obtain ⟨w, e, v, hv, e'⟩ := hr
    exact .ok ⟨w, v, e, multiple_one.mp (by rwa [div_one] at hv), by rw [e', subObjUnits_one]⟩

theorem fwObjUnits_one (o : FrankWolfe.Obj) (w : Option W) : fwObjUnits 1 1 o w = { o with w := w } := by
  unfold fwObjUnits fwConfigUnits fwCurvesUnits
  simp

/-- FrankWolfeSSVM, with and without line search, in batch and block-coordinate mode: everything but the order of the weights is the
same. -/
theorem C180_frank_wolfe (h : Reordered ρ f m m') (order : ℕ → List ℕ) (o : FrankWolfe.Obj)
    (w' : Option W) (hw : Option.Rel (InOrder ρ m.dim) o.w w') (samples : List (X × Y)) :
    BothRun (fun r r' => ∃ w v, r.w = some w ∧ InOrder ρ m.dim w v ∧ r' = { r with w := some v })
      (FrankWolfe.fit m order o samples) (FrankWolfe.fit m' order { o with w := w' } (samples.map fun s => (f s.1, s.2))) := by
  have hr := C150_frank_wolfe_partial one_pos one_pos (reordered_units h) order o (.inr (by simp)) w' (by
      intro w e
      rw [e] at hw
      cases hw with
      | some hv => exact ⟨_, rfl, by rw [div_one]; exact multiple_one.mpr hv⟩) (by
      intro e
      rw [e] at hw
      cases hw with
      | none => rfl) samples
  rw [fwObjUnits_one] at hr
  unfold inUnits at hr
  generalize FrankWolfe.fit m order o samples = r at hr ⊢
  generalize FrankWolfe.fit m' order _ _ = r' at hr ⊢
  cases hr with
  | error e => exact .error e
  | ok hr =>
    obtain ⟨w, e, v, hv, e'⟩ := hr
    exact .ok ⟨w, v, e, multiple_one.mp (by rwa [div_one] at hv), by rw [e', fwObjUnits_one]⟩

/-- OneSlackSSVM, from scratch, with exact solvers and keeping inactive constraints: with the indices in `negativity_constraint` renamed
accordingly, everything but the order of the weights is the same. -/
theorem C180_one_slack (h : Reordered ρ f m m') {qp qp' : QP.Solver}
    (hq : QP.Exact qp) (hqc : QP.Complete qp) (hq' : QP.Exact qp') (hqc' : QP.Complete qp')
    (eq : Y → Y → Except PyErr Bool) (intr : ℕ → Option OneSlack.Phase) (o o' : OneSlack.Obj Y)
    (hcfg : o'.cfg = { o.cfg with negativity := o.cfg.negativity.map fun l => l.map ρ.symm }) (hcurve : o'.lossCurve = o.lossCurve)
    (hw0 : o.cfg.inactiveWindow = 0) (hcc : o.cfg.checkConstraints = false) (ht : o.cfg.tol ≤ 1)
    (samples : List (X × Y)) (h0 : ∀ s ∈ samples, ∀ w, 0 ≤ m.lossOf s.2 (m.lossAug s.1 s.2 w true)) :
    BothRun (fun r r' => r'.lossCurve = r.lossCurve ∧ ∃ t t', r.attrs = some t ∧ r'.attrs = some t' ∧
        InOrder ρ m.dim t.w t'.w ∧ t'.objectiveCurve = t.objectiveCurve ∧ t'.primalCurve = t.primalCurve ∧
        t'.cachedFlags = t.cachedFlags)
      (OneSlack.fit m qp eq none intr o samples .no)
      (OneSlack.fit m' qp' eq none intr o' (samples.map fun s => (f s.1, s.2)) .no) := by
  have hr := C150_one_slack one_pos one_pos (reordered_units h) hq hqc hq' hqc' eq intr o o'
    (by rw [hcfg]; unfold reorderNeg; simp) hcurve hw0 hcc ht (by rw [one_mul]; exact ht) samples h0
  unfold inUnits at hr
  generalize OneSlack.fit m qp eq none intr o samples .no = r at hr ⊢
  generalize OneSlack.fit m' qp' eq none intr o' _ .no = r' at hr ⊢
  cases hr with
  | error e => exact .error e
  | ok hr =>
    obtain ⟨h1, t, t', h2, h3, h4, h5, h6, h7⟩ := hr
    refine .ok ⟨h1, t, t', h2, h3, multiple_one.mp (by rwa [div_one] at h4), ?_, ?_, h7⟩
    · rw [h5]; simp
    · rw [h6]; simp

/-- NSlackSSVM with exact solvers and keeping inactive constraints, cold start: with the indices in `negativity_constraint` renamed
accordingly, everything but the order of weights and constraints is the same. -/
theorem C180_n_slack (h : Reordered ρ f m m') {qp qp' : QP.Solver} (hq : QP.Exact qp)
    (hqc : QP.Complete qp) (hq' : QP.Exact qp') (hqc' : QP.Complete qp') (eq : Y → Y → Bool)
    (intr : ℕ → ℕ → Option OneSlack.Phase) {o o' : NSlack.Obj Y} (ho : o.attrs = none) (ho' : o'.attrs = none)
    (hcfg : o'.cfg = { o.cfg with negativity := o.cfg.negativity.map fun l => l.map ρ.symm }) (hlc : o'.lossCurve = o.lossCurve)
    (hw0 : o.cfg.inactiveWindow = 0) (hC : 0 ≤ o.cfg.C) (samples : List (X × Y)) :
    BothRun (fun r r' => r'.2 = r.2 ∧ r'.1.lossCurve = r.1.lossCurve ∧ ∃ t t', r.1.attrs = some t ∧ r'.1.attrs = some t' ∧
        InOrder ρ m.dim t.w t'.w ∧ t'.objectiveCurve = t.objectiveCurve ∧ t'.primalCurve = t.primalCurve ∧
        ∀ i, List.Forall₂ (fun c c' => c'.yhat = c.yhat ∧ c'.loss = c.loss ∧ InOrder ρ m.dim c.dj c'.dj)
          (t.constraints i) (t'.constraints i))
      (NSlack.fit m qp eq none intr o samples none) (NSlack.fit m' qp' eq none intr o' (samples.map fun s => (f s.1, s.2)) none) := by
  have hr := C150_n_slack_partial one_pos (reordered_units h) hq hqc hq' hqc' eq (alt := none) (alt' := none) trivial intr
    (o := o) (o' := o') (by rw [hcfg]; unfold reorderNeg; simp) (by rw [ho, ho']; exact .none) hlc hw0 hC samples
    (cs := none) (cs' := none) .none
  unfold inUnits at hr
  generalize NSlack.fit m qp eq none intr o samples none = r at hr ⊢
  generalize NSlack.fit m' qp' eq none intr o' _ none = r' at hr ⊢
  cases hr with
  | error e => exact .error e
  | ok hr =>
    obtain ⟨h1, h1', t, t', h2, h3, h4, h5, h6, h7⟩ := hr
    refine .ok ⟨h1, h1', t, t', h2, h3, multiple_one.mp (by rwa [div_one] at h4), ?_, ?_, fun i => ?_⟩
    · rw [h5]; simp
    · rw [h6]; simp
    · exact (h7 i).imp fun c c' hc => ⟨hc.1, hc.2.1, multiple_one.mp hc.2.2⟩

/-- The primal objective of corresponding weights is the same. -/
theorem C180_objective (h : Reordered ρ f m m') (samples : List (X × Y)) {w w' : W} (hw : InOrder ρ m.dim w w') (C : ℚ)
    (newSlack : Bool) :
    objectivePrimal m' w' (samples.map fun s => (f s.1, s.2)) C newSlack = objectivePrimal m w samples C newSlack := by
  have hr := C150_objective one_pos one_pos (reordered_units h) samples (w := w) (w' := w')
    (by rw [div_one]; exact multiple_one.mpr hw) C newSlack
  unfold inUnits at hr
  rw [show C * 1 / 1 ^ 2 = C by ring] at hr
  generalize objectivePrimal m w samples C newSlack = r at hr ⊢
  generalize objectivePrimal m' w' _ C newSlack = r' at hr ⊢
  cases hr with
  | error e => rfl
  | ok hr => rw [hr]; norm_num

/-! ### models whose inputs have their columns in another order -/

theorem block_lt {S F k : ℕ} (hk : k < S * F) : k / F < S ∧ k % F < F := by
  have hF : 0 < F := Nat.pos_of_ne_zero fun h => by rw [h, Nat.mul_zero] at hk; exact Nat.not_lt_zero _ hk
  exact ⟨Nat.div_lt_of_lt_mul (by rwa [Nat.mul_comm]), Nat.mod_lt _ hF⟩

/-- entry `k` of `n` rows of `F` numbers each whose columns are put in the order `τ`. -/
def blockMap (S F : ℕ) (τ : ℕ → ℕ) (k : ℕ) : ℕ := if k < S * F then k / F * F + τ (k % F) else k

theorem blockMap_inverse {S F : ℕ} {τ τ' : ℕ → ℕ} (h : ∀ j < F, τ j < F) (hi : ∀ j < F, τ' (τ j) = j) (k : ℕ) :
    blockMap S F τ' (blockMap S F τ k) = k := by
  by_cases hk : k < S * F
  · obtain ⟨h1, h2⟩ := block_lt hk
    have h3 := h _ h2
    have hF : 0 < F := Nat.lt_of_le_of_lt (Nat.zero_le _) h2
    have hlt : k / F * F + τ (k % F) < S * F := by
      calc k / F * F + τ (k % F) < k / F * F + F := by omega
        _ = (k / F + 1) * F := by ring
        _ ≤ S * F := Nat.mul_le_mul_right _ h1
    unfold blockMap
    rw [if_pos hk, if_pos hlt]
    have e1 : (k / F * F + τ (k % F)) / F = k / F := by
      rw [Nat.mul_comm, Nat.mul_add_div hF, Nat.div_eq_of_lt h3, Nat.add_zero]
    have e2 : (k / F * F + τ (k % F)) % F = τ (k % F) := by
      rw [Nat.mul_comm, Nat.mul_add_mod, Nat.mod_eq_of_lt h3]
    rw [e1, e2, hi _ h2, Nat.mul_comm]
    exact Nat.div_add_mod k F
  · unfold blockMap
    rw [if_neg hk, if_neg hk]

/-- The order of the weights of `S` states when the `F` columns of the inputs are put in the order `τ`; weights that follow stay. -/
def blockOrder (S F : ℕ) (τ : Equiv.Perm ℕ) (hτ : ∀ j, τ j < F ↔ j < F) : Equiv.Perm ℕ where
  toFun := blockMap S F τ
  invFun := blockMap S F τ.symm
  left_inv := blockMap_inverse (fun j hj => (hτ j).mpr hj) fun j _ => τ.symm_apply_apply j
  right_inv := blockMap_inverse (fun j hj => by have := hτ (τ.symm j); rw [τ.apply_symm_apply] at this; exact this.mp hj)
    fun j _ => τ.apply_symm_apply j

variable {S F : ℕ} {τ : Equiv.Perm ℕ} (hτ : ∀ j, τ j < F ↔ j < F)

theorem blockOrder_row {s j : ℕ} (hs : s < S) (hj : j < F) : blockOrder S F τ hτ (s * F + j) = s * F + τ j := by
  have hF : 0 < F := Nat.lt_of_le_of_lt (Nat.zero_le _) hj
  have hlt : s * F + j < S * F := by
    calc s * F + j < s * F + F := by omega
      _ = (s + 1) * F := by ring
      _ ≤ S * F := Nat.mul_le_mul_right _ hs
  change blockMap S F τ (s * F + j) = _
  unfold blockMap
  rw [if_pos hlt, Nat.mul_comm s F, Nat.mul_add_div hF, Nat.mul_add_mod, Nat.div_eq_of_lt hj, Nat.mod_eq_of_lt hj, Nat.add_zero,
    Nat.mul_comm]

theorem blockOrder_div {k : ℕ} (hk : k < S * F) : blockOrder S F τ hτ k / F = k / F ∧ blockOrder S F τ hτ k % F = τ (k % F) ∧
    blockOrder S F τ hτ k < S * F := by
  obtain ⟨h1, h2⟩ := block_lt hk
  have hF : 0 < F := Nat.lt_of_le_of_lt (Nat.zero_le _) h2
  have h3 := (hτ _).mpr h2
  have e : blockOrder S F τ hτ k = k / F * F + τ (k % F) := by
    change blockMap S F τ k = _
    unfold blockMap
    rw [if_pos hk]
  rw [e]
  refine ⟨?_, ?_, ?_⟩
  · rw [Nat.mul_comm, Nat.mul_add_div hF, Nat.div_eq_of_lt h3, Nat.add_zero]
  · rw [Nat.mul_comm, Nat.mul_add_mod, Nat.mod_eq_of_lt h3]
  · calc k / F * F + τ (k % F) < k / F * F + F := by omega
      _ = (k / F + 1) * F := by ring
      _ ≤ S * F := Nat.mul_le_mul_right _ h1

theorem blockOrder_rest {k : ℕ} (hk : S * F ≤ k) : blockOrder S F τ hτ k = k := by
  change blockMap S F τ k = _
  unfold blockMap
  rw [if_neg (by omega)]

theorem blockOrder_lt {d : ℕ} (hd : S * F ≤ d) (k : ℕ) : blockOrder S F τ hτ k < d ↔ k < d := by
  by_cases hk : k < S * F
  · have := (blockOrder_div hτ hk).2.2
    omega
  · rw [blockOrder_rest hτ (by omega)]

include hτ in
/-- a sum over columns in another order. -/
theorem sum_reordered_columns (g : ℕ → ℚ) : ∑ j ∈ range F, g (τ j) = ∑ j ∈ range F, g j :=
  sum_equiv τ (fun k => by rw [mem_range, mem_range, hτ k]) fun _ _ => rfl

open Verif.Unstructured

theorem mcScores_columns (m : MultiClass) (hτ : ∀ j, τ j < m.nFeatures ↔ j < m.nFeatures) {w w' : W}
    (hw : InOrder (blockOrder m.nStates m.nFeatures τ hτ) m.size w w') (x : ℕ → ℚ) :
    BothRun (fun s s' => s.size = m.nStates ∧ s'.size = m.nStates ∧ ∀ i < m.nStates, s'.get i = s.get i)
      (mcScores m ⟨m.nFeatures, x⟩ ⟨m.size, w⟩) (mcScores m ⟨m.nFeatures, fun j => x (τ j)⟩ ⟨m.size, w'⟩) := by
  unfold mcScores
  simp only
  by_cases h1 : m.nStates = 0
  · rw [if_pos h1, if_pos h1]; exact .error _
  rw [if_neg h1, if_neg h1]
  by_cases h2 : m.size % m.nStates ≠ 0
  · rw [if_pos h2, if_pos h2]; exact .error _
  rw [if_neg h2, if_neg h2]
  by_cases h3 : m.size / m.nStates ≠ m.nFeatures
  · rw [if_pos h3, if_pos h3]; exact .error _
  rw [if_neg h3, if_neg h3]
  refine .ok ⟨rfl, rfl, fun i hi => ?_⟩
  simp only
  rw [← sum_reordered_columns hτ fun j => w (i * m.nFeatures + j) * x j]
  refine sum_congr rfl fun j hj => ?_
  rw [hw (i * m.nFeatures + j) (flat_lt hi (mem_range.mp hj)), blockOrder_row hτ hi (mem_range.mp hj)]

/-- MultiClassClf: inputs with their columns in another order. -/
theorem C180_multi_class (m : MultiClass) (hτ : ∀ j, τ j < m.nFeatures ↔ j < m.nFeatures) :
    Reordered (blockOrder m.nStates m.nFeatures τ hτ) (fun x j => x (τ j)) (multiClassModel m) (multiClassModel m) where
  order := blockOrder_lt hτ le_rfl
  dim := rfl
  rescaleC := rfl
  isTuple _ := rfl
  feature x y := by
    intro k hk
    obtain ⟨e1, e2, -⟩ := blockOrder_div hτ (show k < m.nStates * m.nFeatures from hk)
    change (okD _ (mcJointFeature m ⟨m.nFeatures, _⟩ y none)).get k =
      (okD _ (mcJointFeature m ⟨m.nFeatures, x⟩ y none)).get _
    unfold mcJointFeature
    by_cases h1 : m.nStates ≤ y
    · simp [if_pos h1, okD]
    · cases hr : m.rescaleC with
      | true => simp [h1, okD]
      | false => simp only [if_neg h1, ne_eq, not_true, if_false, Bool.false_eq_true, okD, Mat.ravel, e1, e2]
  featureR x y t := by
    intro k hk
    obtain ⟨e1, e2, -⟩ := blockOrder_div hτ (show k < m.nStates * m.nFeatures from hk)
    change (okD _ (mcJointFeature m ⟨m.nFeatures, _⟩ y (some t))).get k =
      (okD _ (mcJointFeature m ⟨m.nFeatures, x⟩ y (some t))).get _
    unfold mcJointFeature
    by_cases h1 : m.nStates ≤ y
    · simp [if_pos h1, okD]
    · cases hr : m.rescaleC with
      | true =>
        by_cases h2 : m.classWeight.size ≤ t
        · simp [h1, h2, okD]
        · simp only [if_neg h1, ne_eq, not_true, if_false, if_true, if_neg h2, okD, Mat.ravel, e1, e2]
      | false => simp only [if_neg h1, ne_eq, not_true, if_false, Bool.false_eq_true, okD, Mat.ravel, e1, e2]
  loss _ _ := rfl
  continuousLoss _ _ := rfl
  maxLoss _ := rfl
  lossAug x y w w' r hw := by
    change okD 0 (mcLossAugmented m ⟨m.nFeatures, _⟩ y ⟨m.size, w'⟩) = okD 0 (mcLossAugmented m ⟨m.nFeatures, x⟩ y ⟨m.size, w⟩)
    have hs := mcScores_columns m hτ hw x
    congr 1
    unfold mcLossAugmented
    generalize mcScores m ⟨m.nFeatures, x⟩ ⟨m.size, w⟩ = s at hs ⊢
    generalize mcScores m ⟨m.nFeatures, fun j => x (τ j)⟩ ⟨m.size, w'⟩ = s' at hs ⊢
    cases hs with
    | error e => rfl
    | @ok s s' hss =>
      obtain ⟨h1, h2, h3⟩ := hss
      simp only [h1, h2]
      by_cases hr : m.rescaleC = true
      · rw [if_pos hr, if_pos hr]
        congr 1
        exact argmaxN_congr fun i hi => by rw [h3 i hi]
      · rw [if_neg hr, if_neg hr]
        by_cases h4 : m.classWeight.size ≤ y
        · rw [if_pos h4, if_pos h4]
        · rw [if_neg h4, if_neg h4]
          congr 1
          exact argmaxN_congr fun i hi => by rw [h3 i hi]
  inference x w w' hw := by
    change okD 0 (mcInference m ⟨m.nFeatures, _⟩ ⟨m.size, w'⟩) = okD 0 (mcInference m ⟨m.nFeatures, x⟩ ⟨m.size, w⟩)
    have hs := mcScores_columns m hτ hw x
    congr 1
    unfold mcInference
    generalize mcScores m ⟨m.nFeatures, x⟩ ⟨m.size, w⟩ = s at hs ⊢
    generalize mcScores m ⟨m.nFeatures, fun j => x (τ j)⟩ ⟨m.size, w'⟩ = s' at hs ⊢
    cases hs with
    | error e => rfl
    | @ok s s' hss =>
      obtain ⟨h1, h2, h3⟩ := hss
      simp only [h1, h2]
      congr 1
      exact argmaxN_congr fun i hi => h3 i hi

include hτ in
theorem dot_columns {x w w' : ℕ → ℚ} (hw : InOrder τ F w w') : dot F (fun j => x (τ j)) w' = dot F x w := by
  unfold dot
  rw [← sum_reordered_columns hτ fun j => x j * w j]
  exact sum_congr rfl fun j hj => by rw [hw j (mem_range.mp hj)]

include hτ in
/-- BinaryClf: inputs with their columns in another order. -/
theorem C180_binary : Reordered τ (fun x j => x (τ j)) (binaryModel F) (binaryModel F) where
  order := hτ
  dim := rfl
  rescaleC := rfl
  isTuple _ := rfl
  feature x y := by
    intro k hk
    simp only [binaryModel, binBatchJointFeature, ne_eq, not_true, if_false, okD, sum_range_one]
  featureR x y t := by
    intro k hk
    simp only [binaryModel, binBatchJointFeature, ne_eq, not_true, if_false, okD, sum_range_one]
  loss _ _ := rfl
  continuousLoss _ _ := rfl
  maxLoss _ := rfl
  lossAug x y w w' r hw := by
    have e := dot_columns hτ (x := x) hw
    simp only [binaryModel, binLossAugmented, Vec.dot, if_true, e]
  inference x w w' hw := by
    have e := dot_columns hτ (x := x) hw
    simp only [binaryModel, binInference, Vec.dot, if_true, e]

/-! ### GraphCRF and ChainCRF -/

/-- An instance with the columns of its node features in another order. -/
def graphColumns (τ : ℕ → ℕ) (x : GraphCRF.X) : GraphCRF.X :=
  ⟨⟨x.features.rows, x.features.cols, fun i j => x.features.get i (τ j)⟩, x.edges⟩

theorem marginals_cols {S : ℕ} {x : GraphCRF.X} {y : YVal} {u : Mat × Mat} (h : GraphCRF.marginals S x y = .ok u) :
    u.1.cols = S := by
  cases y with
  | relaxed a p =>
    unfold GraphCRF.marginals at h
    simp only [bind, Except.bind, pure, Except.pure] at h
    by_cases h1 : a.size = x.features.rows * S
    · simp only [Vec.reshape2, h1, if_true] at h
      generalize GraphCRF.reshapeInfer p S = t at h
      cases t with
      | error e => simp at h
      | ok t => simp only [Except.ok.injEq] at h; rw [← h]
    · simp only [Vec.reshape2, h1, if_false] at h
      cases h
  | discrete l =>
    unfold GraphCRF.marginals at h
    simp only [bind, Except.bind, pure, Except.pure] at h
    by_cases h1 : l.size ≠ x.features.rows
    · simp only [GraphCRF.oneHot, if_pos h1] at h
      cases h
    by_cases h2 : ¬ ∀ i < x.features.rows, l.get i < S
    · simp only [GraphCRF.oneHot, if_neg h1, if_pos h2] at h
      cases h
    simp only [GraphCRF.oneHot, if_neg h1, if_neg h2] at h
    generalize GraphCRF.takeRows _ (x.edges.map Prod.fst) = a at h
    cases a with
    | error e => cases h
    | ok a =>
      simp only at h
      generalize GraphCRF.takeRows _ (x.edges.map Prod.snd) = b at h
      cases b with
      | error e => cases h
      | ok b =>
        simp only at h
        generalize a.T.mul b = c at h
        cases c with
        | error e => cases h
        | ok c => simp only [Except.ok.injEq] at h; rw [← h]

theorem graphFeature_columns (m : GraphCRF.Model) (hτ : ∀ j, τ j < m.nFeatures ↔ j < m.nFeatures) (x : GraphCRF.X) (y : YVal)
    (d : ℕ) : InOrder (blockOrder m.nStates m.nFeatures τ hτ) d (graphFeature m x y) (graphFeature m (graphColumns τ x) y) := by
  intro k _
  have e : GraphCRF.marginals m.nStates (graphColumns τ x) y = GraphCRF.marginals m.nStates x y := by cases y <;> rfl
  have ec : GraphCRF.checkSizeX m (graphColumns τ x) = GraphCRF.checkSizeX m x := rfl
  unfold graphFeature GraphCRF.jointFeature
  rw [e, ec]
  by_cases hF : x.features.cols = m.nFeatures
  · rw [GraphCRF.checkSizeX_ok hF]
    simp only [bind, Except.bind, pure, Except.pure]
    cases hM : GraphCRF.marginals m.nStates x y with
    | error e => rfl
    | ok u =>
      have hu := marginals_cols hM
      obtain ⟨U, P⟩ := u
      simp only at hu ⊢
      by_cases h1 : U.rows = x.features.rows
      · simp only [Mat.mul, Mat.T, graphColumns, h1, if_true]
        have key : ∀ v : Vec, (Vec.append (Mat.ravel ⟨U.cols, x.features.cols,
            fun i j => ∑ k ∈ range x.features.rows, U.get k i * x.features.get k (τ j)⟩) v).get k =
          (Vec.append (Mat.ravel ⟨U.cols, x.features.cols,
            fun i j => ∑ k ∈ range x.features.rows, U.get k i * x.features.get k j⟩) v).get
              (blockOrder m.nStates m.nFeatures τ hτ k) := fun v => by
          simp only [Vec.append, Mat.ravel, hu, hF]
          by_cases hk : k < m.nStates * m.nFeatures
          · obtain ⟨e1, e2, e3⟩ := blockOrder_div hτ hk
            rw [if_pos hk, if_pos e3, e1, e2]
          · rw [blockOrder_rest hτ (by omega), if_neg hk, if_neg hk]
        by_cases hd : m.directed = true
        · simp only [hd, if_true, okD]
          exact key _
        · simp only [hd, if_false, Bool.false_eq_true]
          generalize Sym.compressSym P = v
          cases v with
          | error e => rfl
          | ok v => exact key v
      · simp only [Mat.mul, Mat.T, graphColumns, h1, if_false]
        rfl
  · unfold GraphCRF.checkSizeX
    rw [if_pos hF]
    rfl

theorem unary_columns (m : GraphCRF.Model) (hτ : ∀ j, τ j < m.nFeatures ↔ j < m.nFeatures) {w w' : W}
    (hw : InOrder (blockOrder m.nStates m.nFeatures τ hτ) (GraphCRF.sizeJointFeature m) w w') (x : GraphCRF.X) {i s : ℕ}
    (hs : s < m.nStates) : GraphCRF.UN m (graphColumns τ x).features w' i s = GraphCRF.UN m x.features w i s := by
  unfold GraphCRF.UN
  rw [← sum_reordered_columns hτ fun j => x.features.get i j * w (s * m.nFeatures + j)]
  refine sum_congr rfl fun j hj => ?_
  rw [hw (s * m.nFeatures + j) (Nat.lt_of_lt_of_le (flat_lt hs (mem_range.mp hj)) (GraphCRF.size_ge m)),
    blockOrder_row hτ hs (mem_range.mp hj)]
  rfl

theorem pairwise_columns (m : GraphCRF.Model) (hτ : ∀ j, τ j < m.nFeatures ↔ j < m.nFeatures) {w w' : W}
    (hw : InOrder (blockOrder m.nStates m.nFeatures τ hτ) (GraphCRF.sizeJointFeature m) w w') {a b : ℕ}
    (ha : a < m.nStates) (hb : b < m.nStates) : GraphCRF.PW m w' a b = GraphCRF.PW m w a b := by
  have e : ∀ k, m.nStates * m.nFeatures + k < GraphCRF.sizeJointFeature m →
      w' (m.nStates * m.nFeatures + k) = w (m.nStates * m.nFeatures + k) := fun k hk => by
    rw [hw _ hk, blockOrder_rest hτ (by omega)]
  unfold GraphCRF.PW
  by_cases hd : m.directed = true
  · rw [if_pos hd, if_pos hd]
    refine e _ ?_
    unfold GraphCRF.sizeJointFeature
    rw [if_pos hd, pow_two]
    exact Nat.add_lt_add_left (flat_lt ha hb) _
  · rw [if_neg hd, if_neg hd]
    have e' : ∀ i < m.nStates, ∀ j ≤ i, w' (m.nStates * m.nFeatures + (Sym.tri i + j)) =
        w (m.nStates * m.nFeatures + (Sym.tri i + j)) := fun i hi j hj => by
      refine e _ ?_
      unfold GraphCRF.sizeJointFeature
      rw [if_neg hd]
      exact Nat.add_lt_add_left (Sym.tri_add_lt hj hi) _
    unfold Sym.symEntry
    simp only
    have h1 : (if b ≤ a then w' (m.nStates * m.nFeatures + (Sym.tri a + b)) else 0) =
        if b ≤ a then w (m.nStates * m.nFeatures + (Sym.tri a + b)) else 0 := by
      by_cases h : b ≤ a
      · rw [if_pos h, if_pos h, e' a ha b h]
      · rw [if_neg h, if_neg h]
    have h2 : (if a ≤ b then w' (m.nStates * m.nFeatures + (Sym.tri b + a)) else 0) =
        if a ≤ b then w (m.nStates * m.nFeatures + (Sym.tri b + a)) else 0 := by
      by_cases h : a ≤ b
      · rw [if_pos h, if_pos h, e' b hb a h]
      · rw [if_neg h, if_neg h]
    rw [h1, h2, e' a ha a le_rfl]

theorem sizeW_ok (n : ℕ) (w : W) : GraphCRF.checkSizeW n ⟨n, w⟩ = .ok () := GraphCRF.checkSizeW_ok rfl

/-- GraphCRF, and ChainCRF on chain instances: node features with their columns in another order, for a method of inference that looks at
nothing but the entries of the arrays of potentials. -/
theorem C180_graph (backend : Bool → GraphCRF.Infer) (hb : ∀ r, ReadsEntries (backend r)) (cw : Vec) (m : GraphCRF.Model)
    (hτ : ∀ j, τ j < m.nFeatures ↔ j < m.nFeatures) :
    Reordered (blockOrder m.nStates m.nFeatures τ hτ) (graphColumns τ) (graphModel backend cw m) (graphModel backend cw m) where
  order := blockOrder_lt hτ (GraphCRF.size_ge m)
  dim := rfl
  rescaleC := rfl
  isTuple _ := rfl
  feature x y := graphFeature_columns m hτ x y _
  featureR x y _ := graphFeature_columns m hτ x y _
  loss _ _ := rfl
  continuousLoss _ _ := rfl
  maxLoss _ := rfl
  lossAug x y w w' r hw := by
    cases y with
    | relaxed u p => rfl
    | discrete l =>
      change okD _ (GraphCRF.lossAugmentedInference (backend r) cw m (graphColumns τ x) l ⟨_, w'⟩) =
        okD _ (GraphCRF.lossAugmentedInference (backend r) cw m x l ⟨_, w⟩)
      congr 1
      unfold GraphCRF.lossAugmentedInference
      rw [sizeW_ok, sizeW_ok]
      by_cases hF : x.features.cols = m.nFeatures
      · rw [GraphCRF.unary_ok hF rfl, GraphCRF.unary_ok (x := graphColumns τ x) hF rfl, GraphCRF.pairwise_ok hF rfl,
          GraphCRF.pairwise_ok (x := graphColumns τ x) hF rfl]
        simp only [bind, Except.bind, Loss.lossAugmentUnaries]
        by_cases h1 : l.size < x.features.rows
        · rw [if_pos h1, if_pos (show l.size < (graphColumns τ x).features.rows from h1)]
        rw [if_neg h1, if_neg (show ¬ l.size < (graphColumns τ x).features.rows from h1)]
        by_cases h2 : ¬ ∀ i < x.features.rows, l.get i < cw.size
        · rw [if_pos h2, if_pos (show ¬ ∀ i < (graphColumns τ x).features.rows, l.get i < cw.size from h2)]
        rw [if_neg h2, if_neg (show ¬ ¬ ∀ i < (graphColumns τ x).features.rows, l.get i < cw.size from h2)]
        refine hb r _ _ _ _ _ ⟨rfl, rfl, fun i s hs => ?_⟩ ⟨rfl, rfl, fun a ha b hb => pairwise_columns m hτ hw ha hb⟩
        simp only
        rw [unary_columns m hτ hw x hs]
      · unfold GraphCRF.unaryPotentials
        rw [sizeW_ok, sizeW_ok]
        unfold GraphCRF.checkSizeX
        rw [if_pos hF, if_pos (show (graphColumns τ x).features.cols ≠ m.nFeatures from hF)]
        rfl
  inference x w w' hw := by
    change okD _ (GraphCRF.inference (backend false) m (graphColumns τ x) ⟨_, w'⟩) =
      okD _ (GraphCRF.inference (backend false) m x ⟨_, w⟩)
    congr 1
    unfold GraphCRF.inference
    rw [sizeW_ok, sizeW_ok]
    by_cases hF : x.features.cols = m.nFeatures
    · rw [GraphCRF.unary_ok hF rfl, GraphCRF.unary_ok (x := graphColumns τ x) hF rfl, GraphCRF.pairwise_ok hF rfl,
        GraphCRF.pairwise_ok (x := graphColumns τ x) hF rfl]
      simp only [bind, Except.bind]
      exact hb false _ _ _ _ _ ⟨rfl, rfl, fun i s hs => unary_columns m hτ hw x hs⟩
        ⟨rfl, rfl, fun a ha b hb => pairwise_columns m hτ hw ha hb⟩
    · unfold GraphCRF.unaryPotentials
      rw [sizeW_ok, sizeW_ok]
      unfold GraphCRF.checkSizeX
      rw [if_pos hF, if_pos (show (graphColumns τ x).features.cols ≠ m.nFeatures from hF)]
      rfl

/-- The method "unary" looks at nothing but the entries. -/
theorem C180_unary_method (P : Dispatch.Packages) (relaxed : Bool) :
    ReadsEntries (Dispatch.backend P (.name "unary") relaxed) := by
  rintro u u' p p' E ⟨h1, h2, h3⟩ ⟨h4, h5, -⟩
  have e : Dispatch.inferenceUnaries u' (.mat p') E = Dispatch.inferenceUnaries u (.mat p) E := by
    unfold Dispatch.inferenceUnaries validateParams
    simp only [h1, h2, h4, h5]
    by_cases hp : p.rows = u.cols ∧ p.cols = u.cols
    · rw [if_pos hp, if_pos hp]
      by_cases hS : u.cols = 0
      · simp only [hS, if_true]
      · simp only [hS, if_false]
        congr 2
        exact funext fun i => argmaxN_congr fun s hs => h3 i s hs
    · rw [if_neg hp, if_neg hp]
  unfold Dispatch.backend Dispatch.dispatch Dispatch.branch
  simp only [e, show ¬ "unary" = "qpbo" by decide, show ¬ "unary" = "lp" by decide, show ¬ "unary" = "ad3" by decide,
    show ¬ "unary" = "ad3+" by decide, show ¬ "unary" = "ogm" by decide, if_true, if_false]

/-- The method "max-product", with any options, looks at nothing but the entries: Viterbi, message passing on trees and loopy message
passing. -/
theorem C180_max_product_method (P : Dispatch.Packages) (kw : Dispatch.KW) (relaxed : Bool) :
    ReadsEntries (Dispatch.backend P (.withOpts "max-product" kw) relaxed) := by
  rintro u u' p p' E h h'
  have e : ∀ opts, MaxProd.maxProductInfer opts u' (.mat p') E = MaxProd.maxProductInfer opts u (.mat p) E :=
    fun opts => maxProductInfer_reads opts u u' p p' E h h'
  unfold Dispatch.backend Dispatch.dispatch Dispatch.branch
  simp only [e, show ¬ "max-product" = "qpbo" by decide, show ¬ "max-product" = "lp" by decide, show ¬ "max-product" = "ad3" by decide,
    show ¬ "max-product" = "ad3+" by decide, show ¬ "max-product" = "ogm" by decide, show ¬ "max-product" = "unary" by decide,
    if_true, if_false]

/-! ### examples -/

/-- the columns of `unitsSamples` exchanged. -/
theorem swap_columns : ∀ j, Equiv.swap 0 1 j < unitsClf.nFeatures ↔ j < unitsClf.nFeatures := by
  intro j
  change Equiv.swap 0 1 j < 2 ↔ j < 2
  by_cases h0 : j = 0
  · rw [h0, Equiv.swap_apply_left]; decide
  by_cases h1 : j = 1
  · rw [h1, Equiv.swap_apply_right]; decide
  · rw [Equiv.swap_apply_of_ne_of_ne h0 h1]

/-- the order of the weights is not the old one. -/
example : blockOrder unitsClf.nStates unitsClf.nFeatures (Equiv.swap 0 1) swap_columns 2 = 3 := by decide +kernel

/-- the two perceptrons succeed and learn weights that are not 0. -/
example : let o : Perceptron.Obj := ⟨⟨3, false, fun _ => 1⟩, .off, fun _ => 0, []⟩
    let r := Perceptron.fit (multiClassModel unitsClf) o unitsSamples
    let r' := Perceptron.fit (multiClassModel unitsClf) o (unitsSamples.map fun s => (fun j => s.1 (Equiv.swap 0 1 j), s.2))
    (r.toOption.map fun r => (r.w 0, r.w 1)) = some (1, -3) ∧ (r'.toOption.map fun r => (r.w 0, r.w 1)) = some (-3, 1) := by
  decide +kernel

example := C180_perceptron (C180_multi_class unitsClf swap_columns) ⟨⟨3, false, fun _ => 1⟩, .off, fun _ => 0, []⟩
  ⟨⟨3, false, fun _ => 1⟩, .off, fun _ => 0, []⟩ rfl rfl unitsSamples

/-- a warm start from weights that are not 0. -/
example := C180_subgradient (C180_multi_class unitsClf swap_columns) (fun _ => unitsSamples)
  ⟨⟨2, 1, 1 / 2, none, fun _ => 1, false, some 1, .none, false, 1, 0⟩, some fun k => k, 0, none, ⟨[], []⟩⟩
  (some fun k => (blockOrder unitsClf.nStates unitsClf.nFeatures (Equiv.swap 0 1) swap_columns k : ℕ))
  (.some fun _ _ => rfl) unitsSamples true

example := C180_frank_wolfe (C180_multi_class unitsClf swap_columns) (fun _ => [0, 1, 2])
  ⟨⟨3, 1, 0, true, true, 1, true⟩, none, none, ⟨[], []⟩⟩ none .none unitsSamples

/-- OneSlackSSVM with a `negativity_constraint` on weight 2, which becomes weight 3. -/
example (eq : ℕ → ℕ → Except PyErr Bool) (o : OneSlack.Obj ℕ)
    (ho : o.cfg = ⟨10, 1, false, some [2], true, 0, 1 / 1000, 5, 1 / 1000, 0, .auto⟩) :=
  C180_one_slack (C180_multi_class unitsClf swap_columns) QP.ideal_exact.1 QP.ideal_exact.2 QP.ideal_exact.1 QP.ideal_exact.2
    eq (fun _ => none) o { o with cfg := { o.cfg with negativity := some [3] } } (by rw [ho]; rfl) rfl (by rw [ho]) (by rw [ho])
    (by rw [ho]; norm_num) unitsSamples (by
      intro s hs w
      change 0 ≤ okD 0 (mcLoss unitsClf s.2 _)
      unfold mcLoss
      by_cases h : unitsClf.classWeight.size ≤ s.2
      · rw [if_pos h]; simp [okD]
      · rw [if_neg h]
        simp only [okD]
        refine mul_nonneg ?_ ?_
        · simp only [unitsClf]; split_ifs <;> norm_num
        · split_ifs <;> norm_num)

example (eq : ℕ → ℕ → Bool) := C180_n_slack (C180_multi_class unitsClf swap_columns)
  QP.ideal_exact.1 QP.ideal_exact.2 QP.ideal_exact.1 QP.ideal_exact.2 eq (fun _ _ => none)
  (o := ⟨{ onePointN with negativity := some [2] }, none, []⟩) (o' := ⟨{ onePointN with negativity := some [3] }, none, []⟩)
  rfl rfl rfl rfl rfl (by norm_num [onePointN]) unitsSamples

/-- a GraphCRF with max-product inference and ten iterations. -/
example (P : Dispatch.Packages) := C180_graph (τ := Equiv.swap 0 1) (Dispatch.backend P (.withOpts "max-product" [("max_iter", .num 10)]))
  (C180_max_product_method P _) ⟨2, fun _ => 1⟩ ⟨2, 2, true⟩ swap_columns

/-- a GraphCRF with the method "unary". -/
example (P : Dispatch.Packages) := C180_graph (τ := Equiv.swap 0 1) (Dispatch.backend P (.name "unary")) (C180_unary_method P)
  ⟨2, fun _ => 1⟩ ⟨2, 2, false⟩ swap_columns

end Verif.Props
