import Verif.Lemmas.UnitsOneSlack

/-!
# n-slack cutting-plane training in other units
-/

namespace Verif.Props

open Finset Verif.Spec Verif.Lemmas Verif.Learner Verif.OneSlack Verif.NSlack

variable {X X' Y : Type} {ρ : Equiv.Perm ℕ} {a b : ℚ} {f : X → X'} {m : SModel X Y} {m' : SModel X' Y}

/-- constraints of a sample in the two units. -/
def NConUnits (ρ : Equiv.Perm ℕ) (a b : ℚ) (d : ℕ) (c c' : NCon Y) : Prop := c'.yhat = c.yhat ∧ Multiple ρ b d c.dj c'.dj ∧ c'.loss = a * c.loss

/-- working sets in the two units. -/
def WSUnits (ρ : Equiv.Perm ℕ) (a b : ℚ) (d : ℕ) (ws ws' : WS Y) : Prop := ∀ i, List.Forall₂ (NConUnits ρ a b d) (ws i) (ws' i)

theorem wsUnits_symm {d : ℕ} (ha : 0 < a) (hb : 0 < b) (hρ : Reorders ρ d) {ws ws' : WS Y} (h : WSUnits ρ a b d ws ws') : WSUnits ρ.symm a⁻¹ b⁻¹ d ws' ws := by
  intro i
  have := h i
  generalize ws i = l at this ⊢
  generalize ws' i = l' at this ⊢
  induction this with
  | nil => exact List.Forall₂.nil
  | cons hc _ ih =>
    refine List.Forall₂.cons ⟨hc.1.symm, fun k hk => ?_, ?_⟩ ih
    · rw [hc.2.1 _ ((reorders_symm hρ k).mpr hk), Equiv.apply_symm_apply, inv_mul_cancel_left₀ hb.ne']
    · rw [hc.2.2, inv_mul_cancel_left₀ ha.ne']

theorem flat_units {d : ℕ} {ws ws' : WS Y} (h : WSUnits ρ a b d ws ws') (n : ℕ) :
    List.Forall₂ (ConUnits ρ a b d) (flat n ws) (flat n ws') := by
  induction n with
  | zero => exact List.Forall₂.nil
  | succ n ih =>
    rw [flat_succ, flat_succ]
    refine List.rel_append ih ?_
    have := h n
    generalize ws n = l at this ⊢
    generalize ws' n = l' at this ⊢
    induction this with
    | nil => exact List.Forall₂.nil
    | cons hc _ ih => exact List.Forall₂.cons hc.2 ih

theorem wsLength_units {d : ℕ} {ws ws' : WS Y} (h : WSUnits ρ a b d ws ws') (i : ℕ) : (ws' i).length = (ws i).length :=
  (h i).length_eq.symm

theorem offset_units {d : ℕ} {ws ws' : WS Y} (h : WSUnits ρ a b d ws ws') (n : ℕ) : offset ws' n = offset ws n := by
  unfold offset
  simp only [wsLength_units h]

theorem slice_units {d : ℕ} {ws ws' : WS Y} (h : WSUnits ρ a b d ws ws') (x : List ℚ) (i : ℕ) : slice ws' x i = slice ws x i := by
  unfold slice
  rw [offset_units h, wsLength_units h]

theorem slice_scale (ws : WS Y) (t : ℚ) (x : List ℚ) (i : ℕ) : (slice ws (scaleList t x) i).sum = t * (slice ws x i).sum := by
  unfold slice scaleList
  rw [← List.map_drop, ← List.map_take]
  generalize List.take _ _ = l
  induction l with
  | nil => simp
  | cons y l ih => rw [List.map_cons, List.sum_cons, List.sum_cons, ih]; ring

theorem nFeasible_units {d : ℕ} (ha : 0 < a) (hb : 0 < b) (hρ : Reorders ρ d) {ws ws' : WS Y} (h : WSUnits ρ a b d ws ws') (n : ℕ)
    (neg : Option (List ℕ)) (hn : ∀ k ∈ neg.getD [], k < d) (C eps eps' : ℚ) (x : List ℚ)
    (hx : (NSlack.qpOf d neg C n ws eps).Feasible x) :
    (NSlack.qpOf d (reorderNeg ρ neg) (C * (a / b ^ 2)) n ws' eps').Feasible (scaleList (a / b ^ 2) x) := by
  rw [NSlack.feasible_qpOf] at hx ⊢
  obtain ⟨h1, h2, h3, h4⟩ := hx
  have ht : 0 < a / b ^ 2 := by positivity
  have hl : (scaleList (a / b ^ 2) x).length = x.length := by unfold scaleList; rw [List.length_map]
  refine ⟨by rw [hl, h1, offset_units h], fun i hi => ?_, fun i hi => ?_, fun k hk => ?_⟩
  · rw [scaleList_getD]
    exact mul_nonneg ht.le (h2 i (by rwa [← hl]))
  · rw [slice_units h, slice_scale, mul_comm]
    exact mul_le_mul_of_nonneg_right (h3 i hi) ht.le
  · have hk' := mem_reorderNeg.mp hk
    rw [weights_units (flat_units h n) _ x (by rw [flat_length, h1]) k ((hρ k).mp (hn _ hk'))]
    exact mul_nonpos_of_nonneg_of_nonpos (by positivity) (h4 _ hk')

/-- the value does not depend on the kind of the program. -/
theorem nValue_eq (d : ℕ) (neg : Option (List ℕ)) (C cn : ℚ) (n : ℕ) (ws : WS Y) (eps : ℚ) (x : List ℚ) :
    (NSlack.qpOf d neg C n ws eps).value x = (OneSlack.qpOf d neg cn (flat n ws) eps).value x := rfl

theorem sum_zipWith_mid (x y : List ℚ) (h : x.length = y.length) :
    (List.zipWith (fun u v => (u + v) / 2) x y).sum = (x.sum + y.sum) / 2 := by
  induction x generalizing y with
  | nil => cases y with
    | nil => simp
    | cons v y => simp at h
  | cons u x ih => cases y with
    | nil => simp at h
    | cons v y =>
      rw [List.zipWith_cons_cons, List.sum_cons, List.sum_cons, List.sum_cons, ih y (by simpa using h)]
      ring

theorem nOptimal_weights_unique (d : ℕ) (neg : Option (List ℕ)) (C : ℚ) (n : ℕ) (ws : WS Y) (x y : List ℚ)
    (hx : (NSlack.qpOf d neg C n ws 0).Optimal x) (hy : (NSlack.qpOf d neg C n ws 0).Optimal y) :
    ∀ k < d, weightsOf (flat n ws) x k = weightsOf (flat n ws) y k := by
  obtain ⟨hxf, hxm⟩ := hx
  obtain ⟨hyf, hym⟩ := hy
  have hxv := hxm y hyf
  have hyv := hym x hxf
  obtain ⟨x1', x2, x3, x4⟩ := (NSlack.feasible_qpOf _ _ _ _ _ _ _).mp hxf
  obtain ⟨y1', y2, y3, y4⟩ := (NSlack.feasible_qpOf _ _ _ _ _ _ _).mp hyf
  have x1 : x.length = (flat n ws).length := by rw [flat_length, x1']
  have y1 : y.length = (flat n ws).length := by rw [flat_length, y1']
  let z : List ℚ := List.zipWith (fun u v => (u + v) / 2) x y
  have z1 : z.length = (flat n ws).length := by simp only [z, List.length_zipWith, x1, y1, min_self]
  have hz : ∀ i < (flat n ws).length, z.getD i 0 = (x.getD i 0 + y.getD i 0) / 2 := by
    intro i hi
    have h1 : i < x.length := by omega
    have h2 : i < y.length := by omega
    simp [z, List.getD_eq_getElem?_getD, h1, h2]
  have hw : ∀ k, weightsOf (flat n ws) z k = (weightsOf (flat n ws) x k + weightsOf (flat n ws) y k) / 2 := by
    intro k
    rw [weightsOf_eq _ z z1, weightsOf_eq _ x x1, weightsOf_eq _ y y1, ← sum_add_distrib, sum_div]
    refine sum_congr rfl fun i hi => ?_
    rw [hz i (mem_range.mp hi)]
    ring
  have hzf : (NSlack.qpOf d neg C n ws 0).Feasible z := by
    rw [NSlack.feasible_qpOf]
    refine ⟨by rw [z1, flat_length], fun i hi => ?_, fun i hi => ?_, fun k hk => ?_⟩
    · rw [hz i (by omega)]
      have := x2 i (by omega)
      have := y2 i (by omega)
      linarith
    · have hs : slice ws z i = List.zipWith (fun u v => (u + v) / 2) (slice ws x i) (slice ws y i) := by
        unfold slice
        simp only [z, List.drop_zipWith, List.take_zipWith]
      rw [hs, sum_zipWith_mid _ _ (by rw [slice_length ws x1' hi, slice_length ws y1' hi])]
      have := x3 i hi
      have := y3 i hi
      linarith
    · rw [hw]
      have := x4 k hk
      have := y4 k hk
      linarith
  have hzv := hxm z hzf
  rw [nValue_eq d neg C C, nValue_eq d neg C C] at hxv hyv hzv
  rw [OneSlack.value_qpOf _ _ _ _ _ _ x1] at hxv hyv hzv
  rw [OneSlack.value_qpOf _ _ _ _ _ _ y1] at hxv hyv
  rw [OneSlack.value_qpOf _ _ _ _ _ _ z1] at hzv
  generalize flat n ws = cs at *
  have hlin : ∑ i ∈ range cs.length, z.getD i 0 * (con cs i).2 =
      (∑ i ∈ range cs.length, x.getD i 0 * (con cs i).2 + ∑ i ∈ range cs.length, y.getD i 0 * (con cs i).2) / 2 := by
    rw [← sum_add_distrib, sum_div]
    refine sum_congr rfl fun i hi => ?_
    rw [hz i (mem_range.mp hi)]
    ring
  have hquad : dot d (weightsOf cs z) (weightsOf cs z) = (dot d (weightsOf cs x) (weightsOf cs x) +
      dot d (weightsOf cs y) (weightsOf cs y)) / 2 - (∑ k ∈ range d, (weightsOf cs x k - weightsOf cs y k) ^ 2) / 4 := by
    unfold dot
    rw [← sum_add_distrib, sum_div, sum_div, ← sum_sub_distrib]
    refine sum_congr rfl fun k _ => ?_
    rw [hw]
    ring
  rw [hlin, hquad] at hzv
  simp only [zero_mul, add_zero] at hxv hyv hzv
  have hS : ∑ k ∈ range d, (weightsOf cs x k - weightsOf cs y k) ^ 2 ≤ 0 := by linarith
  have h0 := le_antisymm hS (sum_nonneg fun k _ => sq_nonneg _)
  rw [sum_eq_zero_iff_of_nonneg fun k _ => sq_nonneg _] at h0
  intro k hk
  have := h0 k (mem_range.mpr hk)
  have := pow_eq_zero_iff (two_ne_zero) |>.mp this
  linarith

theorem nSolveQP_units {d : ℕ} (ha : 0 < a) (hb : 0 < b) (hρ : Reorders ρ d) {qp qp' : QP.Solver} (hq : QP.Exact qp) (hqc : QP.Complete qp)
    (hq' : QP.Exact qp') (hqc' : QP.Complete qp') {ws ws' : WS Y} (h : WSUnits ρ a b d ws ws')
    (neg : Option (List ℕ)) (C : ℚ) (hC : 0 ≤ C) (n : ℕ) :
    BothRun (fun s s' => Multiple ρ (a / b) d (weightsOf (flat n ws) s.x) (weightsOf (flat n ws') s'.x) ∧
        s'.primalObjective = (a / b) ^ 2 * s.primalObjective)
      (NSlack.solveQP qp d neg C n ws) (NSlack.solveQP qp' d (reorderNeg ρ neg) (C * (a / b ^ 2)) n ws') := by
  have hfl := flat_units h n
  have hem : (flat n ws').isEmpty = (flat n ws).isEmpty := by
    generalize flat n ws = l at hfl
    generalize flat n ws' = l' at hfl
    cases hfl <;> rfl
  unfold NSlack.solveQP
  rw [hem, reorderNeg_any hρ]
  by_cases he : (flat n ws).isEmpty = true
  · rw [if_pos he, if_pos he]; exact .error _
  rw [if_neg he, if_neg he]
  by_cases hn : (neg.getD []).any (fun k => d ≤ k) = true
  · rw [if_pos hn, if_pos hn]; exact .error _
  rw [if_neg hn, if_neg hn]
  have hn' : ∀ k ∈ neg.getD [], k < d := by
    intro k hk
    by_contra hlt
    exact hn (List.any_eq_true.mpr ⟨k, hk, by simpa using hlt⟩)
  have hn2 : ∀ k ∈ (reorderNeg ρ neg).getD [], k < d := fun k hk => (hρ k).mp (hn' _ (mem_reorderNeg.mp hk))
  have hsymm := wsUnits_symm ha hb hρ h
  have hback : ∀ (eps eps' : ℚ) (x : List ℚ), (NSlack.qpOf d (reorderNeg ρ neg) (C * (a / b ^ 2)) n ws' eps).Feasible x →
      (NSlack.qpOf d neg C n ws eps').Feasible (scaleList (a⁻¹ / b⁻¹ ^ 2) x) := by
    intro eps eps' x hx
    have := nFeasible_units (inv_pos.mpr ha) (inv_pos.mpr hb) (reorders_symm hρ) hsymm n _ hn2 _ eps eps' x hx
    have e : C * (a / b ^ 2) * (a⁻¹ / b⁻¹ ^ 2) = C := by field_simp
    rwa [e, reorderNeg_symm] at this
  have hopt := QP.nSlack_optimal d neg C hC n ws 0 le_rfl
  have hopt' := QP.nSlack_optimal d (reorderNeg ρ neg) (C * (a / b ^ 2)) (by positivity) n ws' 0 le_rfl
  have hs := hqc _ hopt
  have hs' := hqc' _ hopt'
  cases e1 : qp (NSlack.qpOf d neg C n ws 0) with
  | none => rw [e1] at hs; cases hs
  | some s =>
    cases e2 : qp' (NSlack.qpOf d (reorderNeg ρ neg) (C * (a / b ^ 2)) n ws' 0) with
    | none => rw [e2] at hs'; cases hs'
    | some s' =>
      simp only
      obtain ⟨sf, sv⟩ := hq.1 _ _ e1
      obtain ⟨sf', sv'⟩ := hq'.1 _ _ e2
      have sl : s.x.length = (flat n ws).length := by
        rw [flat_length]; exact ((NSlack.feasible_qpOf _ _ _ _ _ _ _).mp sf).1
      have sl' : s'.x.length = (flat n ws').length := by
        rw [flat_length]; exact ((NSlack.feasible_qpOf _ _ _ _ _ _ _).mp sf').1
      have hv : (NSlack.qpOf d (reorderNeg ρ neg) (C * (a / b ^ 2)) n ws' 0).value (scaleList (a / b ^ 2) s.x) = (a / b) ^ 2 *
          s.primalObjective := by
        rw [sv]; exact value_units hb hρ hfl neg (reorderNeg ρ neg) C (C * (a / b ^ 2)) _ sl
      have hle1 : s'.primalObjective ≤ (a / b) ^ 2 * s.primalObjective := by
        rw [← hv]
        exact hq'.2 _ _ e2 _ (nFeasible_units ha hb hρ h n neg hn' C 0 0 _ sf)
      have hle2 : (a / b) ^ 2 * s.primalObjective ≤ s'.primalObjective := by
        have h1 := hq.2 _ _ e1 _ (hback 0 0 _ sf')
        rw [nValue_eq d neg C C, value_units (inv_pos.mpr hb) (reorders_symm hρ) (flat_units hsymm n) (reorderNeg ρ neg) neg (C * (a / b ^ 2)) C _ sl',
          ← nValue_eq d (reorderNeg ρ neg) (C * (a / b ^ 2)), ← sv'] at h1
        have e : (a⁻¹ / b⁻¹) ^ 2 = ((a / b) ^ 2)⁻¹ := by field_simp
        rw [e, inv_mul_eq_div, le_div_iff₀ (by positivity)] at h1
        linarith
      have heq := le_antisymm hle1 hle2
      refine .ok ⟨?_, heq⟩
      intro k hk
      have hu := nOptimal_weights_unique d (reorderNeg ρ neg) (C * (a / b ^ 2)) n ws' s'.x (scaleList (a / b ^ 2) s.x)
        ⟨sf', fun x hx => by rw [← sv']; exact hq'.2 _ _ e2 x hx⟩
        ⟨nFeasible_units ha hb hρ h n neg hn' C 0 0 _ sf, fun x hx => by
          rw [hv, ← heq]; exact hq'.2 _ _ e2 x hx⟩ k hk
      rw [hu, weights_units hfl _ _ sl k hk]
      congr 1
      field_simp

/-- the parameters of NSlackSSVM in other units. -/
def nConfigUnits (ρ : Equiv.Perm ℕ) (a b : ℚ) (cfg : NSlack.Config) : NSlack.Config :=
  { cfg with C := cfg.C * a / b ^ 2, tol := (a / b) ^ 2 * cfg.tol, negativity := reorderNeg ρ cfg.negativity }

/-- states in the two units. -/
structure NUnits (ρ : Equiv.Perm ℕ) (a b : ℚ) (f : X → X') (d : ℕ) (st : NSlack.St X Y) (st' : NSlack.St X' Y) : Prop where
  units : OtherUnits ρ a b f st.model st'.model
  dim : st.model.dim = d
  switched : st'.switched = st.switched
  w : Multiple ρ (a / b) d st.w st'.w
  ws : WSUnits ρ a b d st.ws st'.ws
  objectiveCurve : st'.objectiveCurve = st.objectiveCurve.map fun v => (a / b) ^ 2 * v
  primalCurve : st'.primalCurve = st.primalCurve.map fun v => (a / b) ^ 2 * v
  lossCurve : st'.lossCurve = st.lossCurve
  objective : st'.objective = st.objective.map fun v => (a / b) ^ 2 * v

/-- the inference methods that may be switched to give the same outputs. -/
def AltUnits (ρ : Equiv.Perm ℕ) (a b : ℚ) (f : X → X') (d : ℕ) :
    Option ((X → Y → W → Bool → Y) × (X → W → Y)) → Option ((X' → Y → W → Bool → Y) × (X' → W → Y)) → Prop
  | none, none => True
  | some p, some p' => (∀ x y w w' r, Multiple ρ (a / b) d w w' → p'.1 (f x) y w' r = p.1 x y w r) ∧
    ∀ x w w', Multiple ρ (a / b) d w w' → p'.2 (f x) w' = p.2 x w
  | _, _ => False

theorem nSolve_units (ha : 0 < a) (hb : 0 < b) {qp qp' : QP.Solver} (hq : QP.Exact qp) (hqc : QP.Complete qp)
    (hq' : QP.Exact qp') (hqc' : QP.Complete qp') (cfg : NSlack.Config) (hw0 : cfg.inactiveWindow = 0) (hC : 0 ≤ cfg.C) (n : ℕ) {d : ℕ}
    {st : NSlack.St X Y} {st' : NSlack.St X' Y} (hs : NUnits ρ a b f d st st') :
    BothRun (NUnits ρ a b f d) (NSlack.solve qp cfg n st) (NSlack.solve qp' (nConfigUnits ρ a b cfg) n st') := by
  unfold NSlack.solve
  have h1 := nSolveQP_units ha hb (hs.dim ▸ hs.units.order) hq hqc hq' hqc' hs.ws cfg.negativity cfg.C hC n
  rw [show (nConfigUnits ρ a b cfg).negativity = reorderNeg ρ cfg.negativity from rfl,
    show (nConfigUnits ρ a b cfg).C = cfg.C * (a / b ^ 2) by unfold nConfigUnits; ring, hs.units.dim, hs.dim]
  generalize NSlack.solveQP qp d cfg.negativity cfg.C n st.ws = r at h1 ⊢
  generalize NSlack.solveQP qp' d (reorderNeg ρ cfg.negativity) (cfg.C * (a / b ^ 2)) n st'.ws = r' at h1 ⊢
  cases h1 with
  | error e => exact .error e
  | @ok s s' hss =>
    have p1 : NSlack.prune cfg n st.ws st.lastActive s.x = .ok (st.ws, st.lastActive) := by
      unfold NSlack.prune; rw [if_pos hw0]
    have p2 : NSlack.prune (nConfigUnits ρ a b cfg) n st'.ws st'.lastActive s'.x = .ok (st'.ws, st'.lastActive) := by
      unfold NSlack.prune; rw [if_pos (show (nConfigUnits ρ a b cfg).inactiveWindow = 0 from hw0)]
    simp only [p1, p2]
    refine .ok ⟨hs.units, hs.dim, hs.switched, hss.1, hs.ws, hs.objectiveCurve, hs.primalCurve, hs.lossCurve, ?_⟩
    simp only [Option.map_some, hss.2]
    congr 1
    ring

theorem nCheckBad_units (ha : a = 1) (hb : 0 < b) (cfg : NSlack.Config) (eq : Y → Y → Bool) {d : ℕ} (hρ : Reorders ρ d) {w w' : W}
    (hw : Multiple ρ (a / b) d w w') (z : Y) {sl sl' : ℚ} (hsl : sl' = a * sl) {old old' : List (NCon Y)}
    (hold : List.Forall₂ (NConUnits ρ a b d) old old') :
    NSlack.checkBad (nConfigUnits ρ a b cfg) eq d w' z sl' old' = NSlack.checkBad cfg eq d w z sl old := by
  subst ha
  rw [one_mul] at hsl
  subst hsl
  unfold NSlack.checkBad
  have h1 : old'.any (fun c => eq z c.yhat) = old.any (fun c => eq z c.yhat) := by
    induction hold with
    | nil => rfl
    | cons hc _ ih => rw [List.any_cons, List.any_cons, ih, hc.1]
  have h2 : old'.any (fun c => decide (sl' - max (c.loss - dot d w' c.dj) 0 < -(1 / 10 ^ 5))) =
      old.any (fun c => decide (sl' - max (c.loss - dot d w c.dj) 0 < -(1 / 10 ^ 5))) := by
    clear h1
    induction hold with
    | nil => rfl
    | cons hc _ ih =>
      rw [List.any_cons, List.any_cons, ih, hc.2.2, dot_units hρ hw hc.2.1, div_mul_cancel₀ _ hb.ne', one_mul, one_mul]
  rw [h1, h2]
  rfl

/-- the samples with their indices, as the other model gets them. -/
def indexedUnits (f : X → X') (l : List (ℕ × X × Y)) : List (ℕ × X' × Y) := l.map fun s => (s.1, f s.2.1, s.2.2)

/-- what a batch has collected, in the two units. -/
def AccUnits (ρ : Equiv.Perm ℕ) (a b : ℚ) (d : ℕ) (p p' : WS Y × ℚ × ℕ) : Prop :=
  WSUnits ρ a b d p.1 p'.1 ∧ p'.2.1 = a * p.2.1 ∧ p'.2.2 = p.2.2

theorem addNew_units (ha1 : a = 1) (hb : 0 < b) (h : OtherUnits ρ a b f m m') (cfg : NSlack.Config) (eq : Y → Y → Bool)
    {w w' : W} (hw : Multiple ρ (a / b) m.dim w w') {p p' : WS Y × ℚ × ℕ} (hp : AccUnits ρ a b m.dim p p') (s : ℕ × X × Y) :
    BothRun (AccUnits ρ a b m.dim) (NSlack.addNew cfg eq m w p s)
      (NSlack.addNew (nConfigUnits ρ a b cfg) eq m' w' p' (s.1, f s.2.1, s.2.2)) := by
  have ha : 0 < a := by rw [ha1]; exact one_pos
  obtain ⟨h1, h2, h3, h4⟩ := findConstraint_units ha hb h s.2.1 s.2.2 hw
  obtain ⟨hws, hsum, hnew⟩ := hp
  unfold NSlack.addNew
  simp only [h1, h3, h4, h.dim, hsum, hnew, ← mul_add]
  have hpos := mul_pos_iff_of_pos_left ha (b := (findConstraint m s.2.1 s.2.2 w none true true).loss)
  by_cases hl : ¬ 0 < (findConstraint m s.2.1 s.2.2 w none true true).loss
  · rw [if_pos hl, if_pos (hpos.not.mpr hl)]
    exact .ok ⟨hws, rfl, rfl⟩
  · rw [if_neg hl, if_neg (not_not.mpr (hpos.mpr (not_not.mp hl))), nCheckBad_units ha1 hb cfg eq h.order hw _ rfl (hws s.1)]
    cases NSlack.checkBad cfg eq m.dim w (findConstraint m s.2.1 s.2.2 w none true true).yhat
        (findConstraint m s.2.1 s.2.2 w none true true).slack (p.1 s.1) with
    | error e => exact .error e
    | ok v =>
      cases v with
      | true => exact .ok ⟨hws, rfl, rfl⟩
      | false =>
        refine .ok ⟨fun i => ?_, rfl, rfl⟩
        by_cases hi : i = s.1
        · subst hi
          simp only [Function.update_self]
          exact List.rel_append (hws s.1) (List.Forall₂.cons ⟨rfl, h2, rfl⟩ List.Forall₂.nil)
        · simp only [Function.update_of_ne hi]
          exact hws i

theorem addAll_units (ha1 : a = 1) (hb : 0 < b) (h : OtherUnits ρ a b f m m') (cfg : NSlack.Config) (eq : Y → Y → Bool)
    {w w' : W} (hw : Multiple ρ (a / b) m.dim w w') : ∀ (l : List (ℕ × X × Y)) {p p' : WS Y × ℚ × ℕ}, AccUnits ρ a b m.dim p p' →
    BothRun (AccUnits ρ a b m.dim) (NSlack.addAll cfg eq m w l p) (NSlack.addAll (nConfigUnits ρ a b cfg) eq m' w' (indexedUnits f l) p') := by
  intro l
  induction l with
  | nil => intro p p' hp; exact .ok hp
  | cons s l ih =>
    intro p p' hp
    rw [show indexedUnits f (s :: l) = (s.1, f s.2.1, s.2.2) :: indexedUnits f l from rfl]
    unfold NSlack.addAll
    have h1 := addNew_units ha1 hb h cfg eq hw hp s
    generalize NSlack.addNew cfg eq m w p s = r at h1 ⊢
    generalize NSlack.addNew (nConfigUnits ρ a b cfg) eq m' w' p' (s.1, f s.2.1, s.2.2) = r' at h1 ⊢
    cases h1 with
    | error e => exact .error e
    | ok hr => exact ih hr

/-- what the batches have done so far, in the two units. -/
def RunUnits (ρ : Equiv.Perm ℕ) (a b : ℚ) (f : X → X') (d : ℕ) (p : (NSlack.St X Y × ℚ × ℕ) × Bool) (p' : (NSlack.St X' Y × ℚ × ℕ) × Bool) : Prop :=
  NUnits ρ a b f d p.1.1 p'.1.1 ∧ p'.1.2.1 = a * p.1.2.1 ∧ p'.1.2.2 = p.1.2.2 ∧ p'.2 = p.2

theorem runBatch_units (ha1 : a = 1) (hb : 0 < b) {qp qp' : QP.Solver} (hq : QP.Exact qp) (hqc : QP.Complete qp)
    (hq' : QP.Exact qp') (hqc' : QP.Complete qp') (eq : Y → Y → Bool) (cfg : NSlack.Config) (hw0 : cfg.inactiveWindow = 0)
    (hC : 0 ≤ cfg.C) (n : ℕ) (intr : Option Phase) {d : ℕ} (l : List (ℕ × X × Y)) {p : NSlack.St X Y × ℚ × ℕ}
    {p' : NSlack.St X' Y × ℚ × ℕ} (hs : NUnits ρ a b f d p.1 p'.1) (h1 : p'.2.1 = a * p.2.1) (h2 : p'.2.2 = p.2.2) :
    BothRun (RunUnits ρ a b f d) (NSlack.runBatch qp eq cfg n intr l p)
      (NSlack.runBatch qp' eq (nConfigUnits ρ a b cfg) n intr (indexedUnits f l) p') := by
  have ha : 0 < a := by rw [ha1]; exact one_pos
  unfold NSlack.runBatch
  by_cases hi : intr = some .search
  · rw [if_pos hi, if_pos hi]; exact .ok ⟨hs, h1, h2, rfl⟩
  rw [if_neg hi, if_neg hi]
  have hws := hs.ws
  rw [← hs.dim] at hws
  have hw := hs.w
  rw [← hs.dim] at hw
  have h3 := addAll_units ha1 hb hs.units cfg eq hw l (p := (p.1.ws, p.2.1, 0)) (p' := (p'.1.ws, p'.2.1, 0)) ⟨hws, h1, rfl⟩
  generalize NSlack.addAll cfg eq p.1.model p.1.w l (p.1.ws, p.2.1, 0) = r at h3 ⊢
  generalize NSlack.addAll (nConfigUnits ρ a b cfg) eq p'.1.model p'.1.w (indexedUnits f l) (p'.1.ws, p'.2.1, 0) = r' at h3 ⊢
  cases h3 with
  | error e => exact .error e
  | @ok q q' hqq =>
    obtain ⟨ws, sl, new⟩ := q
    obtain ⟨ws', sl', new'⟩ := q'
    obtain ⟨e1, e2, e3⟩ := hqq
    simp only at e1 e2 e3
    subst e2 e3
    rw [hs.dim] at e1
    have hst : NUnits ρ a b f d { p.1 with ws := ws } { p'.1 with ws := ws' } :=
      ⟨hs.units, hs.dim, hs.switched, hs.w, e1, hs.objectiveCurve, hs.primalCurve, hs.lossCurve, hs.objective⟩
    simp only
    by_cases hi2 : intr = some .qp
    · rw [if_pos hi2, if_pos hi2]; exact .ok ⟨hst, rfl, h2, rfl⟩
    rw [if_neg hi2, if_neg hi2]
    by_cases hn : new' = 0
    · rw [if_pos hn, if_pos hn]; exact .ok ⟨hst, rfl, h2, rfl⟩
    rw [if_neg hn, if_neg hn]
    have h4 := nSolve_units ha hb hq hqc hq' hqc' cfg hw0 hC n hst
    generalize NSlack.solve qp cfg n { p.1 with ws := ws } = r at h4 ⊢
    generalize NSlack.solve qp' (nConfigUnits ρ a b cfg) n { p'.1 with ws := ws' } = r' at h4 ⊢
    cases h4 with
    | error e => exact .error e
    | ok hr => exact .ok ⟨hr, rfl, by simp only [h2], rfl⟩

theorem runBatches_units (ha1 : a = 1) (hb : 0 < b) {qp qp' : QP.Solver} (hq : QP.Exact qp) (hqc : QP.Complete qp)
    (hq' : QP.Exact qp') (hqc' : QP.Complete qp') (eq : Y → Y → Bool) (cfg : NSlack.Config) (hw0 : cfg.inactiveWindow = 0)
    (hC : 0 ≤ cfg.C) (n : ℕ) (intr : ℕ → Option Phase) {d : ℕ} : ∀ (ls : List (List (ℕ × X × Y))) (j : ℕ)
    {p : NSlack.St X Y × ℚ × ℕ} {p' : NSlack.St X' Y × ℚ × ℕ}, NUnits ρ a b f d p.1 p'.1 → p'.2.1 = a * p.2.1 → p'.2.2 = p.2.2 →
    BothRun (RunUnits ρ a b f d) (NSlack.runBatches qp eq cfg n intr ls j p)
      (NSlack.runBatches qp' eq (nConfigUnits ρ a b cfg) n intr (ls.map (indexedUnits f)) j p') := by
  intro ls
  induction ls with
  | nil => intro j p p' hs h1 h2; exact .ok ⟨hs, h1, h2, rfl⟩
  | cons l ls ih =>
    intro j p p' hs h1 h2
    rw [List.map_cons]
    unfold NSlack.runBatches
    have h3 := runBatch_units ha1 hb hq hqc hq' hqc' eq cfg hw0 hC n (intr j) l hs h1 h2
    generalize NSlack.runBatch qp eq cfg n (intr j) l p = r at h3 ⊢
    generalize NSlack.runBatch qp' eq (nConfigUnits ρ a b cfg) n (intr j) (indexedUnits f l) p' = r' at h3 ⊢
    cases h3 with
    | error e => exact .error e
    | @ok q q' hqq =>
      obtain ⟨q, v⟩ := q
      obtain ⟨q', v'⟩ := q'
      obtain ⟨e1, e2, e3, e4⟩ := hqq
      simp only at e1 e2 e3 e4
      subst e4
      cases v' with
      | true => exact .ok ⟨e1, e2, e3, rfl⟩
      | false => exact ih (j + 1) e1 e2 e3

theorem batches_units (data : List (ℕ × X × Y)) (bs : ℤ) :
    NSlack.batches (indexedUnits f data) bs = (NSlack.batches data bs).map fun ls => ls.map (indexedUnits f) := by
  have hlen : (indexedUnits f data).length = data.length := by unfold indexedUnits; simp
  unfold NSlack.batches
  by_cases h : bs < 1 ∧ bs ≠ -1
  · rw [if_pos h, if_pos h]; rfl
  rw [if_neg h, if_neg h]
  simp only [hlen]
  generalize (if bs = -1 then (data.length : ℤ) else bs) = c
  by_cases h0 : c = 0
  · rw [if_pos h0, if_pos h0]; rfl
  rw [if_neg h0, if_neg h0]
  cases Subgradient.evenSlices data.length (Subgradient.ceilDiv data.length c) with
  | error e => rfl
  | ok sl =>
    simp only [Except.map, Subgradient.cut, indexedUnits, List.map_map]
    congr 1
    refine List.map_congr_left fun p _ => ?_
    simp [Function.comp, indexedUnits, List.map_take, List.map_drop]

theorem indexed_units (samples : List (X × Y)) : NSlack.indexed (inUnits f samples) = indexedUnits f (NSlack.indexed samples) := by
  unfold NSlack.indexed indexedUnits inUnits
  rw [List.length_map, List.zip_map_right]
  refine List.map_congr_left fun p _ => rfl

theorem converged_units {c : ℚ} (hc : 0 < c) (tol : ℚ) (it : ℕ) (prev : List ℚ) (obj : ℚ) :
    NSlack.converged (c * tol) it (prev.map fun v => c * v) (c * obj) = NSlack.converged tol it prev obj := by
  unfold NSlack.converged
  rw [getLast?_units]
  cases prev.getLast? with
  | none => rfl
  | some p =>
    simp only [Option.map_some, ← mul_sub]
    simp only [mul_lt_mul_iff_right₀ hc]

theorem otherUnits_switch {d : ℕ} (h : OtherUnits ρ a b f m m') (hd : m.dim = d) {la : X → Y → W → Bool → Y} {inf : X → W → Y}
    {la' : X' → Y → W → Bool → Y} {inf' : X' → W → Y}
    (h1 : ∀ x y w w' r, Multiple ρ (a / b) d w w' → la' (f x) y w' r = la x y w r)
    (h2 : ∀ x w w', Multiple ρ (a / b) d w w' → inf' (f x) w' = inf x w) :
    OtherUnits ρ a b f { m with lossAug := la, inference := inf } { m' with lossAug := la', inference := inf' } where
  order := h.order
  dim := h.dim
  rescaleC := h.rescaleC
  isTuple := h.isTuple
  feature := h.feature
  featureR := h.featureR
  loss := h.loss
  continuousLoss := h.continuousLoss
  maxLoss := h.maxLoss
  lossAug x y w w' r hw := h1 x y w w' r (by rw [← hd]; exact hw)
  inference x w w' hw := h2 x w w' (by rw [← hd]; exact hw)

theorem nIteration_units (ha1 : a = 1) (hb : 0 < b) {qp qp' : QP.Solver} (hq : QP.Exact qp) (hqc : QP.Complete qp)
    (hq' : QP.Exact qp') (hqc' : QP.Complete qp') (eq : Y → Y → Bool) {d : ℕ}
    {alt : Option ((X → Y → W → Bool → Y) × (X → W → Y))} {alt' : Option ((X' → Y → W → Bool → Y) × (X' → W → Y))}
    (halt : AltUnits ρ a b f d alt alt') (cfg : NSlack.Config) (hw0 : cfg.inactiveWindow = 0)
    (hC : 0 ≤ cfg.C) (samples : List (X × Y)) (it : ℕ) (intr : ℕ → Option Phase)
    {st : NSlack.St X Y} {st' : NSlack.St X' Y} (hs : NUnits ρ a b f d st st') :
    BothRun (fun r r' => NUnits ρ a b f d r.1 r'.1 ∧ r'.2 = r.2) (NSlack.iteration qp eq alt cfg samples it intr st)
      (NSlack.iteration qp' eq alt' (nConfigUnits ρ a b cfg) (inUnits f samples) it intr st') := by
  have ha : 0 < a := by rw [ha1]; exact one_pos
  have hc : 0 < (a / b) ^ 2 := by positivity
  have hlen : (inUnits f samples).length = samples.length := by unfold inUnits; simp
  unfold NSlack.iteration
  rw [show (nConfigUnits ρ a b cfg).batchSize = cfg.batchSize from rfl, indexed_units, batches_units, hlen]
  cases NSlack.batches (NSlack.indexed samples) cfg.batchSize with
  | error e => exact .error e
  | ok bs =>
    simp only [Except.map]
    have h3 := runBatches_units ha1 hb hq hqc hq' hqc' eq cfg hw0 hC samples.length intr bs 0 (p := (st, 0, 0))
      (p' := (st', 0, 0)) hs (mul_zero _).symm rfl
    generalize NSlack.runBatches qp eq cfg samples.length intr bs 0 (st, 0, 0) = r at h3 ⊢
    generalize NSlack.runBatches qp' eq (nConfigUnits ρ a b cfg) samples.length intr (bs.map (indexedUnits f)) 0 (st', 0, 0) = r' at h3 ⊢
    cases h3 with
    | error e => exact .error e
    | @ok q q' hqq =>
      obtain ⟨⟨s, sl, new⟩, v⟩ := q
      obtain ⟨⟨s', sl', new'⟩, v'⟩ := q'
      obtain ⟨e1, e2, e3, e4⟩ := hqq
      simp only at e1 e2 e3 e4
      subst e2 e3 e4
      cases v' with
      | true => exact .ok ⟨e1, rfl⟩
      | false =>
        simp only [e1.objective]
        cases hob : s.objective with
        | none => exact .error _
        | some obj =>
          simp only [Option.map_some]
          have hw := e1.w
          rw [← e1.dim] at hw
          have hprimal : cfg.C * a / b ^ 2 * (a * sl) + (∑ k ∈ range s.model.dim, s'.w k ^ 2) / 2 =
              (a / b) ^ 2 * (cfg.C * sl + (∑ k ∈ range s.model.dim, s.w k ^ 2) / 2) := by
            rw [sumSq_units e1.units.order hw]
            field_simp
          have hstop : (decide (new' = 0) || NSlack.converged (nConfigUnits ρ a b cfg).tol it s'.objectiveCurve ((a / b) ^ 2 * obj)) =
              (decide (new' = 0) || NSlack.converged cfg.tol it s.objectiveCurve obj) := by
            rw [show (nConfigUnits ρ a b cfg).tol = (a / b) ^ 2 * cfg.tol from rfl, e1.objectiveCurve, converged_units hc]
          rw [hstop, show (nConfigUnits ρ a b cfg).C = cfg.C * a / b ^ 2 from rfl, e1.units.dim, hprimal,
            show (nConfigUnits ρ a b cfg).showLossEvery = cfg.showLossEvery from rfl, e1.lossCurve,
            trainingLoss_units ha e1.units samples hw cfg.showLossEvery it s.lossCurve]
          have hoc : s'.objectiveCurve ++ [(a / b) ^ 2 * obj] = (s.objectiveCurve ++ [obj]).map fun v => (a / b) ^ 2 * v := by
            rw [e1.objectiveCurve]; simp
          have hpc : s'.primalCurve ++ [(a / b) ^ 2 * (cfg.C * sl + (∑ k ∈ range s.model.dim, s.w k ^ 2) / 2)] =
              (s.primalCurve ++ [cfg.C * sl + (∑ k ∈ range s.model.dim, s.w k ^ 2) / 2]).map fun v => (a / b) ^ 2 * v := by
            rw [e1.primalCurve]; simp
          by_cases hst : (decide (new' = 0) || NSlack.converged cfg.tol it s.objectiveCurve obj) = true
          · rw [if_pos hst, if_pos hst, e1.switched]
            cases hsw : s.switched with
            | true =>
              cases alt <;> cases alt' <;>
                exact .ok ⟨⟨e1.units, e1.dim, rfl, e1.w, e1.ws, hoc, hpc, rfl, rfl⟩, rfl⟩
            | false =>
              cases alt with
              | none =>
                cases alt' with
                | none => exact .ok ⟨⟨e1.units, e1.dim, rfl, e1.w, e1.ws, hoc, hpc, rfl, rfl⟩, rfl⟩
                | some p' => exact absurd halt (by simp [AltUnits])
              | some p =>
                cases alt' with
                | none => exact absurd halt (by simp [AltUnits])
                | some p' =>
                  obtain ⟨la, inf⟩ := p
                  obtain ⟨la', inf'⟩ := p'
                  have hsm := otherUnits_switch e1.units e1.dim halt.1 halt.2
                  simp only [e1.units.dim] at hsm
                  exact .ok ⟨⟨hsm, e1.dim, rfl, e1.w, e1.ws, hoc, hpc, rfl, rfl⟩, rfl⟩
          · rw [if_neg hst, if_neg hst]
            exact .ok ⟨⟨e1.units, e1.dim, e1.switched, e1.w, e1.ws, hoc, hpc, rfl, rfl⟩, rfl⟩

theorem nLoop_units (ha1 : a = 1) (hb : 0 < b) {qp qp' : QP.Solver} (hq : QP.Exact qp) (hqc : QP.Complete qp)
    (hq' : QP.Exact qp') (hqc' : QP.Complete qp') (eq : Y → Y → Bool) {d : ℕ}
    {alt : Option ((X → Y → W → Bool → Y) × (X → W → Y))} {alt' : Option ((X' → Y → W → Bool → Y) × (X' → W → Y))}
    (halt : AltUnits ρ a b f d alt alt') (cfg : NSlack.Config) (hw0 : cfg.inactiveWindow = 0)
    (hC : 0 ≤ cfg.C) (samples : List (X × Y)) (intr : ℕ → ℕ → Option Phase) :
    ∀ (n it : ℕ) {st : NSlack.St X Y} {st' : NSlack.St X' Y}, NUnits ρ a b f d st st' →
    BothRun (fun r r' => NUnits ρ a b f d r.1 r'.1 ∧ r'.2 = r.2) (NSlack.loop qp eq alt cfg samples intr n it st)
      (NSlack.loop qp' eq alt' (nConfigUnits ρ a b cfg) (inUnits f samples) intr n it st') := by
  intro n
  induction n with
  | zero => intro it st st' hs; exact .ok ⟨hs, rfl⟩
  | succ n ih =>
    intro it st st' hs
    unfold NSlack.loop
    have h1 := nIteration_units ha1 hb hq hqc hq' hqc' eq halt cfg hw0 hC samples it (intr it) hs
    generalize NSlack.iteration qp eq alt cfg samples it (intr it) st = r at h1 ⊢
    generalize NSlack.iteration qp' eq alt' (nConfigUnits ρ a b cfg) (inUnits f samples) it (intr it) st' = r' at h1 ⊢
    cases h1 with
    | error e => exact .error e
    | @ok r r' hr =>
      obtain ⟨s, out⟩ := r
      obtain ⟨s', out'⟩ := r'
      obtain ⟨e1, e2⟩ := hr
      simp only at e1 e2
      subst e2
      cases out' with
      | goOn => exact ih (it + 1) e1
      | interrupted => exact .ok ⟨e1, rfl⟩
      | stopped v => exact .ok ⟨e1, rfl⟩

/-- what `fit` of NSlackSSVM leaves on the learner, in the two units. -/
structure NAttrsUnits (ρ : Equiv.Perm ℕ) (a b : ℚ) (d : ℕ) (r r' : NSlack.Attrs Y) : Prop where
  n : r'.n = r.n
  w : Multiple ρ (a / b) d r.w r'.w
  constraints : WSUnits ρ a b d r.constraints r'.constraints
  objectiveCurve : r'.objectiveCurve = r.objectiveCurve.map fun v => (a / b) ^ 2 * v
  primalCurve : r'.primalCurve = r.primalCurve.map fun v => (a / b) ^ 2 * v

/-- a learner and the learner for the other units. -/
structure NObjUnits (ρ : Equiv.Perm ℕ) (a b : ℚ) (d : ℕ) (o o' : NSlack.Obj Y) : Prop where
  cfg : o'.cfg = nConfigUnits ρ a b o.cfg
  attrs : Option.Rel (NAttrsUnits ρ a b d) o.attrs o'.attrs
  lossCurve : o'.lossCurve = o.lossCurve

theorem nStart_units (ha : 0 < a) (hb : 0 < b) (h : OtherUnits ρ a b f m m') {qp qp' : QP.Solver} (hq : QP.Exact qp)
    (hqc : QP.Complete qp) (hq' : QP.Exact qp') (hqc' : QP.Complete qp') {o o' : NSlack.Obj Y} (ho : NObjUnits ρ a b m.dim o o')
    (hw0 : o.cfg.inactiveWindow = 0) (hC : 0 ≤ o.cfg.C) (n : ℕ) {cs cs' : Option (List (List (NCon Y)))}
    (hcs : Option.Rel (List.Forall₂ (List.Forall₂ (NConUnits ρ a b m.dim))) cs cs') :
    BothRun (NUnits ρ a b f m.dim) (NSlack.start m qp o n cs) (NSlack.start m' qp' o' n cs') := by
  cases hcs with
  | none =>
    exact .ok ⟨h, rfl, rfl, fun k _ => (mul_zero _).symm, fun _ => List.Forall₂.nil, rfl, rfl, ho.lossCurve, rfl⟩
  | @some cs cs' hcs =>
    unfold NSlack.start
    simp only
    rw [← hcs.length_eq]
    by_cases hn : cs.length ≠ n
    · rw [if_pos hn, if_pos hn]; exact .error _
    rw [if_neg hn, if_neg hn]
    have hws : WSUnits ρ a b m.dim (fun i => cs.getD i []) fun i => cs'.getD i [] := by
      intro i
      clear hn
      induction hcs generalizing i with
      | nil => simp
      | cons hc _ ih =>
        cases i with
        | zero => simpa using hc
        | succ i => simpa using ih i
    have h1 := nSolveQP_units ha hb h.order hq hqc hq' hqc' hws o.cfg.negativity o.cfg.C hC n
    have hw0' : o'.cfg.inactiveWindow = 0 := by rw [ho.cfg]; exact hw0
    have hmi : o'.cfg.maxIter = o.cfg.maxIter := by rw [ho.cfg]; rfl
    rw [h.dim, show o'.cfg.negativity = reorderNeg ρ o.cfg.negativity by rw [ho.cfg]; rfl,
      show o'.cfg.C = o.cfg.C * (a / b ^ 2) by rw [ho.cfg]; unfold nConfigUnits; ring]
    generalize NSlack.solveQP qp m.dim o.cfg.negativity o.cfg.C n _ = r at h1 ⊢
    generalize NSlack.solveQP qp' m.dim (reorderNeg ρ o.cfg.negativity) (o.cfg.C * (a / b ^ 2)) n _ = r' at h1 ⊢
    cases h1 with
    | error e => exact .error e
    | ok _ =>
      simp only [hw0, hw0', hmi]
      have hat := ho.attrs
      generalize o.attrs = at1 at hat ⊢
      generalize o'.attrs = at2 at hat ⊢
      cases hat with
      | none => split_ifs <;> exact .error _
      | @some r r' hr =>
        simp only
        rw [hr.n]
        by_cases hrn : r.n < n
        · rw [if_pos hrn, if_pos hrn]; exact .error _
        rw [if_neg hrn, if_neg hrn, ho.cfg]
        exact nSolve_units ha hb hq hqc hq' hqc' o.cfg hw0 hC n ⟨h, rfl, rfl, fun k _ => (mul_zero _).symm, hws, hr.objectiveCurve,
          hr.primalCurve, ho.lossCurve, rfl⟩

theorem nFit_units (ha1 : a = 1) (hb : 0 < b) (h : OtherUnits ρ a b f m m') {qp qp' : QP.Solver} (hq : QP.Exact qp)
    (hqc : QP.Complete qp) (hq' : QP.Exact qp') (hqc' : QP.Complete qp') (eq : Y → Y → Bool)
    {alt : Option ((X → Y → W → Bool → Y) × (X → W → Y))} {alt' : Option ((X' → Y → W → Bool → Y) × (X' → W → Y))}
    (halt : AltUnits ρ a b f m.dim alt alt') (intr : ℕ → ℕ → Option Phase) {o o' : NSlack.Obj Y} (ho : NObjUnits ρ a b m.dim o o')
    (hw0 : o.cfg.inactiveWindow = 0) (hC : 0 ≤ o.cfg.C) (samples : List (X × Y)) {cs cs' : Option (List (List (NCon Y)))}
    (hcs : Option.Rel (List.Forall₂ (List.Forall₂ (NConUnits ρ a b m.dim))) cs cs') :
    BothRun (fun r r' => NObjUnits ρ a b m.dim r.1 r'.1 ∧ r'.2 = r.2) (NSlack.fit m qp eq alt intr o samples cs)
      (NSlack.fit m' qp' eq alt' intr o' (inUnits f samples) cs') := by
  have ha : 0 < a := by rw [ha1]; exact one_pos
  have hlen : (inUnits f samples).length = samples.length := by unfold inUnits; simp
  unfold NSlack.fit
  rw [hlen]
  have h1 := nStart_units ha hb h hq hqc hq' hqc' ho hw0 hC samples.length hcs
  generalize NSlack.start m qp o samples.length cs = r at h1 ⊢
  generalize NSlack.start m' qp' o' samples.length cs' = r' at h1 ⊢
  cases h1 with
  | error e => exact .error e
  | @ok st st' hst =>
    simp only
    rw [ho.cfg]
    have h2 := nLoop_units ha1 hb hq hqc hq' hqc' eq halt o.cfg hw0 hC samples intr o.cfg.maxIter 0 hst
    rw [show (nConfigUnits ρ a b o.cfg).maxIter = o.cfg.maxIter from rfl]
    generalize NSlack.loop qp eq alt o.cfg samples intr o.cfg.maxIter 0 st = r at h2 ⊢
    generalize NSlack.loop qp' eq alt' (nConfigUnits ρ a b o.cfg) (inUnits f samples) intr o.cfg.maxIter 0 st' = r' at h2 ⊢
    cases h2 with
    | error e => exact .error e
    | @ok r r' hr =>
      obtain ⟨s, out⟩ := r
      obtain ⟨s', out'⟩ := r'
      obtain ⟨e1, e2⟩ := hr
      simp only at e1 e2
      subst e2
      simp only
      by_cases hm : o.cfg.maxIter = 0
      · rw [if_pos hm, if_pos hm]; exact .error _
      rw [if_neg hm, if_neg hm]
      have hw := e1.w
      rw [← e1.dim] at hw
      have hp := objectivePrimal_units ha hb e1.units samples hw o.cfg.C true
      rw [show (nConfigUnits ρ a b o.cfg).C = o.cfg.C * a / b ^ 2 from rfl]
      generalize objectivePrimal s.model s.w samples o.cfg.C true = q at hp ⊢
      generalize objectivePrimal s'.model s'.w (inUnits f samples) (o.cfg.C * a / b ^ 2) true = q' at hp ⊢
      cases hp with
      | error e => exact .error e
      | @ok q q' hqq =>
        subst hqq
        simp only [e1.objective]
        cases hob : s.objective with
        | none => exact .error _
        | some obj =>
          refine .ok ⟨⟨rfl, Option.Rel.some ⟨rfl, e1.w, e1.ws, ?_, ?_⟩, e1.lossCurve⟩, rfl⟩
          · simp [e1.objectiveCurve]
          · simp [e1.primalCurve]

end Verif.Props
