import Verif.Props.C45
import Verif.Lemmas.Averaging

/-!
# C47, C49, C51 for Frank-Wolfe training: certificates, averaging, refitting
-/

namespace Verif.Props

open Finset Verif.Spec Verif.Learner Verif.FrankWolfe

variable {X Y : Type}

/-- the sum of the violations found by loss-augmented inference. -/
theorem batch_violations (m : SModel X Y) (outputs : X → Set Y) (hr : m.rescaleC = false)
    (samples : List (X × Y)) (w : W) :
    batchLossSum m samples w - dot m.dim w (batchDelta m samples w) =
      (samples.map fun s =>
        (problemOf m outputs).violation w s.1 s.2 (m.lossAug s.1 s.2 w true)).sum := by
  have hd : dot m.dim w (batchDelta m samples w) = (samples.map fun s =>
      ((problemOf m outputs).value w s.1 s.2 s.2 -
        (problemOf m outputs).value w s.1 s.2 (m.lossAug s.1 s.2 w true))).sum := by
    have e : ∀ k, batchDelta m samples w k = (samples.map fun s =>
        (m.jointFeature s.1 s.2 k - m.jointFeature s.1 (m.lossAug s.1 s.2 w true) k)).sum := by
      intro k
      unfold batchDelta
      induction samples with
      | nil => simp
      | cons s l ih => simp only [List.map_cons, List.sum_cons]; rw [← ih]; ring
    unfold dot
    have : ∀ k ∈ range m.dim, w k * batchDelta m samples w k = (samples.map fun s =>
        w k * (m.jointFeature s.1 s.2 k - m.jointFeature s.1 (m.lossAug s.1 s.2 w true) k)).sum := by
      intro k _; rw [e k, list_sum_mul_left]
    rw [sum_congr rfl this, list_sum_finset]
    congr 1
    apply List.map_congr_left
    intro s _
    unfold Problem.value
    change _ = ∑ k ∈ range m.dim, w k * m.feat s.1 s.2 s.2 k -
      ∑ k ∈ range m.dim, w k * m.feat s.1 (m.lossAug s.1 s.2 w true) s.2 k
    rw [← sum_sub_distrib]
    apply sum_congr rfl; intro k _
    unfold SModel.feat
    rw [if_neg (by simp [hr]), if_neg (by simp [hr])]; ring
  rw [hd]
  unfold batchLossSum
  rw [sub_eq_add_neg, ← neg_one_mul, ← list_sum_mul_left, ← list_sum_add]
  congr 1
  apply List.map_congr_left
  intro s _
  unfold Problem.violation
  change m.lossOf _ _ + _ = m.lossOf _ _ + _ - _
  ring

/-- with exact loss-augmented inference these violations are the hinge losses. -/
theorem violations_hinge (m : SModel X Y) (outputs : X → Set Y)
    (hLA : (problemOf m outputs).ExactLossAug (fun x y w => m.lossAug x y w true))
    (samples : List (X × Y)) (hl : (problemOf m outputs).Labelled samples) (w : W) :
    List.Forall₂ (fun s h => (problemOf m outputs).IsHinge w s.1 s.2 h) samples
      (samples.map fun s =>
        (problemOf m outputs).violation w s.1 s.2 (m.lossAug s.1 s.2 w true)) := by
  induction samples with
  | nil => exact List.Forall₂.nil
  | cons s l ih =>
    rw [List.map_cons]
    refine List.Forall₂.cons ?_ (ih fun t ht => hl t (by simp [ht]))
    obtain ⟨h1, h2⟩ := hLA s.1 s.2 w (hl s (by simp)).1 (hl s (by simp)).2
    refine ⟨⟨_, h1, rfl⟩, ?_⟩
    rintro v ⟨ŷ, hŷ, rfl⟩
    exact h2 ŷ hŷ

theorem fwDual_eq (P : Problem X Y) (n : ℕ) (C : ℚ) (w : ℕ → ℚ) (l : ℚ) :
    fwDual P.dim n C w l = P.dualValue C w (n * l) := by
  unfold fwDual Problem.dualValue
  rw [sum_sq_eq, sum_sq_mul]; ring

/-- **C47, the certificate.** For any weights, fresh or not, the primal value reported by `_calc_dual_gap`
is the regularised structured risk at these weights. If weights and loss term belong to a dual point (see
`C45_block_sums`), the gap is nonnegative, the dual value bounds the risk of every weight vector from below
and the weights are within the gap of optimal. -/
theorem C47_gap (m : SModel X Y) (outputs : X → Set Y)
    (hLA : (problemOf m outputs).ExactLossAug (fun x y w => m.lossAug x y w true))
    (samples : List (X × Y)) (hl : (problemOf m outputs).Labelled samples) (C : ℚ)
    (w : W) (l d g p : ℚ) (h : calcDualGap m C samples w l = .ok (d, g, p)) :
    (problemOf m outputs).IsObjective C samples w p ∧ p = d + g ∧
    (0 ≤ C → (problemOf m outputs).DualPoint C samples w (samples.length * l) →
      0 ≤ g ∧ ∀ w' obj, (problemOf m outputs).IsObjective C samples w' obj → d ≤ obj ∧ p ≤ obj + g) := by
  have hr : m.rescaleC = false := by
    cases hr : m.rescaleC
    · rfl
    · unfold calcDualGap at h; rw [if_pos hr] at h; cases h
  obtain ⟨hd, hp⟩ := calcDualGap_dual h
  have hobj : (problemOf m outputs).IsObjective C samples w p := by
    refine ⟨_, violations_hinge m outputs hLA samples hl w, ?_⟩
    rw [← batch_violations m outputs hr samples w]
    unfold calcDualGap at h
    rw [if_neg (by simp [hr])] at h
    simp only at h
    injection h with h
    simp only [Prod.mk.injEq] at h
    obtain ⟨_, _, h3⟩ := h
    rw [← h3]
    have e : dot m.dim (fun k => w k - batchDelta m samples w k * C) w =
        dot m.dim w w - C * dot m.dim w (batchDelta m samples w) := by
      rw [dot_sub_left]
      have : (fun k => batchDelta m samples w k * C) = fun k => C * batchDelta m samples w k := by
        funext k; ring
      rw [this, dot_smul_left, dot_comm _ (batchDelta m samples w) w]
    rw [e, sum_sq_eq]
    change _ = (dot m.dim w w) / 2 + _
    ring
  refine ⟨hobj, hp, ?_⟩
  intro hC hdual
  have hlow : ∀ w' obj, (problemOf m outputs).IsObjective C samples w' obj → d ≤ obj := by
    intro w' obj ho
    rw [hd, show m.dim = (problemOf m outputs).dim from rfl, fwDual_eq]
    exact weak_duality _ hC hdual ho
  have hg := hlow w p hobj
  refine ⟨by linarith, ?_⟩
  intro w' obj ho
  have := hlow w' obj ho
  exact ⟨this, by linarith⟩

/-! ### training from a fresh learner -/

/-- the pair of attributes is a dual point. -/
def SelfDual (P : Problem X Y) (C : ℚ) (samples : List (X × Y)) (st : BC) : Prop :=
  BlockSums P C samples st.w st.l st.wMat st.lMat ∧
  P.DualPoint C samples st.selfW (samples.length * st.selfL)

theorem bcStep_selfDual (m : SModel X Y) (outputs : X → Set Y) (cfg : Config) (samples : List (X × Y))
    (hadm : Admissible m outputs) (hl : (problemOf m outputs).Labelled samples)
    (st : BC) (i : ℕ) (hi : i < samples.length)
    (h : SelfDual (problemOf m outputs) cfg.C samples st) :
    SelfDual (problemOf m outputs) cfg.C samples (bcStep m cfg samples st i) := by
  obtain ⟨h1, h2⟩ := h
  have hne : samples ≠ [] := by intro h0; rw [h0] at hi; simp at hi
  have h1' := bcStep_blocks m outputs cfg samples hadm hl st i hi h1
  refine ⟨h1', ?_⟩
  have hw := blockSums_dualPoint h1' hne
  by_cases ha : cfg.averaging = true
  · have hrho0 : (0 : ℚ) ≤ 2 / ((st.k : ℚ) + 2) := by positivity
    have hrho1 : (2 : ℚ) / ((st.k : ℚ) + 2) ≤ 1 := by
      have : (0 : ℚ) ≤ st.k := Nat.cast_nonneg _
      rw [div_le_one (by positivity)]; linarith
    have hmix := dualPoint_convex h2 hw hrho0 hrho1
    have e1 : (bcStep m cfg samples st i).selfW = fun k => (1 - 2 / ((st.k : ℚ) + 2)) * st.selfW k +
        2 / ((st.k : ℚ) + 2) * (bcStep m cfg samples st i).w k := by
      unfold bcStep
      rw [List.getElem?_eq_getElem hi]
      simp only [ha, if_true]
    have e2 : (bcStep m cfg samples st i).selfL = (1 - 2 / ((st.k : ℚ) + 2)) * st.selfL +
        2 / ((st.k : ℚ) + 2) * (bcStep m cfg samples st i).l := by
      unfold bcStep
      rw [List.getElem?_eq_getElem hi]
      simp only [ha, if_true]
    rw [e1, e2]
    have e3 : (samples.length : ℚ) * ((1 - 2 / ((st.k : ℚ) + 2)) * st.selfL +
        2 / ((st.k : ℚ) + 2) * (bcStep m cfg samples st i).l) =
        (1 - 2 / ((st.k : ℚ) + 2)) * (samples.length * st.selfL) +
        2 / ((st.k : ℚ) + 2) * (samples.length * (bcStep m cfg samples st i).l) := by ring
    rw [e3]
    exact hmix
  · obtain ⟨e1, e2⟩ := bcStep_plain m cfg (by simpa using ha) samples st i hi
    rw [e1, e2]; exact hw

theorem bcFold_selfDual (m : SModel X Y) (outputs : X → Set Y) (cfg : Config) (samples : List (X × Y))
    (hadm : Admissible m outputs) (hl : (problemOf m outputs).Labelled samples)
    (visits : List ℕ) (hv : ∀ i ∈ visits, i < samples.length) (st : BC)
    (h : SelfDual (problemOf m outputs) cfg.C samples st) :
    SelfDual (problemOf m outputs) cfg.C samples (visits.foldl (bcStep m cfg samples) st) := by
  induction visits generalizing st with
  | nil => exact h
  | cons i l ih =>
    rw [List.foldl_cons]
    exact ih (fun j hj => hv j (List.mem_cons_of_mem _ hj)) _
      (bcStep_selfDual m outputs cfg samples hadm hl st i (hv i List.mem_cons_self) h)

theorem exact_admissible {m : SModel X Y} {outputs : X → Set Y}
    (hLA : (problemOf m outputs).ExactLossAug (fun x y w => m.lossAug x y w true)) :
    Admissible m outputs := fun x y w hy h0 => (hLA x y w hy h0).1

/-- what the loop of block-coordinate training guarantees: all recorded dual values are lower bounds, the
final weights belong to a dual point, and if the last recorded gap is below `tol`, the last recorded primal
value is that of the final weights. -/
theorem bcLoop_certificates (m : SModel X Y) (outputs : X → Set Y) (cfg : Config) (hC : 0 ≤ cfg.C)
    (order : ℕ → List ℕ) (samples : List (X × Y))
    (ho : ValidOrder samples.length order)
    (hLA : (problemOf m outputs).ExactLossAug (fun x y w => m.lossAug x y w true))
    (hl : (problemOf m outputs).Labelled samples) (n it : ℕ) (st : BC) (gap : Option ℚ) (c : Curves)
    (hst : SelfDual (problemOf m outputs) cfg.C samples st)
    (hgap : ∀ g, gap = some g → cfg.tol ≤ g)
    (hlen : c.dual.length = c.primal.length)
    (hc : ∀ q ∈ c.dual.zip c.primal, cfg.tol ≤ q.2 - q.1)
    (hlow : ∀ d ∈ c.dual, ∀ w' obj, (problemOf m outputs).IsObjective cfg.C samples w' obj → d ≤ obj)
    (st' : BC) (c' : Curves) (h : bcLoop m cfg order samples n it st gap c = .ok (st', c')) :
    SelfDual (problemOf m outputs) cfg.C samples st' ∧ c'.dual.length = c'.primal.length ∧
    (∀ d ∈ c'.dual, ∀ w' obj, (problemOf m outputs).IsObjective cfg.C samples w' obj → d ≤ obj) ∧
    ((∀ q ∈ c'.dual.zip c'.primal, cfg.tol ≤ q.2 - q.1) ∨
      ∃ c0 : Curves, ∃ d p, c0.dual.length = c0.primal.length ∧
        (∀ q ∈ c0.dual.zip c0.primal, cfg.tol ≤ q.2 - q.1) ∧
        c' = ⟨c0.dual ++ [d], c0.primal ++ [p]⟩ ∧ p - d < cfg.tol ∧
        (problemOf m outputs).IsObjective cfg.C samples st'.selfW p) := by
  have hadm := exact_admissible hLA
  induction n generalizing it st gap c with
  | zero =>
    unfold bcLoop at h
    injection h with h
    simp only [Prod.mk.injEq] at h
    obtain ⟨rfl, rfl⟩ := h
    exact ⟨hst, hlen, hlow, Or.inl hc⟩
  | succ n ih =>
    have hf := bcFold_selfDual m outputs cfg samples hadm hl (order it) (ho it).2 st hst
    unfold bcLoop at h
    simp only at h
    split at h
    · cases hg : calcDualGap m cfg.C samples ((order it).foldl (bcStep m cfg samples) st).selfW
        ((order it).foldl (bcStep m cfg samples) st).selfL with
      | error err => rw [hg] at h; cases h
      | ok r =>
        obtain ⟨d, g, p⟩ := r
        rw [hg] at h
        simp only at h
        obtain ⟨k1, k2, k3⟩ := C47_gap m outputs hLA samples hl cfg.C _ _ d g p hg
        obtain ⟨_, k5⟩ := k3 hC hf.2
        have hlow' : ∀ d' ∈ c.dual ++ [d], ∀ w' obj,
            (problemOf m outputs).IsObjective cfg.C samples w' obj → d' ≤ obj := by
          intro d' hd' w' obj hob
          rcases List.mem_append.mp hd' with hd' | hd'
          · exact hlow d' hd' w' obj hob
          · rw [List.mem_singleton] at hd'; rw [hd']; exact (k5 w' obj hob).1
        split at h
        · rename_i hlt
          injection h with h
          simp only [Prod.mk.injEq] at h
          obtain ⟨rfl, rfl⟩ := h
          refine ⟨hf, by simp [hlen], hlow', Or.inr ⟨c, d, p, hlen, hc, rfl, by linarith, k1⟩⟩
        · rename_i hlt
          refine ih (it + 1) _ _ _ hf ?_ (by simp [hlen]) ?_ hlow' h
          · intro g' hg'; injection hg' with hg'; rw [← hg']; exact not_lt.mp hlt
          · intro q hq
            simp only at hq
            rw [List.zip_append hlen] at hq
            rcases List.mem_append.mp hq with hq | hq
            · exact hc q hq
            · simp only [List.zip_cons_cons, List.zip_nil_right, List.mem_singleton] at hq
              rw [hq]; simp only; linarith [not_lt.mp hlt]
    · cases gap with
      | none => cases h
      | some g =>
        simp only at h
        split at h
        · rename_i hlt
          exact absurd hlt (not_lt.mpr (hgap g rfl))
        · exact ih (it + 1) _ _ _ hf hgap hlen hc hlow h

theorem batchStep_dualPoint (m : SModel X Y) (outputs : X → Set Y) (cfg : Config)
    (samples : List (X × Y)) (hne : samples ≠ []) (hr : m.rescaleC = false)
    (hadm : Admissible m outputs) (hl : (problemOf m outputs).Labelled samples) (it : ℕ) (w : W) (l : ℚ)
    (h : (problemOf m outputs).DualPoint cfg.C samples w (samples.length * l)) :
    (problemOf m outputs).DualPoint cfg.C samples (FrankWolfe.batchStep m cfg samples it w l).2.1
      (samples.length * (FrankWolfe.batchStep m cfg samples it w l).2.2) := by
  have hn : (samples.length : ℚ) ≠ 0 := by
    have := List.length_pos_of_ne_nil hne; exact_mod_cast this.ne'
  have hnew : (problemOf m outputs).DualPoint cfg.C samples
      (fun k => batchDelta m samples w k * cfg.C) (batchLossSum m samples w) := by
    refine ⟨samples.map fun s => (fun k => (problemOf m outputs).feat s.1 s.2 s.2 k -
      (problemOf m outputs).feat s.1 (m.lossAug s.1 s.2 w true) s.2 k,
      (problemOf m outputs).loss s.2 (m.lossAug s.1 s.2 w true)), ?_, ?_, ?_⟩
    · clear h hne hn
      induction samples with
      | nil => exact List.Forall₂.nil
      | cons s t ih =>
        rw [List.map_cons]
        refine List.Forall₂.cons ?_ (ih fun u hu => hl u (by simp [hu]))
        exact mix_single _ (hadm s.1 s.2 w (hl s (by simp)).1 (hl s (by simp)).2)
    · intro k _
      have hsum : batchDelta m samples w k = (samples.map fun s =>
          ((problemOf m outputs).feat s.1 s.2 s.2 k -
            (problemOf m outputs).feat s.1 (m.lossAug s.1 s.2 w true) s.2 k)).sum := by
        unfold batchDelta
        clear h hne hn hl
        induction samples with
        | nil => simp
        | cons s t ih =>
          simp only [List.map_cons, List.sum_cons]
          rw [← ih]
          change _ = m.feat s.1 s.2 s.2 k - m.feat s.1 (m.lossAug s.1 s.2 w true) s.2 k + _
          unfold SModel.feat
          rw [if_neg (by simp [hr]), if_neg (by simp [hr])]; ring
      rw [List.map_map, mul_comm]
      simp only
      rw [hsum]
      rfl
    · rw [List.map_map]; rfl
  have key : ∀ γ : ℚ, 0 ≤ γ → γ ≤ 1 → (problemOf m outputs).DualPoint cfg.C samples
      (fun k => (1 - γ) * w k + γ * (batchDelta m samples w k * cfg.C))
      (samples.length * ((1 - γ) * l + γ * (batchLossSum m samples w / samples.length))) := by
    intro γ h0 h1
    have := dualPoint_convex h hnew h0 h1
    have e : (samples.length : ℚ) * ((1 - γ) * l + γ * (batchLossSum m samples w / samples.length)) =
        (1 - γ) * (samples.length * l) + γ * batchLossSum m samples w := by
      field_simp
    rw [e]; exact this
  unfold FrankWolfe.batchStep
  simp only
  apply key
  · split
    · exact clip_nonneg _
    · positivity
  · split
    · exact clip_le_one _
    · have : (0 : ℚ) ≤ it := Nat.cast_nonneg _
      rw [div_le_one (by positivity)]; linarith

theorem batchLoop_certificates (m : SModel X Y) (outputs : X → Set Y) (cfg : Config) (hC : 0 ≤ cfg.C)
    (samples : List (X × Y)) (hne : samples ≠ []) (hr : m.rescaleC = false)
    (hadm : Admissible m outputs) (hl : (problemOf m outputs).Labelled samples) (n it : ℕ) (w : W) (l : ℚ)
    (c : Curves) (h : (problemOf m outputs).DualPoint cfg.C samples w (samples.length * l))
    (hlow : ∀ d ∈ c.dual, ∀ w' obj, (problemOf m outputs).IsObjective cfg.C samples w' obj → d ≤ obj) :
    ∀ d ∈ (batchLoop m cfg samples n it w l c).2.dual, ∀ w' obj,
      (problemOf m outputs).IsObjective cfg.C samples w' obj → d ≤ obj := by
  induction n generalizing it w l c with
  | zero => exact hlow
  | succ n ih =>
    have h' := batchStep_dualPoint m outputs cfg samples hne hr hadm hl it w l h
    have hlow' : ∀ d ∈ c.dual ++ [(FrankWolfe.batchStep m cfg samples it w l).1.1], ∀ w' obj,
        (problemOf m outputs).IsObjective cfg.C samples w' obj → d ≤ obj := by
      intro d hd w' obj hob
      rcases List.mem_append.mp hd with hd | hd
      · exact hlow d hd w' obj hob
      · rw [List.mem_singleton] at hd
        have e : (FrankWolfe.batchStep m cfg samples it w l).1.1 =
            (problemOf m outputs).dualValue cfg.C w (samples.length * l) := by
          rw [← fwDual_eq]
          unfold FrankWolfe.batchStep fwDual
          simp only
          change _ = -(1 / 2) * (∑ k ∈ range m.dim, w k ^ 2) + _
          ring
        rw [hd, e]
        exact weak_duality _ hC h hob
    unfold batchLoop
    simp only
    split
    · exact hlow'
    · exact ih (it + 1) _ _ _ h' hlow'

/-- **C47, training.** After `fit` of a fresh learner with exact loss-augmented inference, in either mode:
every recorded dual value is a lower bound on the regularised risk of every weight vector; the last
recorded primal value `p` is the risk of the learned weights, so their distance from the optimum is at
most `p` minus the last dual value. -/
theorem C47_fit (m : SModel X Y) (outputs : X → Set Y) (order : ℕ → List ℕ) (o o' : FrankWolfe.Obj)
    (samples : List (X × Y)) (hfresh : o.w = none ∧ o.l = none) (hC : 0 ≤ o.cfg.C)
    (ho : ValidOrder samples.length order)
    (hLA : (problemOf m outputs).ExactLossAug (fun x y w => m.lossAug x y w true))
    (hl : (problemOf m outputs).Labelled samples)
    (hfit : FrankWolfe.fit m order o samples = .ok o') :
    ∃ w ds d ps p, o'.w = some w ∧ o'.curves.dual = ds ++ [d] ∧ o'.curves.primal = ps ++ [p] ∧
      (problemOf m outputs).IsObjective o.cfg.C samples w p ∧
      (∀ d' ∈ o'.curves.dual, ∀ w' obj,
        (problemOf m outputs).IsObjective o.cfg.C samples w' obj → d' ≤ obj) ∧
      (∀ w' obj, (problemOf m outputs).IsObjective o.cfg.C samples w' obj → p ≤ obj + (p - d)) ∧
      (o.cfg.batchMode = false → ∀ ds' d' ps' p', ds = ds' ++ [d'] → ps = ps' ++ [p'] →
        p' - d' < o.cfg.tol → p = p' ∧
        ∀ w' obj, (problemOf m outputs).IsObjective o.cfg.C samples w' obj → p < obj + o.cfg.tol) := by
  have hne : samples ≠ [] := by
    intro h0
    subst h0
    unfold FrankWolfe.fit at hfit
    simp only at hfit
    split at hfit
    · cases hfit
    · split at hfit
      · cases hfit
      · rename_i h
        unfold objectivePrimal at h
        simp at h
  unfold FrankWolfe.fit at hfit
  rw [hfresh.1, hfresh.2] at hfit
  simp only at hfit
  split at hfit
  · cases hfit
  · rename_i w l c hrun
    obtain ⟨obj, ho1, ho2⟩ := C30_objective m outputs hLA samples hl hne w o.cfg.C true
    rw [ho1] at hfit
    simp only at hfit
    split at hfit
    · cases hfit
    · rename_i d hlast
      injection hfit with hfit
      obtain ⟨ds0, hds0⟩ := List.getLast?_eq_some_iff.mp hlast
      have hlow : (∀ d ∈ c.dual, ∀ w' obj, (problemOf m outputs).IsObjective o.cfg.C samples w' obj →
          d ≤ obj) ∧ (o.cfg.batchMode = false → c.dual.length = c.primal.length ∧
          ((∀ q ∈ c.dual.zip c.primal, o.cfg.tol ≤ q.2 - q.1) ∨
            ∃ c0 : Curves, ∃ d p, c0.dual.length = c0.primal.length ∧
              (∀ q ∈ c0.dual.zip c0.primal, o.cfg.tol ≤ q.2 - q.1) ∧
              c = ⟨c0.dual ++ [d], c0.primal ++ [p]⟩ ∧ p - d < o.cfg.tol ∧
              (problemOf m outputs).IsObjective o.cfg.C samples w p)) := by
        have hd0 := dualPoint_true (problemOf m outputs) o.cfg.C samples hl
        split at hrun
        · rename_i hb
          split at hrun
          · cases hrun
          · rename_i hr
            injection hrun with hrun
            simp only [Prod.mk.injEq] at hrun
            obtain ⟨_, _, hc⟩ := hrun
            rw [← hc]
            refine ⟨?_, fun hb' => ?_⟩
            · by_cases hmi : o.cfg.maxIter = 0
              · rw [hmi]; unfold batchLoop; simp
              · have hr' : m.rescaleC = false := by
                  cases hrc : m.rescaleC
                  · rfl
                  · exact absurd ⟨hrc, hmi⟩ hr
                apply batchLoop_certificates m outputs o.cfg hC samples hne hr' (exact_admissible hLA) hl
                · rw [mul_zero]; exact hd0
                · simp
            · rw [hb'] at hb; cases hb
        · split at hrun
          · cases hrun
          · rename_i st c' hloop
            injection hrun with hrun
            simp only [Prod.mk.injEq] at hrun
            obtain ⟨hw, hl', hc⟩ := hrun
            have hst : SelfDual (problemOf m outputs) o.cfg.C samples (bcStart (fun _ => 0) 0) := by
              refine ⟨bcStart_blocks m outputs o.cfg.C samples hl 0, ?_⟩
              simp only [bcStart]
              rw [mul_zero]; exact hd0
            obtain ⟨_, g2, g3, g4⟩ := bcLoop_certificates m outputs o.cfg hC order samples ho hLA hl
              _ 0 _ none ⟨[], []⟩ hst (by simp) rfl (by simp) (by simp) st c' hloop
            rw [← hc, ← hw]
            exact ⟨g3, fun _ => ⟨g2, g4⟩⟩
      subst hfit
      refine ⟨w, c.dual, d, c.primal, obj, rfl, rfl, rfl, ho2, ?_, ?_, ?_⟩
      · intro d' hd' w' obj' hob
        simp only at hd'
        rcases List.mem_append.mp hd' with hd' | hd'
        · exact hlow.1 d' hd' w' obj' hob
        · rw [List.mem_singleton] at hd'
          rw [hd']
          exact hlow.1 d (by rw [hds0]; simp) w' obj' hob
      · intro w' obj' hob
        have := hlow.1 d (by rw [hds0]; simp) w' obj' hob
        linarith
      · intro hb ds' d' ps' p' hds hps hlt
        obtain ⟨g2, g4⟩ := hlow.2 hb
        rw [hds, hps] at g2
        simp only [List.length_append, List.length_singleton] at g2
        rcases g4 with g4 | ⟨c0, d1, p1, q1, q2, q3, q4, q5⟩
        · exfalso
          have := g4 (d', p') (by
            rw [hds, hps, List.zip_append (by omega)]
            simp)
          simp only at this
          linarith
        · have hd1 : c.dual = c0.dual ++ [d1] := by rw [q3]
          have hp1 : c.primal = c0.primal ++ [p1] := by rw [q3]
          rw [hds] at hd1
          rw [hps] at hp1
          have ed : d' = d1 := by
            have := congrArg List.getLast? hd1; simpa using this
          have ep : p' = p1 := by
            have := congrArg List.getLast? hp1; simpa using this
          have huniq : obj = p1 := isObjective_unique ho2 q5
          refine ⟨by rw [huniq, ep], ?_⟩
          intro w' obj' hob
          have := hlow.1 d1 (by rw [q3]; simp) w' obj' hob
          rw [huniq]
          linarith

/-! ### averaging -/

/-- **C49, Frank-Wolfe.** With averaging, after `t` visits the attribute `w` is the weighted mean of the
`t` iterates with weights `1, …, t`, whatever the learner had stored before. -/
theorem C49_frankwolfe (m : SModel X Y) (cfg : Config) (ha : cfg.averaging = true)
    (samples : List (X × Y)) (w0 : W) (l0 : ℚ) (visits : List ℕ) (hv : ∀ i ∈ visits, i < samples.length)
    (hne : visits ≠ []) (k : ℕ) :
    (visits.foldl (bcStep m cfg samples) (bcStart w0 l0)).selfW k =
      (∑ j ∈ range visits.length, ((j : ℚ) + 1) *
        ((visits.take (j + 1)).foldl (bcStep m cfg samples) (bcStart w0 l0)).w k) /
      ∑ j ∈ range visits.length, ((j : ℚ) + 1) := by
  set S : ℕ → BC := fun t => (visits.take t).foldl (bcStep m cfg samples) (bcStart w0 l0) with hS
  have step : ∀ t (ht : t < visits.length), S (t + 1) = bcStep m cfg samples (S t) visits[t] := by
    intro t ht
    have : visits.take (t + 1) = visits.take t ++ [visits[t]] := (List.take_concat_get' _ _ ht).symm
    rw [hS]
    simp only
    rw [this, List.foldl_append]
    rfl
  have hk : ∀ t, t ≤ visits.length → (S t).k = t := by
    intro t
    induction t with
    | zero => intro _; rfl
    | succ t ih =>
      intro ht
      rw [step t (by omega)]
      have hi := hv _ (List.getElem_mem (show t < visits.length by omega))
      have := ih (by omega)
      unfold bcStep
      rw [List.getElem?_eq_getElem hi]
      simp only
      omega
  have hself : ∀ t, t < visits.length → (S (t + 1)).selfW k =
      (1 - 2 / ((t : ℚ) + 2)) * (S t).selfW k + 2 / ((t : ℚ) + 2) * (S (t + 1)).w k := by
    intro t ht
    have hi := hv _ (List.getElem_mem ht)
    have hkt := hk t (by omega)
    rw [step t ht]
    unfold bcStep
    rw [List.getElem?_eq_getElem hi]
    simp only [ha, if_true, hkt]
  -- extend the sequence beyond the last visit
  let a : ℕ → ℚ := fun t => Nat.rec ((S 0).selfW k)
    (fun t r => (1 - 2 / ((t : ℚ) + 2)) * r + 2 / ((t : ℚ) + 2) * (S (t + 1)).w k) t
  have haS : ∀ t, t ≤ visits.length → a t = (S t).selfW k := by
    intro t
    induction t with
    | zero => intro _; rfl
    | succ t ih =>
      intro ht
      rw [hself t (by omega), ← ih (by omega)]
  have h := linear_average a (fun t => (S (t + 1)).w k) (fun t => rfl) visits.length
  rw [haS _ le_rfl] at h
  have hfull : S visits.length = visits.foldl (bcStep m cfg samples) (bcStart w0 l0) := by
    rw [hS]; simp
  rw [hfull] at h
  rw [← h, mul_div_cancel_left₀]
  have : 0 < visits.length := List.length_pos_of_ne_nil hne
  have : 0 < ∑ j ∈ range visits.length, ((j : ℚ) + 1) :=
    sum_pos (fun j _ => by positivity) ⟨0, mem_range.mpr this⟩
  exact this.ne'

/-! ### what goes wrong -/

/-- **C65 does not hold**: with `check_dual_every=0`, the value that switches the check off,
block-coordinate training fails with `UnboundLocalError` after its first pass. -/
theorem C65_violated_no_checks (m : SModel X Y) (order : ℕ → List ℕ) (o : FrankWolfe.Obj)
    (samples : List (X × Y)) (hb : o.cfg.batchMode = false) (hc : o.cfg.checkDualEvery = 0)
    (hm : o.cfg.maxIter ≠ 0) :
    FrankWolfe.fit m order o samples = .error .unboundLocalError := by
  obtain ⟨n, hn⟩ := Nat.exists_eq_succ_of_ne_zero hm
  unfold FrankWolfe.fit
  simp only [hb, Bool.false_eq_true, if_false, hn]
  have : ∀ st c, bcLoop m o.cfg order samples (n + 1) 0 st none c = .error .unboundLocalError := by
    intro st c
    unfold bcLoop
    simp [hc]
  rw [Nat.succ_eq_add_one, this]

/-- A fresh learner for the examples: `C = 1`, line search or fixed steps. -/
def exampleFW (maxIter : ℕ) (batch line avg : Bool) : FrankWolfe.Obj :=
  ⟨⟨maxIter, 1, 1 / 1000, batch, line, 1, avg⟩, none, none, ⟨[], []⟩⟩

/-- A sample labelled 1, and the same sample labelled 0. -/
def sampleA : List ((ℕ → ℚ) × ℕ) := [(fun k => if k = 0 then 1 else 0, 1)]
@[inherit_doc sampleA] def sampleB : List ((ℕ → ℚ) × ℕ) := [(fun k => if k = 0 then 1 else 0, 0)]

/-- **C47 and C51 do not hold after a second fit.** A learner fitted on `sampleA` and then on `sampleB`
learns other weights than a fresh one. The gap it reports is 0 and its dual value 1 is presented as a lower
bound, although the optimum is at most 1/3. -/
theorem C47_violated_refit :
    ∃ o1 o2 o3,
      FrankWolfe.fit (multiClassModel exampleClf) (fun _ => [0]) (exampleFW 1 false false false) sampleA =
        .ok o1 ∧
      FrankWolfe.fit (multiClassModel exampleClf) (fun _ => [0]) o1 sampleB = .ok o2 ∧
      FrankWolfe.fit (multiClassModel exampleClf) (fun _ => [0]) (exampleFW 1 false false false) sampleB =
        .ok o3 ∧
      o2.w ≠ o3.w ∧ o2.curves = ⟨[1, 1], [1, 1]⟩ ∧
      ∃ w, (problemOf (multiClassModel exampleClf) (classes 3)).IsObjective 1 sampleB w (1 / 3) := by
  have key : (do
      let o1 ← FrankWolfe.fit (multiClassModel exampleClf) (fun _ => [0])
        (exampleFW 1 false false false) sampleA
      let o2 ← FrankWolfe.fit (multiClassModel exampleClf) (fun _ => [0]) o1 sampleB
      let o3 ← FrankWolfe.fit (multiClassModel exampleClf) (fun _ => [0])
        (exampleFW 1 false false false) sampleB
      pure (o2.w.map (· 0), o3.w.map (· 0), o2.curves.dual, o2.curves.primal) :
        Except PyErr (Option ℚ × Option ℚ × List ℚ × List ℚ)) =
      .ok (some 0, some 1, [1, 1], [1, 1]) := by decide +kernel
  obtain ⟨o1, h1, key⟩ := bind_eq_ok.mp key
  obtain ⟨o2, h2, key⟩ := bind_eq_ok.mp key
  obtain ⟨o3, h3, key⟩ := bind_eq_ok.mp key
  injection key with key
  simp only [Prod.mk.injEq] at key
  obtain ⟨k1, k2, k3, k4⟩ := key
  refine ⟨o1, o2, o3, h1, h2, h3, ?_, ?_, ?_⟩
  · intro h
    rw [h, k2] at k1
    simp at k1
  · cases hc : o2.curves with
    | mk a b => rw [hc] at k3 k4; simp only at k3 k4; rw [k3, k4]
  · refine ⟨fun k => if k = 0 then 2 / 3 else if k = 2 ∨ k = 4 then -1 / 3 else 0, ?_⟩
    obtain ⟨obj, e, ho⟩ := C30_objective (multiClassModel exampleClf) (classes 3)
      (multiClass_exact exampleClf rfl (fun _ _ => zero_le_one) true).1 sampleB
      (multiClass_labelled exampleClf rfl _ (by decide)) (by simp [sampleB])
      (fun k => if k = 0 then 2 / 3 else if k = 2 ∨ k = 4 then -1 / 3 else 0) 1 true
    have : (objectivePrimal (multiClassModel exampleClf)
      (fun k => if k = 0 then 2 / 3 else if k = 2 ∨ k = 4 then -1 / 3 else 0) sampleB 1 true).toOption =
        some (1 / 3) := by decide +kernel
    rw [e] at this
    injection this with this
    rw [← this]
    exact ho

/-! ### non-vacuity -/

/-- training `exampleClf` with fixed steps, block by block: the dual values rise, the primal values fall. -/
example : (FrankWolfe.fit (multiClassModel exampleClf) (fun _ => [0]) (exampleFW 3 false false false)
    sampleB).toOption.map (fun o => (o.curves.dual, o.curves.primal)) =
      some ([0, 2 / 9, 11 / 36, 11 / 36], [1, 7 / 9, 19 / 36, 19 / 36]) := by decide +kernel

/-- the hypotheses of C45 to C47 hold for `exampleClf`: the order is valid, loss-augmented inference is
exact, the samples are labelled, training succeeds in all four modes. -/
example : ValidOrder exampleSamples.length (fun _ => [1, 0]) ∧
    (problemOf (multiClassModel exampleClf) (classes 3)).ExactLossAug
      (fun x y w => (multiClassModel exampleClf).lossAug x y w true) ∧
    (problemOf (multiClassModel exampleClf) (classes 3)).Labelled exampleSamples ∧
    (∀ batch avg, (FrankWolfe.fit (multiClassModel exampleClf) (fun _ => [1, 0])
      (exampleFW 2 batch true avg) exampleSamples).toOption.isSome = true) := by
  refine ⟨fun _ => ⟨rfl, (by decide : ∀ i ∈ [1, 0], i < 2)⟩, (multiClass_exact exampleClf rfl (fun _ _ => zero_le_one) true).1,
    multiClass_labelled exampleClf rfl _ (by decide), by decide +kernel⟩

end Verif.Props
