import Verif.Lemmas.Units
import Verif.Lemmas.QPInstances

/-!
# Frank-Wolfe and cutting-plane training in other units
-/

namespace Verif.Props

open Finset Verif.Spec Verif.Lemmas Verif.Learner

variable {X X' Y : Type} {ρ : Equiv.Perm ℕ} {a b : ℚ} {f : X → X'} {m : SModel X Y} {m' : SModel X' Y}

theorem recip_units (a b C n : ℚ) : 1 / (C * a / b ^ 2 * n) = b ^ 2 / a * (1 / (C * n)) := by
  have h1 : C * a / b ^ 2 * n = (a / b ^ 2) * (C * n) := by ring
  rw [h1, one_div, one_div, mul_inv, inv_div]

/-! ### Frank-Wolfe -/

section FrankWolfe
open Verif.FrankWolfe

/-- the parameters of FrankWolfeSSVM in other units: the tolerance of the batch algorithm is compared with a gap in units of the loss,
that of the block-coordinate algorithm with a gap in units of the objective. -/
def fwConfigUnits (a b : ℚ) (cfg : Config) : Config :=
  { cfg with C := cfg.C * a / b ^ 2, tol := if cfg.batchMode then a * cfg.tol else (a / b) ^ 2 * cfg.tol }

/-- the curves in other units. -/
def fwCurvesUnits (a b : ℚ) (c : Curves) : Curves :=
  ⟨c.dual.map fun v => (a / b) ^ 2 * v, c.primal.map fun v => (a / b) ^ 2 * v⟩

theorem fwDelta_units (h : OtherUnits ρ a b f m m') (samples : List (X × Y)) {w w' : W}
    (hw : Multiple ρ (a / b) m.dim w w') : Multiple ρ b m.dim (batchDelta m samples w) (batchDelta m' (inUnits f samples) w') := by
  intro k hk
  unfold batchDelta inUnits
  rw [List.map_map, List.map_map,
    sum_units (c := b) (g := fun s : X × Y => m.jointFeature s.1 s.2 (ρ k))
      (h := (fun s : X' × Y => m'.jointFeature s.1 s.2 k) ∘ fun s : X × Y => (f s.1, s.2)) samples
      (fun s => h.feature s.1 s.2 k hk),
    sum_units (c := b) (g := fun s : X × Y => m.jointFeature s.1 (m.lossAug s.1 s.2 w true) (ρ k))
      (h := (fun s : X' × Y => m'.jointFeature s.1 (m'.lossAug s.1 s.2 w' true) k) ∘
        fun s : X × Y => (f s.1, s.2)) samples (fun s => by
      simp only [Function.comp]
      rw [h.lossAug s.1 s.2 _ _ true hw]
      exact h.feature _ _ k hk)]
  ring

theorem fwLossSum_units (h : OtherUnits ρ a b f m m') (samples : List (X × Y)) {w w' : W}
    (hw : Multiple ρ (a / b) m.dim w w') : batchLossSum m' (inUnits f samples) w' = a * batchLossSum m samples w := by
  unfold batchLossSum inUnits
  rw [List.map_map]
  refine sum_units samples fun s => ?_
  simp only [Function.comp]
  rw [h.lossAug s.1 s.2 _ _ true hw, lossOf_units h]

theorem fwBatchStep_units (ha : 0 < a) (hb : 0 < b) (h : OtherUnits ρ a b f m m') (cfg : Config) (tol' : ℚ)
    (hl : cfg.lineSearch = false ∨ a = 1) (samples : List (X × Y)) (it : ℕ) {w w' : W} (hw : Multiple ρ (a / b) m.dim w w') (l : ℚ) :
    let r := batchStep m cfg samples it w l
    let r' := batchStep m' { cfg with C := cfg.C * a / b ^ 2, tol := tol' } (inUnits f samples) it w' (a * l)
    r'.1.1 = (a / b) ^ 2 * r.1.1 ∧ r'.1.2.1 = a * r.1.2.1 ∧ r'.1.2.2 = (a / b) ^ 2 * r.1.2.2 ∧
      Multiple ρ (a / b) m.dim r.2.1 r'.2.1 ∧ r'.2.2 = a * r.2.2 := by
  have hlen : (inUnits f samples).length = samples.length := by unfold inUnits; simp
  have hws : Multiple ρ (a / b) m.dim (fun k => batchDelta m samples w k * cfg.C)
      (fun k => batchDelta m' (inUnits f samples) w' k * (cfg.C * a / b ^ 2)) := by
    intro k hk
    simp only [fwDelta_units h samples hw k hk]
    field_simp
  have hdiff : Multiple ρ (a / b) m.dim (fun k => w k - batchDelta m samples w k * cfg.C)
      (fun k => w' k - batchDelta m' (inUnits f samples) w' k * (cfg.C * a / b ^ 2)) := by
    intro k hk
    have := hws k hk
    simp only at this ⊢
    rw [this, hw k hk]
    ring
  have hq := sumSq_units h.order hw
  have hdot := dot_units h.order hdiff hw
  have hls := fwLossSum_units h samples hw
  unfold batchStep
  simp only [hlen, h.dim, hls, hdot, hq, recip_units a b]
  have hgap : b ^ 2 / a * (1 / (cfg.C * (samples.length : ℚ))) *
        (a / b * (a / b) * dot m.dim (fun k => w k - batchDelta m samples w k * cfg.C) w) - a * l +
        a * batchLossSum m samples w / (samples.length : ℚ) =
      a * (1 / (cfg.C * (samples.length : ℚ)) * dot m.dim (fun k => w k - batchDelta m samples w k * cfg.C) w - l +
        batchLossSum m samples w / (samples.length : ℚ)) := by
    field_simp
  have hdual : -(1 / 2) * ((a / b) ^ 2 * ∑ k ∈ range m.dim, w k ^ 2) + a * l * (samples.length * (cfg.C * a / b ^ 2)) =
      (a / b) ^ 2 * (-(1 / 2) * (∑ k ∈ range m.dim, w k ^ 2) + l * (samples.length * cfg.C)) := by
    field_simp
  have hgam : (if cfg.lineSearch then clip ((b ^ 2 / a * (1 / (cfg.C * (samples.length : ℚ))) *
        (a / b * (a / b) * dot m.dim (fun k => w k - batchDelta m samples w k * cfg.C) w) - a * l +
        a * batchLossSum m samples w / (samples.length : ℚ)) /
        ((∑ k ∈ range m.dim, (w' k - batchDelta m' (inUnits f samples) w' k * (cfg.C * a / b ^ 2)) ^ 2) /
          (cfg.C * a / b ^ 2 * (samples.length : ℚ)) + eps)) else 2 / ((it : ℚ) + 2)) =
      (if cfg.lineSearch then clip ((1 / (cfg.C * (samples.length : ℚ)) *
        dot m.dim (fun k => w k - batchDelta m samples w k * cfg.C) w - l + batchLossSum m samples w / (samples.length : ℚ)) /
        ((∑ k ∈ range m.dim, (w k - batchDelta m samples w k * cfg.C) ^ 2) / (cfg.C * (samples.length : ℚ)) + eps))
      else 2 / ((it : ℚ) + 2)) := by
    rcases hl with hl | hl
    · rw [hl]; rfl
    · subst hl
      rw [hgap, sumSq_units h.order hdiff]
      congr 3
      · rw [one_mul]
      · congr 1
        generalize ∑ k ∈ range m.dim, (w k - batchDelta m samples w k * cfg.C) ^ 2 = Q
        field_simp
  simp only [hgam]
  refine ⟨hdual, hgap, ?_, ?_, ?_⟩
  · rw [hgap, hdual]
    field_simp
  · intro k hk
    have := hws k hk
    simp only at this ⊢
    rw [this, hw k hk]
    ring
  · ring

theorem fwBatchLoop_units (ha : 0 < a) (hb : 0 < b) (h : OtherUnits ρ a b f m m') (cfg : Config)
    (hl : cfg.lineSearch = false ∨ a = 1) (samples : List (X × Y)) : ∀ (n it : ℕ) (w w' : W), Multiple ρ (a / b) m.dim w w' →
      ∀ (l : ℚ) (c : Curves),
      Multiple ρ (a / b) m.dim (batchLoop m cfg samples n it w l c).1
        (batchLoop m' { cfg with C := cfg.C * a / b ^ 2, tol := a * cfg.tol } (inUnits f samples) n it w' (a * l)
          (fwCurvesUnits a b c)).1 ∧
      (batchLoop m' { cfg with C := cfg.C * a / b ^ 2, tol := a * cfg.tol } (inUnits f samples) n it w' (a * l)
          (fwCurvesUnits a b c)).2 = fwCurvesUnits a b (batchLoop m cfg samples n it w l c).2 := by
  intro n
  induction n with
  | zero => intro it w w' hw l c; exact ⟨hw, rfl⟩
  | succ n ih =>
    intro it w w' hw l c
    unfold batchLoop
    obtain ⟨h1, h2, h3, h4, h5⟩ := fwBatchStep_units ha hb h cfg (a * cfg.tol) hl samples it hw l
    simp only [h1, h2, h3, h5]
    have hc : (⟨(fwCurvesUnits a b c).dual ++ [(a / b) ^ 2 * (batchStep m cfg samples it w l).1.1],
        (fwCurvesUnits a b c).primal ++ [(a / b) ^ 2 * (batchStep m cfg samples it w l).1.2.2]⟩ : Curves) =
        fwCurvesUnits a b ⟨c.dual ++ [(batchStep m cfg samples it w l).1.1],
          c.primal ++ [(batchStep m cfg samples it w l).1.2.2]⟩ := by
      unfold fwCurvesUnits
      simp
    rw [hc]
    by_cases ht : (batchStep m cfg samples it w l).1.2.1 < cfg.tol
    · rw [if_pos ht, if_pos (by rwa [mul_lt_mul_iff_right₀ ha])]
      exact ⟨h4, rfl⟩
    · rw [if_neg ht, if_neg (by rwa [mul_lt_mul_iff_right₀ ha])]
      exact ih _ _ _ h4 _ _

/-- states of the block-coordinate algorithm in the two units. -/
structure BcUnits (ρ : Equiv.Perm ℕ) (a b : ℚ) (d : ℕ) (st st' : BC) : Prop where
  w : Multiple ρ (a / b) d st.w st'.w
  wMat : ∀ i, Multiple ρ (a / b) d (st.wMat i) (st'.wMat i)
  lMat : ∀ i, st'.lMat i = a * st.lMat i
  l : st'.l = a * st.l
  k : st'.k = st.k
  selfW : Multiple ρ (a / b) d st.selfW st'.selfW
  selfL : st'.selfL = a * st.selfL

theorem fwBcStep_units (ha : 0 < a) (hb : 0 < b) (h : OtherUnits ρ a b f m m') (cfg : Config) (tol' : ℚ)
    (hl : cfg.lineSearch = false ∨ a = b) (samples : List (X × Y)) {st st' : BC} (hs : BcUnits ρ a b m.dim st st') (i : ℕ) :
    BcUnits ρ a b m.dim (bcStep m cfg samples st i)
      (bcStep m' { cfg with C := cfg.C * a / b ^ 2, tol := tol' } (inUnits f samples) st' i) := by
  have hlen : (inUnits f samples).length = samples.length := by unfold inUnits; simp
  unfold bcStep
  have hget : (inUnits f samples)[i]? = (samples[i]?).map fun s => (f s.1, s.2) := by
    unfold inUnits; rw [List.getElem?_map]
  rw [hget]
  cases samples[i]? with
  | none => exact hs
  | some s =>
    obtain ⟨x, y⟩ := s
    simp only [Option.map_some, hlen]
    obtain ⟨-, hd, -, hloss⟩ := findConstraint_units ha hb h x y hs.w
    have hws : Multiple ρ (a / b) m.dim (fun k => (findConstraint m x y st.w none true true).delta k * cfg.C)
        (fun k => (findConstraint m' (f x) y st'.w none true true).delta k * (cfg.C * a / b ^ 2)) := by
      intro k hk
      simp only [hd k hk]
      field_simp
    have hdiff : Multiple ρ (a / b) m.dim
        (fun k => st.wMat i k - (findConstraint m x y st.w none true true).delta k * cfg.C)
        (fun k => st'.wMat i k - (findConstraint m' (f x) y st'.w none true true).delta k * (cfg.C * a / b ^ 2)) := by
      intro k hk
      have := hws k hk
      simp only at this ⊢
      rw [this, hs.wMat i k hk]
      ring
    have hgamma : (if cfg.lineSearch = true then
          clip (lineNum m' { cfg with C := cfg.C * a / b ^ 2, tol := tol' } samples.length st' i
            (fun k => (findConstraint m' (f x) y st'.w none true true).delta k * (cfg.C * a / b ^ 2))
            ((findConstraint m' (f x) y st'.w none true true).loss / samples.length) /
            ((∑ k ∈ range m'.dim, (st'.wMat i k -
              (findConstraint m' (f x) y st'.w none true true).delta k * (cfg.C * a / b ^ 2)) ^ 2) + eps))
        else 2 * (samples.length : ℚ) / (st'.k + 2 * samples.length)) =
        (if cfg.lineSearch = true then
          clip (lineNum m cfg samples.length st i
            (fun k => (findConstraint m x y st.w none true true).delta k * cfg.C)
            ((findConstraint m x y st.w none true true).loss / samples.length) /
            ((∑ k ∈ range m.dim, (st.wMat i k -
              (findConstraint m x y st.w none true true).delta k * cfg.C) ^ 2) + eps))
        else 2 * (samples.length : ℚ) / (st.k + 2 * samples.length)) := by
      by_cases hls : cfg.lineSearch = true
      · rw [if_pos hls, if_pos hls]
        rcases hl with hl | hl
        · rw [hl] at hls; cases hls
        · subst hl
          have h1 : a / a = 1 := div_self ha.ne'
          have hsq := sumSq_units h.order hdiff
          have hnum := dot_units h.order hdiff hs.w
          rw [h.dim, hsq]
          unfold lineNum
          simp only [h.dim, hnum, hs.lMat i, hloss, h1]
          have hD : ∀ D : ℚ, cfg.C * a / a ^ 2 * (samples.length : ℚ) * (a * D) = cfg.C * samples.length * D := by
            intro D
            field_simp
          rw [mul_div_assoc a _ (samples.length : ℚ), ← mul_sub, hD, one_pow, one_mul, one_mul, one_mul]
      · rw [if_neg hls, if_neg hls, hs.k]
    rw [hgamma]
    generalize (if cfg.lineSearch = true then _ else _ : ℚ) = g
    have hwi : Multiple ρ (a / b) m.dim
        (fun k => (1 - g) * st.wMat i k + g * ((findConstraint m x y st.w none true true).delta k * cfg.C))
        (fun k => (1 - g) * st'.wMat i k + g * ((findConstraint m' (f x) y st'.w none true true).delta k *
          (cfg.C * a / b ^ 2))) := by
      intro k hk
      have := hws k hk
      simp only at this ⊢
      rw [this, hs.wMat i k hk]
      ring
    have hli : (1 - g) * st'.lMat i + g * ((findConstraint m' (f x) y st'.w none true true).loss / samples.length) =
        a * ((1 - g) * st.lMat i + g * ((findConstraint m x y st.w none true true).loss / samples.length)) := by
      rw [hs.lMat i, hloss]
      ring
    have hw2 : Multiple ρ (a / b) m.dim
        (fun k => st.w k - st.wMat i k + ((1 - g) * st.wMat i k + g *
          ((findConstraint m x y st.w none true true).delta k * cfg.C)))
        (fun k => st'.w k - st'.wMat i k + ((1 - g) * st'.wMat i k + g *
          ((findConstraint m' (f x) y st'.w none true true).delta k * (cfg.C * a / b ^ 2)))) := by
      intro k hk
      have := hwi k hk
      simp only at this ⊢
      rw [this, hs.w k hk, hs.wMat i k hk]
      ring
    refine ⟨hw2, fun j => ?_, fun j => ?_, ?_, by simp only [hs.k], ?_, ?_⟩
    · by_cases hj : j = i
      · subst hj
        simp only [Function.update_self]
        exact hwi
      · simp only [Function.update_of_ne hj]
        exact hs.wMat j
    · by_cases hj : j = i
      · subst hj
        simp only [Function.update_self]
        exact hli
      · simp only [Function.update_of_ne hj]
        exact hs.lMat j
    · dsimp only
      rw [hli, hs.l, hs.lMat i]
      ring
    · intro k hk
      have := hw2 k hk
      simp only at this ⊢
      by_cases hav : cfg.averaging = true
      · rw [if_pos hav, if_pos hav]
        simp only [this, hs.selfW k hk, hs.k]
        ring
      · rw [if_neg hav, if_neg hav]
        exact this
    · simp only
      by_cases hav : cfg.averaging = true
      · rw [if_pos hav, if_pos hav, hli, hs.selfL, hs.l, hs.lMat i, hs.k]
        ring
      · rw [if_neg hav, if_neg hav, hli, hs.l, hs.lMat i]
        ring

theorem fwGap_units (ha : 0 < a) (hb : 0 < b) (h : OtherUnits ρ a b f m m') (C : ℚ) (samples : List (X × Y)) {w w' : W}
    (hw : Multiple ρ (a / b) m.dim w w') (l : ℚ) :
    calcDualGap m' (C * a / b ^ 2) (inUnits f samples) w' (a * l) =
      (calcDualGap m C samples w l).map fun r => ((a / b) ^ 2 * r.1, (a / b) ^ 2 * r.2.1, (a / b) ^ 2 * r.2.2) := by
  have hlen : (inUnits f samples).length = samples.length := by unfold inUnits; simp
  have hdiff : Multiple ρ (a / b) m.dim (fun k => w k - batchDelta m samples w k * C)
      (fun k => w' k - batchDelta m' (inUnits f samples) w' k * (C * a / b ^ 2)) := by
    intro k hk
    simp only [fwDelta_units h samples hw k hk, hw k hk]
    field_simp
  have hq := sumSq_units h.order hw
  have hdot := dot_units h.order hdiff hw
  have hls := fwLossSum_units h samples hw
  unfold calcDualGap
  rw [h.rescaleC]
  by_cases hr : m.rescaleC = true
  · rw [if_pos hr, if_pos hr]; rfl
  · rw [if_neg hr, if_neg hr]
    simp only [h.dim, hlen, hq, hdot, hls, Except.map]
    generalize dot m.dim (fun k => w k - batchDelta m samples w k * C) w = D
    congr 2
    · field_simp
    · congr 1
      · field_simp
      · field_simp

theorem fwBcLoop_units (ha : 0 < a) (hb : 0 < b) (h : OtherUnits ρ a b f m m') (cfg : Config)
    (hl : cfg.lineSearch = false ∨ a = b) (order : ℕ → List ℕ) (samples : List (X × Y)) :
    ∀ (n it : ℕ) (st st' : BC), BcUnits ρ a b m.dim st st' → ∀ (gap : Option ℚ) (c : Curves),
      BothRun (fun r r' => BcUnits ρ a b m.dim r.1 r'.1 ∧ r'.2 = fwCurvesUnits a b r.2)
        (bcLoop m cfg order samples n it st gap c)
        (bcLoop m' { cfg with C := cfg.C * a / b ^ 2, tol := (a / b) ^ 2 * cfg.tol } order (inUnits f samples) n it st'
          (gap.map fun g => (a / b) ^ 2 * g) (fwCurvesUnits a b c)) := by
  have hab : 0 < (a / b) ^ 2 := by positivity
  intro n
  induction n with
  | zero => intro it st st' hs gap c; exact .ok ⟨hs, rfl⟩
  | succ n ih =>
    intro it st st' hs gap c
    have hfold : ∀ (l : List ℕ) (s s' : BC), BcUnits ρ a b m.dim s s' → BcUnits ρ a b m.dim (l.foldl (bcStep m cfg samples) s)
        (l.foldl (bcStep m' { cfg with C := cfg.C * a / b ^ 2, tol := (a / b) ^ 2 * cfg.tol } (inUnits f samples)) s') := by
      intro l
      induction l with
      | nil => intro s s' hs; exact hs
      | cons i l ih2 => intro s s' hs; exact ih2 _ _ (fwBcStep_units ha hb h cfg _ hl samples hs i)
    have hst := hfold (order it) st st' hs
    unfold bcLoop
    simp only
    generalize (order it).foldl (bcStep m cfg samples) st = s at hst ⊢
    generalize (order it).foldl (bcStep m' { cfg with C := cfg.C * a / b ^ 2, tol := (a / b) ^ 2 * cfg.tol }
      (inUnits f samples)) st' = s' at hst ⊢
    by_cases hck : cfg.checkDualEvery ≠ 0 ∧ it % cfg.checkDualEvery = 0
    · rw [if_pos hck, if_pos hck, hst.selfL, fwGap_units ha hb h cfg.C samples hst.selfW]
      cases calcDualGap m cfg.C samples s.selfW s.selfL with
      | error e => exact .error e
      | ok r =>
        obtain ⟨d, g, p⟩ := r
        simp only [Except.map]
        have hc : (⟨(fwCurvesUnits a b c).dual ++ [(a / b) ^ 2 * d], (fwCurvesUnits a b c).primal ++ [(a / b) ^ 2 * p]⟩ : Curves) =
            fwCurvesUnits a b ⟨c.dual ++ [d], c.primal ++ [p]⟩ := by
          unfold fwCurvesUnits; simp
        rw [hc]
        by_cases ht : g < cfg.tol
        · rw [if_pos ht, if_pos (by rwa [mul_lt_mul_iff_right₀ hab])]
          exact .ok ⟨hst, rfl⟩
        · rw [if_neg ht, if_neg (by rwa [mul_lt_mul_iff_right₀ hab])]
          exact ih _ _ _ hst (some g) _
    · rw [if_neg hck, if_neg hck]
      cases gap with
      | none => exact .error _
      | some g =>
        simp only [Option.map_some]
        by_cases ht : g < cfg.tol
        · rw [if_pos ht, if_pos (by rwa [mul_lt_mul_iff_right₀ hab])]
          exact .ok ⟨hst, rfl⟩
        · rw [if_neg ht, if_neg (by rwa [mul_lt_mul_iff_right₀ hab])]
          exact ih _ _ _ hst (some g) _

end FrankWolfe

/-! ### the quadratic program -/

section QP
open Verif.OneSlack

/-- constraints in the two units. -/
def ConUnits (ρ : Equiv.Perm ℕ) (a b : ℚ) (d : ℕ) (c c' : Con) : Prop := Multiple ρ b d c.1 c'.1 ∧ c'.2 = a * c.2

theorem conUnits_symm {d : ℕ} (ha : 0 < a) (hb : 0 < b) (hρ : Reorders ρ d) {cs cs' : List Con}
    (h : List.Forall₂ (ConUnits ρ a b d) cs cs') : List.Forall₂ (ConUnits ρ.symm a⁻¹ b⁻¹ d) cs' cs := by
  refine h.flip.imp fun c' c hc => ?_
  refine ⟨fun k hk => ?_, ?_⟩
  · rw [hc.1 _ ((reorders_symm hρ k).mpr hk), Equiv.apply_symm_apply]; field_simp
  · rw [hc.2]; field_simp

theorem mem_reorderNeg {neg : Option (List ℕ)} {k : ℕ} : k ∈ (reorderNeg ρ neg).getD [] ↔ ρ k ∈ neg.getD [] := by
  unfold reorderNeg
  cases neg with
  | none => simp
  | some l =>
    simp only [Option.map_some, Option.getD_some, List.mem_map]
    exact ⟨by rintro ⟨j, hj, rfl⟩; rwa [Equiv.apply_symm_apply], fun hk => ⟨_, hk, Equiv.symm_apply_apply _ _⟩⟩

theorem reorderNeg_symm (neg : Option (List ℕ)) : reorderNeg ρ.symm (reorderNeg ρ neg) = neg := by
  unfold reorderNeg
  cases neg <;> simp

theorem reorderNeg_any {d : ℕ} (hρ : Reorders ρ d) (neg : Option (List ℕ)) :
    ((reorderNeg ρ neg).getD []).any (fun k => d ≤ k) = (neg.getD []).any (fun k => d ≤ k) := by
  rw [Bool.eq_iff_iff, List.any_eq_true, List.any_eq_true]
  constructor
  · rintro ⟨k, hk, hd⟩
    refine ⟨ρ k, mem_reorderNeg.mp hk, ?_⟩
    have := hρ k
    simp only [decide_eq_true_eq] at hd ⊢
    omega
  · rintro ⟨k, hk, hd⟩
    refine ⟨ρ.symm k, mem_reorderNeg.mpr (by rwa [Equiv.apply_symm_apply]), ?_⟩
    have := reorders_symm hρ k
    simp only [decide_eq_true_eq] at hd ⊢
    omega

theorem con_units {d : ℕ} {cs cs' : List Con} (h : List.Forall₂ (ConUnits ρ a b d) cs cs') (i : ℕ) :
    ConUnits ρ a b d (con cs i) (con cs' i) := by
  induction h generalizing i with
  | nil => exact ⟨fun k _ => by simp [con], by simp [con]⟩
  | cons hc _ ih =>
    cases i with
    | zero => exact hc
    | succ i => exact ih i

/-- the same multipliers in the other units. -/
def scaleList (t : ℚ) (x : List ℚ) : List ℚ := x.map fun v => t * v

theorem scaleList_getD (t : ℚ) (x : List ℚ) (i : ℕ) : (scaleList t x).getD i 0 = t * x.getD i 0 := by
  unfold scaleList
  rw [List.getD_eq_getElem?_getD, List.getD_eq_getElem?_getD, List.getElem?_map]
  cases x[i]? <;> simp

theorem weights_units {d : ℕ} {cs cs' : List Con} (h : List.Forall₂ (ConUnits ρ a b d) cs cs') (t : ℚ) (x : List ℚ)
    (hx : x.length = cs.length) : Multiple ρ (t * b) d (weightsOf cs x) (weightsOf cs' (scaleList t x)) := by
  intro k hk
  rw [weightsOf_eq cs x hx, weightsOf_eq cs' _ (by unfold scaleList; rw [List.length_map, hx, h.length_eq]), ← h.length_eq,
    mul_sum]
  refine sum_congr rfl fun i _ => ?_
  rw [scaleList_getD, (con_units h i).1 k hk]
  ring

theorem feasible_units {d : ℕ} (ha : 0 < a) (hb : 0 < b) (hρ : Reorders ρ d) {cs cs' : List Con} (h : List.Forall₂ (ConUnits ρ a b d) cs cs')
    (neg : Option (List ℕ)) (hn : ∀ k ∈ neg.getD [], k < d) (cn eps eps' : ℚ) (x : List ℚ)
    (hx : (qpOf d neg cn cs eps).Feasible x) :
    (qpOf d (reorderNeg ρ neg) (cn * (a / b ^ 2)) cs' eps').Feasible (scaleList (a / b ^ 2) x) := by
  rw [feasible_qpOf] at hx ⊢
  obtain ⟨h1, h2, h3, h4⟩ := hx
  have ht : 0 < a / b ^ 2 := by positivity
  refine ⟨by unfold scaleList; rw [List.length_map, h1, h.length_eq], fun i hi => ?_, ?_, fun k hk => ?_⟩
  · rw [scaleList_getD]
    exact mul_nonneg ht.le (h2 i (by rwa [h.length_eq]))
  · rw [← h3, ← h.length_eq, sum_mul]
    exact sum_congr rfl fun i _ => by rw [scaleList_getD]; ring
  · have hk' := mem_reorderNeg.mp hk
    rw [weights_units h _ x h1 k ((hρ k).mp (hn _ hk'))]
    exact mul_nonpos_of_nonneg_of_nonpos (by positivity) (h4 _ hk')

theorem value_units {d : ℕ} (hb : 0 < b) (hρ : Reorders ρ d) {cs cs' : List Con} (h : List.Forall₂ (ConUnits ρ a b d) cs cs')
    (neg neg' : Option (List ℕ)) (cn cn' : ℚ) (x : List ℚ) (hx : x.length = cs.length) :
    (qpOf d neg' cn' cs' 0).value (scaleList (a / b ^ 2) x) = (a / b) ^ 2 * (qpOf d neg cn cs 0).value x := by
  have hl : (scaleList (a / b ^ 2) x).length = cs'.length := by unfold scaleList; rw [List.length_map, hx, h.length_eq]
  rw [value_qpOf _ _ _ _ _ _ hx, value_qpOf _ _ _ _ _ _ hl, dot_units hρ (weights_units h _ x hx) (weights_units h _ x hx),
    ← h.length_eq]
  have e : ∑ i ∈ range cs.length, (scaleList (a / b ^ 2) x).getD i 0 * (con cs' i).2 =
      (a / b) ^ 2 * ∑ i ∈ range cs.length, x.getD i 0 * (con cs i).2 := by
    rw [mul_sum]
    refine sum_congr rfl fun i _ => ?_
    rw [scaleList_getD, (con_units h i).2]
    field_simp
  rw [e]
  simp only [zero_mul, add_zero]
  field_simp

/-- optimal multipliers may differ, the weights do not. -/
theorem optimal_weights_unique (d : ℕ) (neg : Option (List ℕ)) (cn : ℚ) (cs : List Con) (x y : List ℚ)
    (hx : (qpOf d neg cn cs 0).Optimal x) (hy : (qpOf d neg cn cs 0).Optimal y) :
    ∀ k < d, weightsOf cs x k = weightsOf cs y k := by
  obtain ⟨hxf, hxm⟩ := hx
  obtain ⟨hyf, hym⟩ := hy
  have hxv := hxm y hyf
  have hyv := hym x hxf
  obtain ⟨x1, x2, x3, x4⟩ := (feasible_qpOf _ _ _ _ _ _).mp hxf
  obtain ⟨y1, y2, y3, y4⟩ := (feasible_qpOf _ _ _ _ _ _).mp hyf
  let z : List ℚ := List.zipWith (fun u v => (u + v) / 2) x y
  have z1 : z.length = cs.length := by simp only [z, List.length_zipWith, x1, y1, min_self]
  have hz : ∀ i < cs.length, z.getD i 0 = (x.getD i 0 + y.getD i 0) / 2 := by
    intro i hi
    have h1 : i < x.length := by omega
    have h2 : i < y.length := by omega
    simp [z, List.getD_eq_getElem?_getD, h1, h2]
  have hw : ∀ k, weightsOf cs z k = (weightsOf cs x k + weightsOf cs y k) / 2 := by
    intro k
    rw [weightsOf_eq cs z z1, weightsOf_eq cs x x1, weightsOf_eq cs y y1, ← sum_add_distrib, sum_div]
    refine sum_congr rfl fun i hi => ?_
    rw [hz i (mem_range.mp hi)]
    ring
  have hzf : (qpOf d neg cn cs 0).Feasible z := by
    rw [feasible_qpOf]
    refine ⟨z1, fun i hi => ?_, ?_, fun k hk => ?_⟩
    · rw [hz i hi]
      have := x2 i hi
      have := y2 i hi
      linarith
    · rw [sum_congr rfl fun i hi => hz i (mem_range.mp hi), ← sum_div, sum_add_distrib, x3, y3]
      ring
    · rw [hw]
      have := x4 k hk
      have := y4 k hk
      linarith
  have hzv := hxm z hzf
  rw [value_qpOf _ _ _ _ _ _ x1] at hxv hyv hzv
  rw [value_qpOf _ _ _ _ _ _ y1] at hxv hyv
  rw [value_qpOf _ _ _ _ _ _ z1] at hzv
  have hlin : ∑ i ∈ range cs.length, z.getD i 0 * (con cs i).2 =
      (∑ i ∈ range cs.length, x.getD i 0 * (con cs i).2 + ∑ i ∈ range cs.length, y.getD i 0 * (con cs i).2) / 2 := by
    rw [← sum_add_distrib, sum_div]
    refine sum_congr rfl fun i hi => ?_
    rw [hz i (mem_range.mp hi)]
    ring
  have hquad : dot d (weightsOf cs z) (weightsOf cs z) = (dot d (weightsOf cs x) (weightsOf cs x) +
      dot d (weightsOf cs y) (weightsOf cs y)) / 2 - (∑ k ∈ range d, (weightsOf cs x k - weightsOf cs y k) ^ 2) / 4 := by
    unfold dot
    rw [← sum_add_distrib, sum_div, sum_div, ← sum_sub_distrib]
    refine sum_congr rfl fun k _ => ?_
    rw [hw]
    ring
  rw [hlin, hquad] at hzv
  simp only [zero_mul, add_zero] at hxv hyv hzv
  have hS : ∑ k ∈ range d, (weightsOf cs x k - weightsOf cs y k) ^ 2 ≤ 0 := by linarith
  have h0 := le_antisymm hS (sum_nonneg fun k _ => sq_nonneg _)
  rw [sum_eq_zero_iff_of_nonneg fun k _ => sq_nonneg _] at h0
  intro k hk
  have := h0 k (mem_range.mpr hk)
  have := pow_eq_zero_iff (two_ne_zero) |>.mp this
  linarith

/-- the quadratic programs of the two units are solved alike, whatever optimal solutions the solvers pick. -/
theorem solveQP_units {d : ℕ} (ha : 0 < a) (hb : 0 < b) (hρ : Reorders ρ d) {qp qp' : QP.Solver} (hq : QP.Exact qp) (hqc : QP.Complete qp)
    (hq' : QP.Exact qp') (hqc' : QP.Complete qp') {cs cs' : List Con} (h : List.Forall₂ (ConUnits ρ a b d) cs cs')
    (neg : Option (List ℕ)) (cn : ℚ) :
    BothRun (fun s s' => s.x.length = cs.length ∧ s'.x.length = cs.length ∧
        Multiple ρ (a / b) d (weightsOf cs s.x) (weightsOf cs' s'.x) ∧ s'.primalObjective = (a / b) ^ 2 * s.primalObjective)
      (solveQP qp d neg cn cs) (solveQP qp' d (reorderNeg ρ neg) (cn * (a / b ^ 2)) cs') := by
  unfold solveQP
  rw [reorderNeg_any hρ]
  by_cases hn : (neg.getD []).any (fun k => d ≤ k) = true
  · rw [if_pos hn, if_pos hn]; exact .error _
  · rw [if_neg hn, if_neg hn]
    have hn' : ∀ k ∈ neg.getD [], k < d := by
      intro k hk
      by_contra hlt
      exact hn (List.any_eq_true.mpr ⟨k, hk, by simpa using hlt⟩)
    have hn2 : ∀ k ∈ (reorderNeg ρ neg).getD [], k < d := fun k hk => (hρ k).mp (hn' _ (mem_reorderNeg.mp hk))
    have hsymm := conUnits_symm ha hb hρ h
    have hback : ∀ (cn eps eps' : ℚ) (x : List ℚ), (qpOf d (reorderNeg ρ neg) (cn * (a / b ^ 2)) cs' eps).Feasible x →
        (qpOf d neg cn cs eps').Feasible (scaleList (a⁻¹ / b⁻¹ ^ 2) x) := by
      intro cn eps eps' x hx
      have := feasible_units (inv_pos.mpr ha) (inv_pos.mpr hb) (reorders_symm hρ) hsymm _ hn2 _ eps eps' x hx
      have e : cn * (a / b ^ 2) * (a⁻¹ / b⁻¹ ^ 2) = cn := by field_simp
      rwa [e, reorderNeg_symm] at this
    by_cases hf : ∃ x, (qpOf d neg cn cs 0).Feasible x
    · have hopt := QP.oneSlack_optimal d neg cn cs 0 le_rfl hf
      have hf' : ∃ x, (qpOf d (reorderNeg ρ neg) (cn * (a / b ^ 2)) cs' 0).Feasible x := by
        obtain ⟨x, hx⟩ := hf
        exact ⟨_, feasible_units ha hb hρ h neg hn' cn 0 0 x hx⟩
      have hopt' := QP.oneSlack_optimal d (reorderNeg ρ neg) (cn * (a / b ^ 2)) cs' 0 le_rfl hf'
      have hs := hqc _ hopt
      have hs' := hqc' _ hopt'
      cases e1 : qp (qpOf d neg cn cs 0) with
      | none => rw [e1] at hs; cases hs
      | some s =>
        cases e2 : qp' (qpOf d (reorderNeg ρ neg) (cn * (a / b ^ 2)) cs' 0) with
        | none => rw [e2] at hs'; cases hs'
        | some s' =>
          simp only
          obtain ⟨sf, sv⟩ := hq.1 _ _ e1
          obtain ⟨sf', sv'⟩ := hq'.1 _ _ e2
          have sl : s.x.length = cs.length := ((feasible_qpOf _ _ _ _ _ _).mp sf).1
          have sl' : s'.x.length = cs'.length := ((feasible_qpOf _ _ _ _ _ _).mp sf').1
          have hv : (qpOf d (reorderNeg ρ neg) (cn * (a / b ^ 2)) cs' 0).value (scaleList (a / b ^ 2) s.x) = (a / b) ^ 2 *
              s.primalObjective := by rw [sv]; exact value_units hb hρ h neg _ _ _ _ sl
          have hle1 : s'.primalObjective ≤ (a / b) ^ 2 * s.primalObjective := by
            rw [← hv]
            exact hq'.2 _ _ e2 _ (feasible_units ha hb hρ h neg hn' cn 0 0 _ sf)
          have hle2 : (a / b) ^ 2 * s.primalObjective ≤ s'.primalObjective := by
            have h1 := hq.2 _ _ e1 _ (hback cn 0 0 _ sf')
            rw [value_units (inv_pos.mpr hb) (reorders_symm hρ) hsymm (reorderNeg ρ neg) neg (cn * (a / b ^ 2)) cn _ sl', ← sv'] at h1
            have e : (a⁻¹ / b⁻¹) ^ 2 = ((a / b) ^ 2)⁻¹ := by field_simp
            rw [e, inv_mul_eq_div, le_div_iff₀ (by positivity)] at h1
            linarith
          have heq := le_antisymm hle1 hle2
          refine .ok ⟨sl, by rw [sl', h.length_eq], ?_, heq⟩
          intro k hk
          have hu := optimal_weights_unique d (reorderNeg ρ neg) (cn * (a / b ^ 2)) cs' s'.x (scaleList (a / b ^ 2) s.x)
            ⟨sf', fun x hx => by rw [← sv']; exact hq'.2 _ _ e2 x hx⟩
            ⟨feasible_units ha hb hρ h neg hn' cn 0 0 _ sf, fun x hx => by
              rw [hv, ← heq]; exact hq'.2 _ _ e2 x hx⟩ k hk
          rw [hu, weights_units h _ s.x sl k hk]
          field_simp
    · have hnone : ∀ eps, qp (qpOf d neg cn cs eps) = none := by
        intro eps
        cases e1 : qp (qpOf d neg cn cs eps) with
        | none => rfl
        | some s =>
          have := (hq.1 _ _ e1).1
          rw [feasible_qpOf, ← feasible_qpOf (eps := 0)] at this
          exact absurd ⟨_, this⟩ hf
      have hnone' : ∀ eps, qp' (qpOf d (reorderNeg ρ neg) (cn * (a / b ^ 2)) cs' eps) = none := by
        intro eps
        cases e1 : qp' (qpOf d (reorderNeg ρ neg) (cn * (a / b ^ 2)) cs' eps) with
        | none => rfl
        | some s =>
          have := hback cn eps 0 _ (hq'.1 _ _ e1).1
          exact absurd ⟨_, this⟩ hf
      simp only [hnone, hnone']
      exact .error _

end QP

end Verif.Props
