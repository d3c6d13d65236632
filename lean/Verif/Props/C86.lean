import Verif.Props.C85
import Mathlib.Algebra.Order.Chebyshev

/-!
# C86: block-coordinate Frank-Wolfe training with line search terminates
-/

namespace Verif.Props

open Finset Verif.Spec Verif.Learner Verif.FrankWolfe

variable {X Y : Type}

/-- a clipped step does not overshoot. -/
theorem clip_move (N D e : ℚ) (hD : 0 ≤ D) (he : 0 < e) :
    clip (N / (D + e)) ^ 2 * D ≤ 2 * (clip (N / (D + e)) * N - clip (N / (D + e)) ^ 2 * D / 2) := by
  have hDe : 0 < D + e := by linarith
  have hc := clip_nonneg (N / (D + e))
  suffices h : clip (N / (D + e)) * (clip (N / (D + e)) * D) ≤ clip (N / (D + e)) * N by nlinarith
  rcases le_or_gt N 0 with hN | hN
  · have h0 : clip (N / (D + e)) = 0 := by
      unfold clip
      exact max_eq_left (min_le_of_right_le (div_nonpos_of_nonpos_of_nonneg hN hDe.le))
    rw [h0]; simp
  · refine mul_le_mul_of_nonneg_left ?_ hc
    have h1 : clip (N / (D + e)) ≤ N / (D + e) := by
      unfold clip
      exact max_le (div_nonneg hN.le hDe.le) (min_le_right _ _)
    rw [le_div_iff₀ hDe] at h1
    nlinarith

/-- the duality gap that belongs to one sample. -/
def blockGap (m : SModel X Y) (outputs : X → Set Y) (C n : ℚ) (s : X × Y) (w wi : W) (li : ℚ) : ℚ :=
  C * (problemOf m outputs).violation w s.1 s.2 (m.lossAug s.1 s.2 w true) - (C * n * li - dot m.dim wi w)

/-- the feature difference of the answer of loss-augmented inference. -/
def answerDelta (m : SModel X Y) (s : X × Y) (w : W) : W := fun k =>
  m.feat s.1 s.2 s.2 k - m.feat s.1 (m.lossAug s.1 s.2 w true) s.2 k

theorem bcStep_line (m : SModel X Y) (outputs : X → Set Y) (cfg : Config) (hls : cfg.lineSearch = true)
    (samples : List (X × Y)) (st : BC) (i : ℕ) (hi : i < samples.length) :
    ∃ γ, 0 ≤ γ ∧ γ ≤ 1 ∧
      (∀ k, (bcStep m cfg samples st i).w k =
        st.w k - γ * (st.wMat i k - cfg.C * answerDelta m samples[i] st.w k)) ∧
      (let N := blockGap m outputs cfg.C samples.length samples[i] st.w (st.wMat i) (st.lMat i)
       let D := ∑ k ∈ range m.dim, (st.wMat i k - cfg.C * answerDelta m samples[i] st.w k) ^ 2
       fwDual m.dim samples.length cfg.C (bcStep m cfg samples st i).w (bcStep m cfg samples st i).l =
          fwDual m.dim samples.length cfg.C st.w st.l + (γ * N - γ ^ 2 * D / 2) ∧
        (∀ γ', 0 ≤ γ' → γ' ≤ 1 → γ' * N - γ' ^ 2 * D / 2 ≤ γ * N - γ ^ 2 * D / 2 + eps * γ' ^ 2 / 2) ∧
        γ ^ 2 * D ≤ 2 * (γ * N - γ ^ 2 * D / 2)) ∧
      (bcStep m cfg samples st i).wMat = Function.update st.wMat i
        (fun k => (1 - γ) * st.wMat i k + γ * (cfg.C * answerDelta m samples[i] st.w k)) ∧
      (bcStep m cfg samples st i).lMat = Function.update st.lMat i
        ((1 - γ) * st.lMat i + γ * (m.lossOf samples[i].2 (m.lossAug samples[i].1 samples[i].2 st.w true) /
          samples.length)) := by
  have hn0 : (samples.length : ℚ) ≠ 0 := by
    have : samples.length ≠ 0 := by omega
    exact_mod_cast this
  set s := samples[i] with hs
  set δ := answerDelta m s st.w with hδ
  set ls := m.lossOf s.2 (m.lossAug s.1 s.2 st.w true) / (samples.length : ℚ) with hlsd
  have hc : ∀ k, (findConstraint m s.1 s.2 st.w none true true).delta k * cfg.C = cfg.C * δ k := by
    intro k
    change (-m.feat s.1 (m.lossAug s.1 s.2 st.w true) s.2 k + m.feat s.1 s.2 s.2 k) * cfg.C =
      cfg.C * (m.feat s.1 s.2 s.2 k - m.feat s.1 (m.lossAug s.1 s.2 st.w true) s.2 k)
    ring
  have hcf : (fun k => (findConstraint m s.1 s.2 st.w none true true).delta k * cfg.C) =
      fun k => cfg.C * δ k := funext hc
  have hloss : (findConstraint m s.1 s.2 st.w none true true).loss =
    m.lossOf s.2 (m.lossAug s.1 s.2 st.w true) := rfl
  set N := blockGap m outputs cfg.C samples.length s st.w (st.wMat i) (st.lMat i) with hN
  have hNum : lineNum m cfg samples.length st i (fun k => cfg.C * δ k) ls = N := by
    unfold lineNum
    rw [hN]
    unfold blockGap
    rw [← dot_delta, dot_sub_left, dot_smul_left, dot_comm m.dim δ st.w]
    have e : dot m.dim st.w (fun k => -m.feat s.1 (m.lossAug s.1 s.2 st.w true) s.2 k + m.feat s.1 s.2 s.2 k) =
        dot m.dim st.w δ := by
      unfold dot
      refine sum_congr rfl fun k _ => ?_
      change _ = st.w k * (m.feat s.1 s.2 s.2 k - m.feat s.1 (m.lossAug s.1 s.2 st.w true) s.2 k)
      ring
    rw [e, hlsd]
    field_simp
    ring
  set D := ∑ k ∈ range m.dim, (st.wMat i k - cfg.C * δ k) ^ 2 with hD
  have hD0 : 0 ≤ D := sum_nonneg fun k _ => sq_nonneg _
  have hstep : bcStep m cfg samples st i =
      { w := fun k => st.w k - st.wMat i k + ((1 - clip (N / (D + eps))) * st.wMat i k +
          clip (N / (D + eps)) * (cfg.C * δ k))
        wMat := Function.update st.wMat i fun k => (1 - clip (N / (D + eps))) * st.wMat i k +
          clip (N / (D + eps)) * (cfg.C * δ k)
        lMat := Function.update st.lMat i ((1 - clip (N / (D + eps))) * st.lMat i + clip (N / (D + eps)) * ls)
        l := st.l - st.lMat i + ((1 - clip (N / (D + eps))) * st.lMat i + clip (N / (D + eps)) * ls)
        k := st.k + 1
        selfW := (bcStep m cfg samples st i).selfW
        selfL := (bcStep m cfg samples st i).selfL } := by
    unfold bcStep
    rw [List.getElem?_eq_getElem hi]
    simp only [hls, if_true]
    rw [← hs]
    simp only [hc, hcf, hloss, ← hlsd, hNum, ← hD]
  refine ⟨clip (N / (D + eps)), clip_nonneg _, clip_le_one _, ?_, ⟨?_, ?_, ?_⟩, ?_, ?_⟩
  · intro k
    rw [hstep]
    simp only
    ring
  · rw [hstep]
    simp only
    set γ := clip (N / (D + eps)) with hγ
    unfold fwDual
    have e1 : ∑ k ∈ range m.dim, (st.w k - st.wMat i k + ((1 - γ) * st.wMat i k + γ * (cfg.C * δ k))) ^ 2 =
        ∑ k ∈ range m.dim, (st.w k - γ * (st.wMat i k - cfg.C * δ k)) ^ 2 :=
      sum_congr rfl fun k _ => by ring
    have := dual_along m.dim st.w (fun k => st.wMat i k - cfg.C * δ k) γ (samples.length * cfg.C) st.l (st.lMat i - ls)
    have e2 : (st.l - st.lMat i + ((1 - γ) * st.lMat i + γ * ls)) * samples.length * cfg.C =
        samples.length * cfg.C * (st.l - γ * (st.lMat i - ls)) := by ring
    rw [e1, e2, this]
    have e3 : N = dot m.dim (fun k => st.wMat i k - cfg.C * δ k) st.w -
        samples.length * cfg.C * (st.lMat i - ls) := by
      rw [← hNum]; unfold lineNum; ring
    rw [← e3]
    ring
  · intro γ' h0 h1
    exact line_search_best N D eps hD0 eps_pos γ' h0 h1
  · exact clip_move N D eps hD0 eps_pos
  · rw [hstep]
  · rw [hstep]

/-! ### one pass -/

theorem cauchy_dot (d : ℕ) (a b : ℕ → ℚ) : dot d a b ^ 2 ≤
    (∑ k ∈ range d, a k ^ 2) * ∑ k ∈ range d, b k ^ 2 := by
  unfold dot
  exact sum_mul_sq_le_sq_mul_sq _ _ _

/-- the weights move by no more than the dual gains. -/
theorem bcFold_moves (m : SModel X Y) (outputs : X → Set Y) (cfg : Config) (hls : cfg.lineSearch = true)
    (samples : List (X × Y)) (l : List ℕ) (hl : ∀ i ∈ l, i < samples.length) (st : BC) :
    let st' := l.foldl (bcStep m cfg samples) st
    let Δ := fwDual m.dim samples.length cfg.C st'.w st'.l - fwDual m.dim samples.length cfg.C st.w st.l
    0 ≤ Δ ∧ ∑ k ∈ range m.dim, (st'.w k - st.w k) ^ 2 ≤ l.length * (2 * Δ) := by
  induction l generalizing st with
  | nil => simp
  | cons i l ih =>
    intro st' Δ
    obtain ⟨i1, i2⟩ := ih (fun j hj => hl j (List.mem_cons_of_mem _ hj)) (bcStep m cfg samples st i)
    obtain ⟨γ, g0, g1, hw, ⟨hd, -, hmv⟩, -, -⟩ := bcStep_line m outputs cfg hls samples st i (hl i List.mem_cons_self)
    set st1 := bcStep m cfg samples st i with hst1
    have est : st' = l.foldl (bcStep m cfg samples) st1 := rfl
    rw [← est] at i1 i2
    set N := blockGap m outputs cfg.C samples.length (samples[i]'(hl i List.mem_cons_self)) st.w (st.wMat i) (st.lMat i)
    set D := ∑ k ∈ range m.dim, (st.wMat i k - cfg.C * answerDelta m (samples[i]'(hl i List.mem_cons_self)) st.w k) ^ 2
      with hD
    have hD0 : 0 ≤ D := sum_nonneg fun k _ => sq_nonneg _
    have hg : 0 ≤ γ * N - γ ^ 2 * D / 2 := by
      have := mul_nonneg (sq_nonneg γ) hD0
      linarith
    set A := ∑ k ∈ range m.dim, (st'.w k - st1.w k) ^ 2 with hA
    have hA0 : 0 ≤ A := sum_nonneg fun k _ => sq_nonneg _
    have hB : ∑ k ∈ range m.dim, (st1.w k - st.w k) ^ 2 = γ ^ 2 * D := by
      rw [hD, mul_sum]
      refine sum_congr rfl fun k _ => ?_
      rw [hw k]; ring
    have hΔ : Δ = (fwDual m.dim samples.length cfg.C st'.w st'.l -
        fwDual m.dim samples.length cfg.C st1.w st1.l) + (γ * N - γ ^ 2 * D / 2) := by
      change fwDual m.dim samples.length cfg.C st'.w st'.l - fwDual m.dim samples.length cfg.C st.w st.l = _
      rw [hd]; ring
    refine ⟨by rw [hΔ]; linarith, ?_⟩
    rw [List.length_cons]
    push_cast
    set L : ℚ := (l.length : ℚ) with hL
    have hL0 : 0 ≤ L := Nat.cast_nonneg _
    rcases hL0.eq_or_lt with h0 | hpos
    · -- nothing moved after the step
      rw [← h0, zero_mul] at i2
      have hz : ∀ k ∈ range m.dim, (st'.w k - st1.w k) ^ 2 = 0 :=
        (sum_eq_zero_iff_of_nonneg fun k _ => sq_nonneg _).mp (le_antisymm i2 hA0)
      have : ∑ k ∈ range m.dim, (st'.w k - st.w k) ^ 2 = γ ^ 2 * D := by
        rw [← hB]
        refine sum_congr rfl fun k hk => ?_
        have := pow_eq_zero_iff (two_ne_zero) |>.mp (hz k hk)
        have : st'.w k = st1.w k := by linarith
        rw [this]
      rw [this, ← h0, hΔ]
      linarith
    · have h1 : ∑ k ∈ range m.dim, (st'.w k - st.w k) ^ 2 ≤ (1 + 1 / L) * A + (1 + L) * (γ ^ 2 * D) := by
        rw [← hB, hA, mul_sum, mul_sum, ← sum_add_distrib]
        refine sum_le_sum fun k _ => ?_
        set a := st'.w k - st1.w k
        set c := st1.w k - st.w k
        have e : st'.w k - st.w k = a + c := by simp only [a, c]; ring
        rw [e]
        have h2 : 0 ≤ (a - L * c) ^ 2 / L := div_nonneg (sq_nonneg _) hpos.le
        have h3 : (a - L * c) ^ 2 / L = 1 / L * a ^ 2 - 2 * a * c + L * c ^ 2 := by
          field_simp
          ring
        nlinarith
      have h2 : (1 + 1 / L) * A ≤ (1 + 1 / L) * (L * (2 * (fwDual m.dim samples.length cfg.C st'.w st'.l -
          fwDual m.dim samples.length cfg.C st1.w st1.l))) :=
        mul_le_mul_of_nonneg_left i2 (by positivity)
      have h3 : (1 + 1 / L) * (L * (2 * (fwDual m.dim samples.length cfg.C st'.w st'.l -
          fwDual m.dim samples.length cfg.C st1.w st1.l))) = (L + 1) * (2 * (fwDual m.dim samples.length cfg.C st'.w st'.l -
          fwDual m.dim samples.length cfg.C st1.w st1.l)) := by field_simp
      have h4 : (1 + L) * (γ ^ 2 * D) ≤ (1 + L) * (2 * (γ * N - γ ^ 2 * D / 2)) :=
        mul_le_mul_of_nonneg_left hmv (by linarith)
      rw [hΔ]
      linarith

theorem bcFold_other (m : SModel X Y) (cfg : Config) (samples : List (X × Y)) (l : List ℕ) (st : BC) (i : ℕ)
    (hi : i ∉ l) : (l.foldl (bcStep m cfg samples) st).wMat i = st.wMat i ∧
      (l.foldl (bcStep m cfg samples) st).lMat i = st.lMat i := by
  induction l generalizing st with
  | nil => exact ⟨rfl, rfl⟩
  | cons j l ih =>
    simp only [List.mem_cons, not_or] at hi
    rw [List.foldl_cons]
    obtain ⟨h1, h2⟩ := ih (bcStep m cfg samples st j) hi.2
    rw [h1, h2]
    unfold bcStep
    cases samples[j]? with
    | none => exact ⟨rfl, rfl⟩
    | some s =>
      simp only
      exact ⟨Function.update_of_ne hi.1 _ _, Function.update_of_ne hi.1 _ _⟩

/-- a step with a large block gap gains. -/
theorem gap_sq_le_gain {N D β e gain H : ℚ} (hN : 0 ≤ N) (hD : D ≤ β) (hβ : 0 ≤ β) (he : 0 < e) (hH : 0 ≤ H)
    (hgain : gain ≤ H)
    (h : ∀ γ', 0 ≤ γ' → γ' ≤ 1 → γ' * N - γ' ^ 2 * D / 2 ≤ gain + e * γ' ^ 2 / 2) :
    N ^ 2 ≤ 2 * (β + e + H) * gain := by
  set M := β + e + H with hM
  have hMpos : 0 < M := by linarith
  have h1 := h 1 zero_le_one le_rfl
  have hNM : N ≤ M := by linarith
  have hq := div_nonneg hN hMpos.le
  have h2 := h (N / M) hq (by rw [div_le_one hMpos]; exact hNM)
  have e1 : N / M * N = N ^ 2 / M := by ring
  have e2 : (N / M) ^ 2 * (D + e) ≤ N ^ 2 / M := by
    have : (N / M) ^ 2 * (D + e) ≤ (N / M) ^ 2 * M := mul_le_mul_of_nonneg_left (by linarith) (sq_nonneg _)
    refine this.trans (le_of_eq ?_)
    field_simp
  have h3 : N ^ 2 / M / 2 ≤ gain := by
    rw [e1] at h2
    nlinarith
  have : N ^ 2 / M ≤ 2 * gain := by linarith
  rw [div_le_iff₀ hMpos] at this
  linarith

theorem blockGap_nonneg (m : SModel X Y) (outputs : X → Set Y) {C : ℚ} (hC : 0 ≤ C) {n : ℚ} (hn : n ≠ 0)
    (hLA : (problemOf m outputs).ExactLossAug (fun x y w => m.lossAug x y w true)) (s : X × Y)
    (hs : s.2 ∈ outputs s.1 ∧ (problemOf m outputs).loss s.2 s.2 = 0) (w wi : W) (li : ℚ) {a : ℕ → ℚ} {b : ℚ}
    (hm : (problemOf m outputs).Mix s.1 s.2 a b) (ha : ∀ k < m.dim, wi k = C * a k) (hb : li = b / n) :
    0 ≤ blockGap m outputs C n s w wi li := by
  obtain ⟨h1, h2⟩ := hLA s.1 s.2 w hs.1 hs.2
  have hh : (problemOf m outputs).IsHinge w s.1 s.2
      ((problemOf m outputs).violation w s.1 s.2 (m.lossAug s.1 s.2 w true)) := by
    refine ⟨⟨_, h1, rfl⟩, ?_⟩
    rintro v ⟨z, hz, rfl⟩
    exact h2 z hz
  have := mix_le_hinge _ hm w hh
  unfold blockGap
  have e1 : dot m.dim wi w = C * dot m.dim w a := by
    rw [dot_comm, dot_congr (fun k _ => rfl) ha, dot_smul_right]
  have e2 : C * n * li = C * b := by rw [hb]; field_simp
  rw [e1, e2]
  have h3 := mul_le_mul_of_nonneg_left this hC
  change C * (b - dot m.dim w a) ≤ _ at h3
  linarith

/-- the distance between a block and the corner of any weights. -/
theorem block_dist (m : SModel X Y) (outputs : X → Set Y) (C R : ℚ)
    (hLA : (problemOf m outputs).ExactLossAug (fun x y w => m.lossAug x y w true)) (samples : List (X × Y))
    (hR : (problemOf m outputs).FeatureRange samples R) (s : X × Y) (hmem : s ∈ samples)
    (hs : s.2 ∈ outputs s.1 ∧ (problemOf m outputs).loss s.2 s.2 = 0) (v wi : W) {a : ℕ → ℚ} {b : ℚ}
    (hm : (problemOf m outputs).Mix s.1 s.2 a b) (ha : ∀ k < m.dim, wi k = C * a k) :
    ∑ k ∈ range m.dim, (wi k - C * answerDelta m s v k) ^ 2 ≤ C ^ 2 * R := by
  have h1 := mix_dist hm (ŷ := m.lossAug s.1 s.2 v true) (R := R)
    (fun z hz => hR s hmem _ (hLA s.1 s.2 v hs.1 hs.2).1 z hz)
  have e : ∑ k ∈ range m.dim, (wi k - C * answerDelta m s v k) ^ 2 = C ^ 2 * ∑ k ∈ range m.dim,
      (a k - ((problemOf m outputs).feat s.1 s.2 s.2 k -
        (problemOf m outputs).feat s.1 (m.lossAug s.1 s.2 v true) s.2 k)) ^ 2 := by
    rw [mul_sum]
    refine sum_congr rfl fun k hk => ?_
    rw [ha k (mem_range.mp hk)]
    unfold answerDelta
    change (C * a k - C * (m.feat s.1 s.2 s.2 k - m.feat s.1 (m.lossAug s.1 s.2 v true) s.2 k)) ^ 2 =
      C ^ 2 * (a k - (m.feat s.1 s.2 s.2 k - m.feat s.1 (m.lossAug s.1 s.2 v true) s.2 k)) ^ 2
    ring
  rw [e]
  exact mul_le_mul_of_nonneg_left h1 (sq_nonneg C)

/-- block gaps are Lipschitz in the weights. -/
theorem blockGap_lipschitz (m : SModel X Y) (outputs : X → Set Y) {C : ℚ} (hC : 0 ≤ C) (n : ℚ)
    (hLA : (problemOf m outputs).ExactLossAug (fun x y w => m.lossAug x y w true)) (s : X × Y)
    (hs : s.2 ∈ outputs s.1 ∧ (problemOf m outputs).loss s.2 s.2 = 0) (w w' wi : W) (li : ℚ) :
    blockGap m outputs C n s w' wi li ≤ blockGap m outputs C n s w wi li +
      dot m.dim (fun k => wi k - C * answerDelta m s w' k) (fun k => w' k - w k) := by
  obtain ⟨-, h2⟩ := hLA s.1 s.2 w hs.1 hs.2
  have h3 := h2 _ (hLA s.1 s.2 w' hs.1 hs.2).1
  have e : ∀ v, (problemOf m outputs).violation v s.1 s.2 (m.lossAug s.1 s.2 w' true) =
      m.lossOf s.2 (m.lossAug s.1 s.2 w' true) - dot m.dim v (answerDelta m s w') := by
    intro v
    rw [← dot_delta]
    congr 1
    unfold dot answerDelta
    exact sum_congr rfl fun k _ => by ring
  unfold blockGap
  rw [e w'] 
  rw [e w] at h3
  have h4 := mul_le_mul_of_nonneg_left h3 hC
  have e2 : dot m.dim (fun k => wi k - C * answerDelta m s w' k) (fun k => w' k - w k) =
      dot m.dim wi w' - dot m.dim wi w - C * dot m.dim w' (answerDelta m s w') + C * dot m.dim w (answerDelta m s w') := by
    rw [dot_sub_right, dot_sub_left, dot_sub_left, dot_smul_left, dot_smul_left,
      dot_comm m.dim (answerDelta m s w') w', dot_comm m.dim (answerDelta m s w') w]
    ring
  rw [e2]
  linarith

theorem two_sq_bound {G N E A β n Δ : ℚ} (hG : 0 ≤ G) (h : G ≤ N + E) (hN : N ^ 2 ≤ 2 * A * Δ)
    (hE : E ^ 2 ≤ β * (n * (2 * Δ))) : G ^ 2 ≤ 4 * (A + n * β) * Δ := by
  have h1 : G ^ 2 ≤ (N + E) ^ 2 := by nlinarith
  have h2 : (N + E) ^ 2 ≤ 2 * N ^ 2 + 2 * E ^ 2 := by nlinarith [sq_nonneg (N - E)]
  linarith

/-- the constant of C86. -/
def passConst (C n R H : ℚ) : ℚ := 4 * n ^ 2 * (C ^ 2 * R + eps + H + n * C ^ 2 * R)

theorem sum_map_range {α : Type} (l : List α) (f : α → ℚ) :
    (l.map f).sum = ∑ i ∈ range l.length, (l[i]?.map f).getD 0 := by
  induction l with
  | nil => simp
  | cons a l ih =>
    rw [List.map_cons, List.sum_cons, List.length_cons, sum_range_succ', ih]
    simp
    ring

/-- the reported gap is the sum of the gaps of the samples. -/
theorem gap_eq_sum (m : SModel X Y) (outputs : X → Set Y) (C : ℚ) (samples : List (X × Y)) (w : W) (l : ℚ)
    (wMat : ℕ → W) (lMat : ℕ → ℚ) (hb : BlockSums (problemOf m outputs) C samples w l wMat lMat) (d g p : ℚ)
    (h : calcDualGap m C samples w l = .ok (d, g, p)) :
    g = ∑ i ∈ range samples.length,
      (samples[i]?.map fun s => blockGap m outputs C samples.length s w (wMat i) (lMat i)).getD 0 := by
  have hr : m.rescaleC = false := by
    cases hr : m.rescaleC
    · rfl
    · unfold calcDualGap at h; rw [if_pos hr] at h; cases h
  have hv := batch_violations m outputs hr samples w
  unfold calcDualGap at h
  rw [if_neg (by simp [hr])] at h
  simp only at h
  injection h with h
  simp only [Prod.mk.injEq] at h
  obtain ⟨-, h2, -⟩ := h
  rw [← h2]
  have e : dot m.dim (fun k => w k - batchDelta m samples w k * C) w =
      dot m.dim w w - C * dot m.dim w (batchDelta m samples w) := by
    rw [dot_sub_left]
    have : (fun k => batchDelta m samples w k * C) = fun k => C * batchDelta m samples w k := by
      funext k; ring
    rw [this, dot_smul_left, dot_comm _ (batchDelta m samples w) w]
  have e2 : dot m.dim w w = ∑ i ∈ range samples.length, dot m.dim (wMat i) w := by
    rw [← dot_sum_left]
    exact dot_congr (fun k _ => hb.w_eq k) fun k _ => rfl
  have e3 : l * samples.length * C = ∑ i ∈ range samples.length, C * samples.length * lMat i := by
    rw [← mul_sum, ← hb.l_eq]; ring
  rw [sum_map_range] at hv
  rw [e, e2, e3]
  have e4 : ∑ i ∈ range samples.length,
      (samples[i]?.map fun s => blockGap m outputs C samples.length s w (wMat i) (lMat i)).getD 0 =
      C * ∑ i ∈ range samples.length, (samples[i]?.map fun s =>
        (problemOf m outputs).violation w s.1 s.2 (m.lossAug s.1 s.2 w true)).getD 0 -
      (∑ i ∈ range samples.length, C * samples.length * lMat i - ∑ i ∈ range samples.length, dot m.dim (wMat i) w) := by
    rw [mul_sum, ← sum_sub_distrib, ← sum_sub_distrib]
    refine sum_congr rfl fun i hi => ?_
    rw [List.getElem?_eq_getElem (mem_range.mp hi)]
    rfl
  rw [e4, ← hv]
  ring

theorem bcFold_blocks (m : SModel X Y) (outputs : X → Set Y) (cfg : Config) (samples : List (X × Y))
    (hadm : Admissible m outputs) (hl : (problemOf m outputs).Labelled samples) (l : List ℕ)
    (hv : ∀ i ∈ l, i < samples.length) (st : BC)
    (h : BlockSums (problemOf m outputs) cfg.C samples st.w st.l st.wMat st.lMat) :
    BlockSums (problemOf m outputs) cfg.C samples
      (l.foldl (bcStep m cfg samples) st).w (l.foldl (bcStep m cfg samples) st).l
      (l.foldl (bcStep m cfg samples) st).wMat (l.foldl (bcStep m cfg samples) st).lMat := by
  induction l generalizing st with
  | nil => exact h
  | cons i l ih =>
    rw [List.foldl_cons]
    exact ih (fun j hj => hv j (List.mem_cons_of_mem _ hj)) _
      (bcStep_blocks m outputs cfg samples hadm hl st i (hv i List.mem_cons_self) h)

set_option maxHeartbeats 1000000 in
/-- **C86, one pass.** A pass of block-coordinate training with line search that visits every sample once, started
from any state with the block invariant (C45) and a nonnegative dual value, ends with a duality gap whose square is
at most a constant times the amount by which the pass increased the dual value. -/
theorem C86_pass (m : SModel X Y) (outputs : X → Set Y) (cfg : Config) (hls : cfg.lineSearch = true) (hC : 0 ≤ cfg.C)
    (samples : List (X × Y))
    (hLA : (problemOf m outputs).ExactLossAug (fun x y w => m.lossAug x y w true))
    (hl : (problemOf m outputs).Labelled samples) (R : ℚ) (hR0 : 0 ≤ R)
    (hR : (problemOf m outputs).FeatureRange samples R) (w0 : W) (H : ℚ)
    (hH : (problemOf m outputs).IsObjective cfg.C samples w0 H)
    (visits : List ℕ) (hvis : visits.Perm (List.range samples.length)) (st : BC)
    (hst : BlockSums (problemOf m outputs) cfg.C samples st.w st.l st.wMat st.lMat)
    (h0 : 0 ≤ fwDual m.dim samples.length cfg.C st.w st.l) :
    let st' := visits.foldl (bcStep m cfg samples) st
    ∀ d g p, calcDualGap m cfg.C samples st'.w st'.l = .ok (d, g, p) →
      g ^ 2 ≤ passConst cfg.C samples.length R H *
        (fwDual m.dim samples.length cfg.C st'.w st'.l - fwDual m.dim samples.length cfg.C st.w st.l) := by
  intro st' d g p hgap
  have hadm := exact_admissible hLA
  have hlt : ∀ i ∈ visits, i < samples.length := fun i hi => List.mem_range.mp (hvis.mem_iff.mp hi)
  have hnd : visits.Nodup := hvis.nodup_iff.mpr List.nodup_range
  have hlen : visits.length = samples.length := by rw [hvis.length_eq, List.length_range]
  have hblocks := bcFold_blocks m outputs cfg samples hadm hl
  set F : BC → ℚ := fun st => fwDual m.dim samples.length cfg.C st.w st.l with hF
  set Δ := F st' - F st with hΔ
  have hΔ0 : 0 ≤ Δ := (bcFold_moves m outputs cfg hls samples visits hlt st).1
  have hHF : ∀ s : BC, samples ≠ [] → BlockSums (problemOf m outputs) cfg.C samples s.w s.l s.wMat s.lMat → F s ≤ H := by
    intro s hne hs
    have := weak_duality _ hC (blockSums_dualPoint hs hne) hH
    rw [← fwDual_eq] at this
    exact this
  set β := cfg.C ^ 2 * R with hβ
  have hβ0 : 0 ≤ β := mul_nonneg (sq_nonneg _) hR0
  set n : ℚ := (samples.length : ℚ) with hn
  have hn0 : 0 ≤ n := Nat.cast_nonneg _
  have hend := hblocks visits hlt st hst
  -- one sample
  have hone : ∀ i (hi : i < samples.length),
      (blockGap m outputs cfg.C n samples[i] st'.w (st'.wMat i) (st'.lMat i)) ^ 2 ≤
        4 * (β + eps + H + n * β) * Δ := by
    intro i hi
    have hne : samples ≠ [] := by intro h; rw [h] at hi; simp at hi
    have hnpos : 0 < n := by
      have := List.length_pos_of_ne_nil hne
      rw [hn]; exact_mod_cast this
    have hmem : i ∈ visits := hvis.mem_iff.mpr (List.mem_range.mpr hi)
    obtain ⟨l1, l2, hsplit⟩ := List.append_of_mem hmem
    have hnd' := hnd
    rw [hsplit, List.nodup_append] at hnd'
    have hi2 : i ∉ l2 := (List.nodup_cons.mp hnd'.2.1).1
    have hl1 : ∀ j ∈ l1, j < samples.length := fun j hj => hlt j (by rw [hsplit]; simp [hj])
    have hl2 : ∀ j ∈ i :: l2, j < samples.length := fun j hj =>
      hlt j (by rw [hsplit]; exact List.mem_append_right _ hj)
    set s1 := l1.foldl (bcStep m cfg samples) st with hs1
    have b1 := hblocks l1 hl1 st hst
    rw [← hs1] at b1
    set s2 := bcStep m cfg samples s1 i with hs2
    have b2 := bcStep_blocks m outputs cfg samples hadm hl s1 i hi b1
    rw [← hs2] at b2
    have hE : st' = l2.foldl (bcStep m cfg samples) s2 := by
      change visits.foldl _ st = _
      rw [hsplit, List.foldl_append, List.foldl_cons]
    have hE1 : st' = (i :: l2).foldl (bcStep m cfg samples) s1 := hE
    obtain ⟨o1, o2⟩ := bcFold_other m cfg samples l2 s2 i hi2
    rw [← hE] at o1 o2
    -- dual values
    have g1 := (bcFold_moves m outputs cfg hls samples l1 hl1 st).1
    have g2 := bcFold_moves m outputs cfg hls samples (i :: l2) hl2 s1
    have g3 := (bcFold_moves m outputs cfg hls samples l2 (fun j hj => hl2 j (List.mem_cons_of_mem _ hj)) s2).1
    simp only at g1 g2 g3
    rw [← hs1] at g1
    rw [← hE1] at g2
    rw [← hE] at g3
    obtain ⟨g2, g4⟩ := g2
    change 0 ≤ F s1 - F st at g1
    change 0 ≤ F st' - F s1 at g2
    change 0 ≤ F st' - F s2 at g3
    have hlen2 : ((i :: l2).length : ℚ) ≤ n := by
      rw [hn, ← hlen, hsplit]
      push_cast
      simp
    have g4 : ∑ k ∈ range m.dim, (st'.w k - s1.w k) ^ 2 ≤ n * (2 * Δ) := by
      refine g4.trans ?_
      change ((i :: l2).length : ℚ) * (2 * (F st' - F s1)) ≤ n * (2 * Δ)
      apply mul_le_mul hlen2 (by rw [hΔ]; linarith) (by linarith) hn0
    -- the step
    have hsy : samples[i].2 ∈ outputs samples[i].1 ∧ (problemOf m outputs).loss samples[i].2 samples[i].2 = 0 :=
      hl samples[i] (List.getElem_mem hi)
    obtain ⟨a1, c1, hm1, ha1, hb1⟩ := b1.block i hi
    obtain ⟨a2, c2, hm2, ha2, hb2⟩ := b2.block i hi
    obtain ⟨γ, γ0, γ1, hw, ⟨hd, hbest, -⟩, hwM, hlM⟩ := bcStep_line m outputs cfg hls samples s1 i hi
    rw [← hs2] at hd hw hwM hlM
    set N := blockGap m outputs cfg.C n samples[i] s1.w (s1.wMat i) (s1.lMat i) with hN
    have hN0 : 0 ≤ N := blockGap_nonneg m outputs hC hnpos.ne' hLA _ hsy _ _ _ hm1 ha1 hb1
    have hDle := block_dist m outputs cfg.C R hLA samples hR samples[i] (List.getElem_mem hi) hsy s1.w
      (s1.wMat i) hm1 ha1
    have hgain : F s2 - F s1 ≤ Δ := by rw [hΔ]; linarith
    have hF0 : 0 ≤ F s1 := by
      have : 0 ≤ F st := h0
      linarith
    have hH0 : 0 ≤ H := le_trans hF0 (hHF s1 hne b1)
    have hNsq : N ^ 2 ≤ 2 * (β + eps + H) * (F s2 - F s1) := by
      have hgainEq : F s2 - F s1 = γ * N - γ ^ 2 * (∑ k ∈ range m.dim,
          (s1.wMat i k - cfg.C * answerDelta m samples[i] s1.w k) ^ 2) / 2 := by
        change fwDual m.dim samples.length cfg.C s2.w s2.l - fwDual m.dim samples.length cfg.C s1.w s1.l = _
        rw [hd]; ring
      refine gap_sq_le_gain hN0 hDle hβ0 eps_pos hH0 ?_ ?_
      · have := hHF s2 hne b2
        linarith
      · intro γ' h1 h2
        rw [hgainEq]
        exact hbest γ' h1 h2
    have hNsq' : N ^ 2 ≤ 2 * (β + eps + H) * Δ :=
      hNsq.trans (mul_le_mul_of_nonneg_left hgain (by have := eps_pos; linarith))
    -- at the old weights the gap of the new block is not larger
    have hsame : blockGap m outputs cfg.C n samples[i] s1.w (s2.wMat i) (s2.lMat i) = (1 - γ) * N := by
      rw [hN, hwM, hlM, Function.update_self, Function.update_self]
      unfold blockGap
      rw [← dot_delta]
      have e1 : dot m.dim (fun k => (1 - γ) * s1.wMat i k + γ * (cfg.C * answerDelta m samples[i] s1.w k)) s1.w =
          (1 - γ) * dot m.dim (s1.wMat i) s1.w + γ * (cfg.C * dot m.dim s1.w (answerDelta m samples[i] s1.w)) := by
        rw [dot_add_left, dot_smul_left, dot_smul_left, dot_smul_left, dot_comm m.dim (answerDelta m samples[i] s1.w)]
      have e2 : dot m.dim s1.w (fun k => -m.feat samples[i].1 (m.lossAug samples[i].1 samples[i].2 s1.w true)
          samples[i].2 k + m.feat samples[i].1 samples[i].2 samples[i].2 k) =
          dot m.dim s1.w (answerDelta m samples[i] s1.w) := by
        unfold dot answerDelta
        exact sum_congr rfl fun k _ => by ring
      rw [e1, e2, ← hn]
      have hn' := hnpos.ne'
      field_simp
      ring
    have hlip := blockGap_lipschitz m outputs hC n hLA samples[i] hsy s1.w st'.w (s2.wMat i) (s2.lMat i)
    rw [hsame] at hlip
    set E := dot m.dim (fun k => s2.wMat i k - cfg.C * answerDelta m samples[i] st'.w k) (fun k => st'.w k - s1.w k)
      with hEd
    have hEsq : E ^ 2 ≤ β * (n * (2 * Δ)) := by
      refine (cauchy_dot _ _ _).trans ?_
      have hb := block_dist m outputs cfg.C R hLA samples hR samples[i] (List.getElem_mem hi) hsy st'.w
        (s2.wMat i) hm2 ha2
      exact mul_le_mul hb g4 (sum_nonneg fun k _ => sq_nonneg _) hβ0
    rw [o1, o2]
    set G := blockGap m outputs cfg.C n samples[i] st'.w (s2.wMat i) (s2.lMat i) with hG
    have hG0 : 0 ≤ G := blockGap_nonneg m outputs hC hnpos.ne' hLA _ hsy _ _ _ hm2 ha2 hb2
    have hGle : G ≤ N + E := by
      have : 0 ≤ γ * N := mul_nonneg γ0 hN0
      have e : (1 - γ) * N = N - γ * N := by ring
      linarith
    exact two_sq_bound hG0 hGle hNsq' hEsq
  -- all samples
  rw [gap_eq_sum m outputs cfg.C samples st'.w st'.l st'.wMat st'.lMat hend d g p hgap]
  have hcs := sq_sum_le_card_mul_sum_sq (s := range samples.length)
    (f := fun i => (samples[i]?.map fun s => blockGap m outputs cfg.C n s st'.w (st'.wMat i) (st'.lMat i)).getD 0)
  refine hcs.trans ?_
  rw [card_range]
  have hsum : ∑ i ∈ range samples.length,
      ((samples[i]?.map fun s => blockGap m outputs cfg.C n s st'.w (st'.wMat i) (st'.lMat i)).getD 0) ^ 2 ≤
      ∑ _i ∈ range samples.length, 4 * (β + eps + H + n * β) * Δ := by
    refine sum_le_sum fun i hi => ?_
    rw [List.getElem?_eq_getElem (mem_range.mp hi)]
    exact hone i (mem_range.mp hi)
  rw [sum_const, card_range, nsmul_eq_mul] at hsum
  have := mul_le_mul_of_nonneg_left hsum hn0
  refine this.trans (le_of_eq ?_)
  unfold passConst
  rw [hβ, ← hn]
  ring

/-- every pass visits every sample exactly once. -/
def VisitsAll (n : ℕ) (order : ℕ → List ℕ) : Prop := ∀ it, (order it).Perm (List.range n)

set_option maxHeartbeats 800000 in
theorem bcLoop_count (m : SModel X Y) (outputs : X → Set Y) (cfg : Config) (hls : cfg.lineSearch = true)
    (hav : cfg.averaging = false) (hC : 0 ≤ cfg.C) (htol : 0 ≤ cfg.tol) (hck : cfg.checkDualEvery ≠ 0)
    (order : ℕ → List ℕ) (samples : List (X × Y)) (hne : samples ≠ []) (ho : VisitsAll samples.length order)
    (hLA : (problemOf m outputs).ExactLossAug (fun x y w => m.lossAug x y w true))
    (hl : (problemOf m outputs).Labelled samples) (R : ℚ) (hR0 : 0 ≤ R)
    (hR : (problemOf m outputs).FeatureRange samples R) (w0 : W) (H : ℚ)
    (hH : (problemOf m outputs).IsObjective cfg.C samples w0 H) (n it : ℕ) (st : BC) (gap : Option ℚ) (c : Curves)
    (hst : BlockSums (problemOf m outputs) cfg.C samples st.w st.l st.wMat st.lMat)
    (h0 : 0 ≤ fwDual m.dim samples.length cfg.C st.w st.l)
    (hgap : ∀ g, gap = some g → cfg.tol ≤ g)
    (hit : it ≤ c.dual.length * cfg.checkDualEvery)
    (hmod : ∀ q, cfg.checkDualEvery ≠ 0 → c.dual.length * cfg.checkDualEvery = it + q → q < cfg.checkDualEvery)
    (hcnt : (c.dual.length : ℚ) * cfg.tol ^ 2 ≤ passConst cfg.C samples.length R H *
      fwDual m.dim samples.length cfg.C st.w st.l)
    (st' : BC) (c' : Curves) (h : bcLoop m cfg order samples n it st gap c = .ok (st', c')) :
    ((c'.dual.length : ℚ) - 1) * cfg.tol ^ 2 ≤ passConst cfg.C samples.length R H * H ∧
    ((it + n ≤ c'.dual.length * cfg.checkDualEvery ∧
        (c'.dual.length : ℚ) * cfg.tol ^ 2 ≤ passConst cfg.C samples.length R H * H) ∨
      ∃ p, (problemOf m outputs).IsObjective cfg.C samples st'.selfW p ∧
        ∀ v obj, (problemOf m outputs).IsObjective cfg.C samples v obj → p < obj + cfg.tol) := by
  have hadm := exact_admissible hLA
  have hHF : ∀ s : BC, BlockSums (problemOf m outputs) cfg.C samples s.w s.l s.wMat s.lMat →
      fwDual m.dim samples.length cfg.C s.w s.l ≤ H := by
    intro s hs
    have := weak_duality _ hC (blockSums_dualPoint hs hne) hH
    rw [← fwDual_eq] at this
    exact this
  have hK : 0 ≤ passConst cfg.C samples.length R H := by
    have hH0 : 0 ≤ H := h0.trans (hHF st hst)
    unfold passConst
    have := eps_pos
    have : (0 : ℚ) ≤ samples.length := Nat.cast_nonneg _
    positivity
  induction n generalizing it st gap c with
  | zero =>
    unfold bcLoop at h
    injection h with h
    simp only [Prod.mk.injEq] at h
    obtain ⟨rfl, rfl⟩ := h
    have h2 := hcnt.trans (mul_le_mul_of_nonneg_left (hHF st hst) hK)
    exact ⟨by nlinarith [sq_nonneg cfg.tol], Or.inl ⟨by omega, h2⟩⟩
  | succ n ih =>
    have hlt : ∀ i ∈ order it, i < samples.length := fun i hi => List.mem_range.mp ((ho it).mem_iff.mp hi)
    have hne' : order it ≠ [] := by
      intro h0
      have := (ho it).length_eq
      rw [h0, List.length_range] at this
      exact hne (List.length_eq_zero_iff.mp this.symm)
    have hpass := C86_pass m outputs cfg hls hC samples hLA hl R hR0 hR w0 H hH (order it) (ho it) st hst h0
    have hb := bcFold_blocks m outputs cfg samples hadm hl (order it) hlt st hst
    obtain ⟨hmono, hplain⟩ := bcFold_plain m cfg hls hav samples (order it) hlt st
    obtain ⟨hpw, hpl⟩ := hplain hne'
    unfold bcLoop at h
    simp only at h hpass
    set s1 := (order it).foldl (bcStep m cfg samples) st with hs1
    have hF := hHF s1 hb
    split at h
    · rename_i hchk
      cases hg : calcDualGap m cfg.C samples s1.selfW s1.selfL with
      | error err => rw [hg] at h; cases h
      | ok r =>
        obtain ⟨d, g, p⟩ := r
        rw [hg] at h
        simp only at h
        split at h
        · rename_i hltg
          injection h with h
          simp only [Prod.mk.injEq] at h
          obtain ⟨rfl, rfl⟩ := h
          refine ⟨?_, Or.inr ⟨p, ?_⟩⟩
          · simp only [List.length_append, List.length_singleton]
            push_cast
            have := hcnt.trans (mul_le_mul_of_nonneg_left (hHF st hst) hK)
            linarith
          · have hd := blockSums_dualPoint hb hne
            rw [← hpw, ← hpl] at hd
            obtain ⟨k1, k2, k3⟩ := C47_gap m outputs hLA samples hl cfg.C _ _ d g p hg
            obtain ⟨-, k4⟩ := k3 hC hd
            exact ⟨k1, fun v obj hv => by have := (k4 v obj hv).2; linarith⟩
        · rename_i hltg
          rw [hpw, hpl] at hg
          have hsq := hpass d g p hg
          have htg : cfg.tol ^ 2 ≤ g ^ 2 := by
            have := not_lt.mp hltg
            nlinarith
          have key := ih (it + 1) s1 (some g) ⟨c.dual ++ [d], c.primal ++ [p]⟩ hb (h0.trans hmono)
            (by intro g' hg'; injection hg' with hg'; rw [← hg']; exact not_lt.mp hltg)
            ?_ ?_ ?_ h
          · have e : it + 1 + n = it + (n + 1) := by omega
            rw [e] at key
            exact key
          · simp only [List.length_append, List.length_singleton]
            have := Nat.pos_of_ne_zero hchk.1
            rw [Nat.add_mul]
            omega
          · intro q hq0 hq
            simp only [List.length_append, List.length_singleton] at hq
            obtain ⟨r, hr⟩ := Nat.dvd_of_mod_eq_zero hchk.2
            -- the entries so far make up exactly the iterations so far
            have h1 : c.dual.length * cfg.checkDualEvery = it + (c.dual.length * cfg.checkDualEvery - it) := by omega
            have h2 := hmod _ hq0 h1
            rw [Nat.add_mul] at hq
            have h3 : c.dual.length * cfg.checkDualEvery = it := by
              rw [hr] at h1 h2 ⊢
              rw [mul_comm] at h1 h2 ⊢
              have h4 : cfg.checkDualEvery * (c.dual.length - r) < cfg.checkDualEvery * 1 := by
                rw [Nat.mul_sub]; omega
              have h5 := Nat.lt_of_mul_lt_mul_left h4
              have h6 : r ≤ c.dual.length := by
                have : cfg.checkDualEvery * r ≤ cfg.checkDualEvery * c.dual.length := by omega
                exact Nat.le_of_mul_le_mul_left this (Nat.pos_of_ne_zero hq0)
              have : c.dual.length = r := by omega
              rw [this]
            omega
          · simp only [List.length_append, List.length_singleton]
            push_cast
            linarith
    · rename_i hchk
      cases gap with
      | none => cases h
      | some g =>
        simp only at h
        split at h
        · rename_i hltg
          exact absurd hltg (not_lt.mpr (hgap g rfl))
        · have key := ih (it + 1) s1 (some g) c hb (h0.trans hmono) hgap ?_ ?_ ?_ h
          · have e : it + 1 + n = it + (n + 1) := by omega
            rw [e] at key
            exact key
          · have hm : it % cfg.checkDualEvery ≠ 0 := fun h => hchk ⟨hck, h⟩
            rcases Nat.lt_or_ge it (c.dual.length * cfg.checkDualEvery) with h1 | h1
            · exact h1
            · exfalso
              apply hm
              have : it = c.dual.length * cfg.checkDualEvery := le_antisymm hit h1
              rw [this]
              exact Nat.mul_mod_left _ _
          · intro q hq0 hq
            have := hmod (q + 1) hq0 (by omega)
            omega
          · exact hcnt.trans (mul_le_mul_of_nonneg_left hmono hK)

/-- **C86.** Block-coordinate Frank-Wolfe training of a fresh learner with line search, without averaging, where
every pass visits every sample once and loss-augmented inference is exact. Let `R` bound the squared distances
between the joint features of the outputs of a sample, `H` be the primal objective of any weights and
`K = 4 n² (C² R + 1e-15 + H + n C² R)`. Then the number `T` of checks of the duality gap satisfies
`(T - 1) tol² ≤ K H`, and if `max_iter tol² > check_dual_every K H` then training stops because the gap is below
`tol`: the primal objective of the learned weights is less than `tol` above that of any other weights. -/
theorem C86_fit (m : SModel X Y) (outputs : X → Set Y) (order : ℕ → List ℕ) (o o' : FrankWolfe.Obj)
    (samples : List (X × Y)) (hw : o.w = none) (hol : o.l = none) (hb : o.cfg.batchMode = false)
    (hls : o.cfg.lineSearch = true) (hav : o.cfg.averaging = false) (hC : 0 ≤ o.cfg.C) (htol : 0 ≤ o.cfg.tol)
    (ho : VisitsAll samples.length order)
    (hLA : (problemOf m outputs).ExactLossAug (fun x y w => m.lossAug x y w true))
    (hl : (problemOf m outputs).Labelled samples) (R : ℚ) (hR : (problemOf m outputs).FeatureRange samples R)
    (w0 : W) (H : ℚ) (hH : (problemOf m outputs).IsObjective o.cfg.C samples w0 H)
    (hfit : FrankWolfe.fit m order o samples = .ok o') :
    let n : ℚ := samples.length
    let K : ℚ := 4 * n ^ 2 * (o.cfg.C ^ 2 * R + 1 / 10 ^ 15 + H + n * o.cfg.C ^ 2 * R)
    ∃ T : ℕ, o'.curves.dual.length = T + 1 ∧ ((T : ℚ) - 1) * o.cfg.tol ^ 2 ≤ K * H ∧
      (o.cfg.checkDualEvery * (K * H) < o.cfg.maxIter * o.cfg.tol ^ 2 →
        ∃ w p, o'.w = some w ∧ (problemOf m outputs).IsObjective o.cfg.C samples w p ∧
          ∀ v obj, (problemOf m outputs).IsObjective o.cfg.C samples v obj → p < obj + o.cfg.tol) := by
  intro n K
  have hne : samples ≠ [] := by
    intro h0
    subst h0
    unfold FrankWolfe.fit at hfit
    simp only at hfit
    split at hfit
    · cases hfit
    · split at hfit
      · cases hfit
      · rename_i h
        unfold objectivePrimal at h
        simp at h
  have hR0 : 0 ≤ R := by
    obtain ⟨s, hs⟩ := List.exists_mem_of_ne_nil _ hne
    have := hR s hs s.2 (hl s hs).1 s.2 (hl s hs).1
    exact (sum_nonneg fun k _ => sq_nonneg _).trans this
  unfold FrankWolfe.fit at hfit
  rw [hw, hol] at hfit
  simp only [hb, Bool.false_eq_true, if_false] at hfit
  cases hloop : bcLoop m o.cfg order samples o.cfg.maxIter 0 (bcStart (fun _ => 0) 0) none ⟨[], []⟩ with
  | error e =>
    rw [hloop] at hfit
    cases hfit
  | ok r =>
    obtain ⟨st, c⟩ := r
    rw [hloop] at hfit
    simp only at hfit
    split at hfit
    · cases hfit
    · rename_i p hp
      split at hfit
      · cases hfit
      · rename_i d hlast
        injection hfit with hfit
        have hck : o.cfg.checkDualEvery ≠ 0 := by
          intro hz
          cases hmi : o.cfg.maxIter with
          | zero =>
            rw [hmi] at hloop
            unfold bcLoop at hloop
            injection hloop with hloop
            simp only [Prod.mk.injEq] at hloop
            rw [← hloop.2] at hlast
            simp at hlast
          | succ k =>
            rw [hmi] at hloop
            unfold bcLoop at hloop
            simp [hz] at hloop
        have hstart : fwDual m.dim samples.length o.cfg.C (bcStart (fun _ => 0) 0).w (bcStart (fun _ => 0) 0).l = 0 := by
          unfold fwDual bcStart
          simp
        obtain ⟨h1, h2⟩ := bcLoop_count m outputs o.cfg hls hav hC htol hck order samples hne ho hLA hl R hR0 hR w0 H
          hH o.cfg.maxIter 0 (bcStart (fun _ => 0) 0) none ⟨[], []⟩
          (bcStart_blocks m outputs o.cfg.C samples hl 0) hstart.ge (fun g hg => by cases hg) (by simp)
          (fun q hq hz => by simp at hz; omega) (by rw [hstart]; simp) st c hloop
        refine ⟨c.dual.length, by rw [← hfit]; simp, h1, fun hbig => ?_⟩
        rcases h2 with ⟨h3, h4⟩ | ⟨q, h5, h6⟩
        · exfalso
          rw [Nat.zero_add] at h3
          have h7 : (o.cfg.maxIter : ℚ) ≤ c.dual.length * o.cfg.checkDualEvery := by exact_mod_cast h3
          have h8 := mul_le_mul_of_nonneg_right h7 (sq_nonneg o.cfg.tol)
          have h9 := mul_le_mul_of_nonneg_left h4 (Nat.cast_nonneg (α := ℚ) o.cfg.checkDualEvery)
          have h10 : passConst o.cfg.C samples.length R H = K := rfl
          rw [h10] at h9
          nlinarith
        · exact ⟨st.selfW, q, by rw [← hfit], h5, h6⟩

/-- The hypotheses of C86 hold for a multi-class problem with three classes and two samples, with `R = 8`. -/
example : (problemOf (multiClassModel exampleClf) (classes 3)).ExactLossAug
      (fun x y w => (multiClassModel exampleClf).lossAug x y w true) ∧
    (problemOf (multiClassModel exampleClf) (classes 3)).Labelled exampleSamples ∧
    VisitsAll exampleSamples.length (fun _ => [1, 0]) ∧
    (FrankWolfe.fit (multiClassModel exampleClf) (fun _ => [1, 0]) (exampleFW 3 false true false)
      exampleSamples).toOption.isSome = true := by
  refine ⟨(multiClass_exact exampleClf rfl (fun _ _ => zero_le_one) true).1,
    multiClass_labelled exampleClf rfl _ (by decide), fun _ => ?_, by decide +kernel⟩
  change [1, 0].Perm (List.range 2)
  decide

end Verif.Props
