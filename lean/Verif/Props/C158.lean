import Verif.Props.C53

/-!
# C158: mistakes of the structured perceptron on data that need not be separable
-/

namespace Verif.Props

open Finset Verif.Spec Verif.Learner Verif.Perceptron

variable {X Y : Type}

/-- `ξ` bounds, sample by sample, by how much `u` misses the margin `γ`: the true output beats every
output that costs something by at least `γ - ξ s`. With `ξ = 0` this is `Separates`. -/
def MissesBy (P : Problem X Y) (u : ℕ → ℚ) (γ : ℚ) (ξ : X × Y → ℚ) (samples : List (X × Y)) : Prop :=
  ∀ s ∈ samples, 0 ≤ ξ s ∧ ∀ ŷ ∈ P.outputs s.1, P.loss s.2 ŷ ≠ 0 →
    γ - ξ s ≤ P.value u s.1 s.2 s.2 - P.value u s.1 s.2 ŷ

/-- Sum over the visits with a wrong prediction of the `p`-th power of the rate of the update. -/
def rateSum (lr : ℕ → ℚ) (p : ℕ) (vs : List Visit) : ℚ :=
  ((vs.filter fun v => v.loss ≠ 0).map fun v => lr v.epoch ^ p).sum

theorem rateSum_append (lr : ℕ → ℚ) (p : ℕ) (vs : List Visit) (v : Visit) :
    rateSum lr p (vs ++ [v]) = rateSum lr p vs + if v.loss ≠ 0 then lr v.epoch ^ p else 0 := by
  unfold rateSum
  rw [List.filter_append, List.map_append, List.sum_append]
  congr 1
  by_cases h : v.loss = 0 <;> simp [h]

theorem rateSum_one (lr : ℕ → ℚ) (p : ℕ) (h : ∀ t, lr t = 1) (vs : List Visit) :
    rateSum lr p vs = mistakes vs := by
  unfold rateSum mistakes
  simp only [h, one_pow, List.map_const', List.sum_replicate, nsmul_eq_mul, mul_one]

/-- the invariant: `D` is the margin missed so far. -/
structure RateInv (d : ℕ) (lr : ℕ → ℚ) (u : ℕ → ℚ) (γ R2 D N : ℚ) (st : St) : Prop where
  along : γ * rateSum lr 1 st.visits ≤ dot d u st.w + D
  norm : dot d st.w st.w ≤ N * R2 * rateSum lr 2 st.visits

/-- one update, seen through the two products that matter. -/
theorem update_products (m : SModel X Y) (outputs : X → Set Y) (u : ℕ → ℚ) (γ R2 lr : ℚ)
    (ξ : X × Y → ℚ) (samples : List (X × Y)) (hlr : 0 ≤ lr)
    (hmiss : MissesBy (perceptronProblem m outputs) u γ ξ samples)
    (hrad : Radius (perceptronProblem m outputs) R2 samples)
    (s : X × Y) (hs : s ∈ samples) (w0 : W)
    (hinf : (perceptronProblem m outputs).ExactInference m.inference)
    (hlab : s.2 ∈ outputs s.1) (hl : m.loss s.2 (m.inference s.1 w0) ≠ 0) :
    let δ : W := fun k => m.jointFeature s.1 s.2 k - m.jointFeature s.1 (m.inference s.1 w0) k
    lr * (γ - ξ s) ≤ lr * dot m.dim u δ ∧ dot m.dim w0 δ ≤ 0 ∧ dot m.dim δ δ ≤ R2 := by
  intro δ
  obtain ⟨hmem, hmax⟩ := hinf s.1 s.2 w0 hlab
  have e1 : dot m.dim u δ = (perceptronProblem m outputs).value u s.1 s.2 s.2 -
      (perceptronProblem m outputs).value u s.1 s.2 (m.inference s.1 w0) := by
    show dot m.dim u (fun k => _ - _) = _
    rw [dot_sub_right]; rfl
  have e2 : dot m.dim w0 δ = (perceptronProblem m outputs).value w0 s.1 s.2 s.2 -
      (perceptronProblem m outputs).value w0 s.1 s.2 (m.inference s.1 w0) := by
    show dot m.dim w0 (fun k => _ - _) = _
    rw [dot_sub_right]; rfl
  refine ⟨?_, ?_, ?_⟩
  · rw [e1]; exact mul_le_mul_of_nonneg_left ((hmiss s hs).2 _ hmem hl) hlr
  · rw [e2]; exact sub_nonpos.mpr (hmax s.2 hlab)
  · refine le_trans (le_of_eq ?_) (hrad s hs _ hmem hl)
    unfold dot
    apply sum_congr rfl; intro k _
    rw [pow_two]; rfl

theorem dot_smul_right_mul (d : ℕ) (c : ℚ) (a b : ℕ → ℚ) : dot d a (fun k => c * b k) = c * dot d a b := by
  unfold dot
  rw [mul_sum]
  exact sum_congr rfl fun k _ => by ring

theorem dot_moved (d : ℕ) (c : ℚ) (a b : ℕ → ℚ) :
    dot d (fun k => a k + c * b k) (fun k => a k + c * b k) =
      dot d a a + 2 * (c * dot d a b) + c ^ 2 * dot d b b := by
  unfold dot
  rw [mul_sum, mul_sum, mul_sum, ← sum_add_distrib, ← sum_add_distrib]
  exact sum_congr rfl fun j _ => by ring

theorem onlineStep_rate (m : SModel X Y) (outputs : X → Set Y) (cfg : Config) (avg : Option ℤ) (it : ℕ)
    (u : ℕ → ℚ) (γ R2 D : ℚ) (ξ : X × Y → ℚ) (samples : List (X × Y)) 
    (hlr : 0 ≤ cfg.lr it)
    (hinf : (perceptronProblem m outputs).ExactInference m.inference)
    (hlab : ∀ s ∈ samples, s.2 ∈ outputs s.1)
    (hmiss : MissesBy (perceptronProblem m outputs) u γ ξ samples)
    (hrad : Radius (perceptronProblem m outputs) R2 samples)
    (st : St × ℚ) (s : X × Y) (hs : s ∈ samples) (h : RateInv m.dim cfg.lr u γ R2 D 1 st.1) :
    RateInv m.dim cfg.lr u γ R2 (D + cfg.lr it * ξ s) 1 (onlineStep m avg (cfg.lr it) it st s).1 := by
  obtain ⟨h1, h2⟩ := h
  have key : ∀ st' : St, st'.w = update m (cfg.lr it) st.1.w s.1 s.2 (m.inference s.1 st.1.w) →
      st'.visits = st.1.visits ++ [⟨it, st.1.w, m.loss s.2 (m.inference s.1 st.1.w), st'.w⟩] →
      RateInv m.dim cfg.lr u γ R2 (D + cfg.lr it * ξ s) 1 st' := by
    intro st' hw hv
    have hξ := mul_nonneg hlr (hmiss s hs).1
    by_cases hl : m.loss s.2 (m.inference s.1 st.1.w) = 0
    · unfold update at hw
      rw [if_neg (not_not.mpr hl)] at hw
      constructor
      · rw [hv, rateSum_append, if_neg (not_not.mpr hl), hw]; linarith
      · rw [hv, rateSum_append, if_neg (not_not.mpr hl), hw]; linarith
    · unfold update at hw
      rw [if_pos hl] at hw
      obtain ⟨p1, p2, p3⟩ := update_products m outputs u γ R2 (cfg.lr it) ξ samples hlr hmiss hrad s hs
        st.1.w hinf (hlab s hs) hl
      set δ : W := fun k => m.jointFeature s.1 s.2 k - m.jointFeature s.1 (m.inference s.1 st.1.w) k with hδ
      have hw' : st'.w = fun k => st.1.w k + (fun k => cfg.lr it * δ k) k := hw
      constructor
      · rw [hv, rateSum_append, if_pos hl, hw', dot_add_right, dot_smul_right_mul]
        simp only [pow_one]
        nlinarith
      · rw [hv, rateSum_append, if_pos hl, hw, dot_moved]
        have q1 := mul_nonneg hlr (neg_nonneg.mpr p2)
        have q2 := mul_le_mul_of_nonneg_left p3 (sq_nonneg (cfg.lr it))
        simp only
        nlinarith
  apply key
  · unfold onlineStep; simp only [observe_w]
  · unfold onlineStep; simp only [observe_visits, observe_w]

/-- inside a batch pass: `Δ` is what has been added so far, from `k` wrong predictions. -/
structure MarginBatchInv (d : ℕ) (lr : ℕ → ℚ) (it : ℕ) (u : ℕ → ℚ) (γ R2 D : ℚ) (st0 st : St) (Δ : W) (k : ℕ) :
    Prop where
  moved : st.w = fun j => st0.w j + lr it * Δ j
  first : rateSum lr 1 st.visits = rateSum lr 1 st0.visits + k * lr it
  second : rateSum lr 2 st.visits = rateSum lr 2 st0.visits + k * lr it ^ 2
  along : γ * (k * lr it) ≤ lr it * dot d u Δ + D
  down : dot d st0.w Δ ≤ 0
  norm : dot d Δ Δ ≤ k ^ 2 * R2

theorem batchFold_rate (m : SModel X Y) (outputs : X → Set Y) (cfg : Config) (it : ℕ)
    (u : ℕ → ℚ) (γ R2 : ℚ) (ξ : X × Y → ℚ) (samples : List (X × Y)) (hR2 : 0 ≤ R2)
    (hlr : 0 ≤ cfg.lr it)
    (hinf : (perceptronProblem m outputs).ExactInference m.inference)
    (hlab : ∀ s ∈ samples, s.2 ∈ outputs s.1)
    (hmiss : MissesBy (perceptronProblem m outputs) u γ ξ samples)
    (hrad : Radius (perceptronProblem m outputs) R2 samples) (st0 : St) (l : List (X × Y))
    (hl : ∀ s ∈ l, s ∈ samples) (p : St × ℚ) (D : ℚ) (Δ : W) (k : ℕ)
    (h : MarginBatchInv m.dim cfg.lr it u γ R2 D st0 p.1 Δ k) :
    ∃ Δ' k', k' ≤ k + l.length ∧
      MarginBatchInv m.dim cfg.lr it u γ R2 (D + cfg.lr it * (l.map ξ).sum) st0
        (l.foldl (batchStep m (cfg.lr it) it st0.w) p).1 Δ' k' := by
  induction l generalizing p D Δ k with
  | nil => exact ⟨Δ, k, by simp, by simpa using h⟩
  | cons s l ih =>
    have hs := hl s List.mem_cons_self
    have hξ := mul_nonneg hlr (hmiss s hs).1
    have step : ∃ Δ' k', k' ≤ k + 1 ∧ MarginBatchInv m.dim cfg.lr it u γ R2 (D + cfg.lr it * ξ s) st0
        (batchStep m (cfg.lr it) it st0.w p s).1 Δ' k' := by
      by_cases hz : m.loss s.2 (m.inference s.1 st0.w) = 0
      · refine ⟨Δ, k, by omega, ?_⟩
        have hw : (batchStep m (cfg.lr it) it st0.w p s).1.w = p.1.w := by
          show update _ _ _ _ _ _ = _
          unfold update; rw [if_neg (not_not.mpr hz)]
        have hv : ∀ q, rateSum cfg.lr q (batchStep m (cfg.lr it) it st0.w p s).1.visits =
            rateSum cfg.lr q p.1.visits := by
          intro q
          show rateSum cfg.lr q (p.1.visits ++ [_]) = _
          rw [rateSum_append, if_neg (not_not.mpr hz), add_zero]
        exact ⟨by rw [hw]; exact h.moved, by rw [hv]; exact h.first, by rw [hv]; exact h.second,
          by linarith [h.along], h.down, h.norm⟩
      · obtain ⟨p1, p2, p3⟩ := update_products m outputs u γ R2 (cfg.lr it) ξ samples hlr hmiss hrad s hs
          st0.w hinf (hlab s hs) hz
        set δ : W := fun k => m.jointFeature s.1 s.2 k - m.jointFeature s.1 (m.inference s.1 st0.w) k
          with hδ
        refine ⟨fun j => Δ j + δ j, k + 1, by omega, ?_⟩
        have hw : (batchStep m (cfg.lr it) it st0.w p s).1.w = fun j => p.1.w j + cfg.lr it * δ j := by
          show update _ _ _ _ _ _ = _
          unfold update; rw [if_pos hz]
        have hv : ∀ q, rateSum cfg.lr q (batchStep m (cfg.lr it) it st0.w p s).1.visits =
            rateSum cfg.lr q p.1.visits + cfg.lr it ^ q := by
          intro q
          show rateSum cfg.lr q (p.1.visits ++ [_]) = _
          rw [rateSum_append, if_pos hz]
        have hcs : dot m.dim Δ δ ≤ k * R2 := by
          have c1 : dot m.dim Δ δ ^ 2 ≤ dot m.dim Δ Δ * dot m.dim δ δ := by
            have := sum_mul_sq_le_sq_mul_sq (range m.dim) Δ δ
            unfold dot
            simpa only [pow_two] using this
          have c0 : 0 ≤ dot m.dim δ δ := sum_nonneg fun j _ => mul_self_nonneg _
          have c2 : dot m.dim Δ δ ^ 2 ≤ (k * R2) ^ 2 := by
            calc _ ≤ dot m.dim Δ Δ * dot m.dim δ δ := c1
              _ ≤ ((k : ℚ) ^ 2 * R2) * R2 :=
                  mul_le_mul h.norm p3 c0 (by positivity)
              _ = _ := by ring
          exact (abs_le_of_sq_le_sq' c2 (by positivity)).2
        refine ⟨?_, ?_, ?_, ?_, ?_, ?_⟩
        · rw [hw, h.moved]; funext j; ring
        · rw [hv, h.first]; push_cast; ring
        · rw [hv, h.second]; push_cast; ring
        · rw [dot_add_right]; push_cast
          have := h.along
          nlinarith
        · rw [dot_add_right]; linarith [h.down]
        · rw [dot_add_left, dot_add_right, dot_add_right, dot_comm _ δ Δ]
          push_cast
          have := h.norm
          nlinarith
    obtain ⟨Δ1, k1, hk1, h1⟩ := step
    obtain ⟨Δ2, k2, hk2, h2⟩ := ih (fun s' hs' => hl s' (List.mem_cons_of_mem _ hs'))
      (batchStep m (cfg.lr it) it st0.w p s) _ Δ1 k1 h1
    refine ⟨Δ2, k2, by rw [List.length_cons]; omega, ?_⟩
    rw [List.foldl_cons, List.map_cons, List.sum_cons]
    have e : D + cfg.lr it * (ξ s + (l.map ξ).sum) = D + cfg.lr it * ξ s + cfg.lr it * (l.map ξ).sum := by
      ring
    rw [e]; exact h2

theorem pass_rate (m : SModel X Y) (outputs : X → Set Y) (cfg : Config) (avg : Option ℤ)
    (it : ℕ) (u : ℕ → ℚ) (γ R2 D : ℚ) (ξ : X × Y → ℚ) (samples : List (X × Y)) (hR2 : 0 ≤ R2)
    (hlr : 0 ≤ cfg.lr it)
    (hinf : (perceptronProblem m outputs).ExactInference m.inference)
    (hlab : ∀ s ∈ samples, s.2 ∈ outputs s.1)
    (hmiss : MissesBy (perceptronProblem m outputs) u γ ξ samples)
    (hrad : Radius (perceptronProblem m outputs) R2 samples)
    (st : St) (h : RateInv m.dim cfg.lr u γ R2 D (if cfg.batch then samples.length else 1) st) :
    RateInv m.dim cfg.lr u γ R2 (D + cfg.lr it * (samples.map ξ).sum)
      (if cfg.batch then samples.length else 1) (pass m cfg avg samples it st).1 := by
  unfold pass
  simp only
  have h0 : RateInv m.dim cfg.lr u γ R2 D (if cfg.batch then samples.length else 1)
      (if avg = some (-1) then { st with nObs := 0, wbar := fun _ => 0 } else st) := by
    by_cases ha : avg = some (-1)
    · rw [if_pos ha]; exact ⟨h.1, h.2⟩
    · rw [if_neg ha]; exact h
  generalize (if avg = some (-1) then { st with nObs := 0, wbar := fun _ => 0 } else st) = st0 at h0
  cases hb : cfg.batch with
  | true =>
    rw [hb] at h0
    simp only [if_true] at h0 ⊢
    obtain ⟨Δ, k, hk, hB⟩ := batchFold_rate m outputs cfg it u γ R2 ξ samples hR2 hlr hinf hlab hmiss hrad
      st0 samples (fun s hs => hs) (st0, 0) 0 (fun _ => 0) 0
      ⟨by funext j; simp, by simp, by simp, by simp [dot], by simp [dot], by simp [dot]⟩
    have hk' : (k : ℚ) ≤ samples.length := by
      have : k ≤ samples.length := by omega
      exact_mod_cast this
    have hk0 : (0 : ℚ) ≤ k := Nat.cast_nonneg k
    constructor
    · rw [observe_visits, observe_w, hB.first, hB.moved]
      have e : dot m.dim u (fun j => st0.w j + cfg.lr it * Δ j) =
          dot m.dim u st0.w + cfg.lr it * dot m.dim u Δ := by
        rw [← dot_smul_right_mul, ← dot_add_right]
      rw [e]
      have := hB.along
      have := h0.along
      nlinarith
    · rw [observe_visits, observe_w, hB.second, hB.moved]
      rw [dot_moved]
      have a1 := mul_nonneg hlr (neg_nonneg.mpr hB.down)
      have a2 := mul_le_mul_of_nonneg_left hB.norm (sq_nonneg (cfg.lr it))
      have a3 : cfg.lr it ^ 2 * ((k : ℚ) ^ 2 * R2) ≤ (samples.length : ℚ) * R2 * (k * cfg.lr it ^ 2) := by
        have : 0 ≤ cfg.lr it ^ 2 * R2 * k := by positivity
        nlinarith
      have := h0.norm
      nlinarith
  | false =>
    rw [hb] at h0
    simp only [Bool.false_eq_true, if_false] at h0 ⊢
    have : ∀ l : List (X × Y), (∀ s ∈ l, s ∈ samples) → ∀ (p : St × ℚ) (D : ℚ),
        RateInv m.dim cfg.lr u γ R2 D 1 p.1 →
        RateInv m.dim cfg.lr u γ R2 (D + cfg.lr it * (l.map ξ).sum) 1
          (l.foldl (onlineStep m avg (cfg.lr it) it) p).1 := by
      intro l
      induction l with
      | nil => intro _ p D hp; simpa using hp
      | cons s l ih =>
        intro hl p D hp
        rw [List.foldl_cons, List.map_cons, List.sum_cons]
        have := ih (fun s' hs' => hl s' (List.mem_cons_of_mem _ hs')) _ _
          (onlineStep_rate m outputs cfg avg it u γ R2 D ξ samples hlr hinf hlab hmiss hrad p s
            (hl s List.mem_cons_self) hp)
        have e : D + cfg.lr it * (ξ s + (l.map ξ).sum) =
          D + cfg.lr it * ξ s + cfg.lr it * (l.map ξ).sum := by ring
        rw [e]; exact this
    exact this samples (fun s hs => hs) _ _ h0

theorem pass_curve_same (m : SModel X Y) (cfg : Config) (avg : Option ℤ) (samples : List (X × Y)) (it : ℕ)
    (st : St) : (pass m cfg avg samples it st).1.curve = st.curve := by
  unfold pass
  simp only
  have h0 : (if avg = some (-1) then { st with nObs := 0, wbar := fun _ => 0 } else st).curve = st.curve := by
    split <;> rfl
  generalize (if avg = some (-1) then { st with nObs := 0, wbar := fun _ => 0 } else st) = st0 at h0
  split
  · rw [observe_curve]
    have : ∀ (l : List (X × Y)) (p : St × ℚ), (l.foldl (batchStep m (cfg.lr it) it st0.w) p).1.curve =
        p.1.curve := by
      intro l
      induction l with
      | nil => intro p; rfl
      | cons s l ih => intro p; rw [List.foldl_cons, ih]; rfl
    rw [this]; exact h0
  · have : ∀ (l : List (X × Y)) (p : St × ℚ), (l.foldl (onlineStep m avg (cfg.lr it) it) p).1.curve =
        p.1.curve := by
      intro l
      induction l with
      | nil => intro p; rfl
      | cons s l ih => intro p; rw [List.foldl_cons, ih]; unfold onlineStep; simp only [observe_curve]
    rw [this]; exact h0

theorem loop_rate (m : SModel X Y) (outputs : X → Set Y) (cfg : Config) (avg : Option ℤ)
    (u : ℕ → ℚ) (γ R2 : ℚ) (ξ : X × Y → ℚ) (samples : List (X × Y)) (hR2 : 0 ≤ R2)
    (hlr : ∀ t, 0 ≤ cfg.lr t)
    (hinf : (perceptronProblem m outputs).ExactInference m.inference)
    (hlab : ∀ s ∈ samples, s.2 ∈ outputs s.1)
    (hmiss : MissesBy (perceptronProblem m outputs) u γ ξ samples)
    (hrad : Radius (perceptronProblem m outputs) R2 samples) (ml : ℚ)
    (n it : ℕ) (st : St) (hit : st.curve.length = it)
    (h : RateInv m.dim cfg.lr u γ R2 ((samples.map ξ).sum * ∑ t ∈ range it, cfg.lr t)
      (if cfg.batch then samples.length else 1) st) :
    RateInv m.dim cfg.lr u γ R2
      ((samples.map ξ).sum * ∑ t ∈ range (loop m cfg avg samples ml n it st).curve.length, cfg.lr t)
      (if cfg.batch then samples.length else 1) (loop m cfg avg samples ml n it st) := by
  induction n generalizing it st with
  | zero => unfold loop; rw [hit]; exact h
  | succ n ih =>
    have hp := pass_rate m outputs cfg avg it u γ R2 _ ξ samples hR2 (hlr it) hinf hlab hmiss hrad st h
    have e : (samples.map ξ).sum * ∑ t ∈ range it, cfg.lr t + cfg.lr it * (samples.map ξ).sum =
        (samples.map ξ).sum * ∑ t ∈ range (it + 1), cfg.lr t := by
      rw [sum_range_succ]; ring
    rw [e] at hp
    have hc : ((pass m cfg avg samples it st).1.curve ++
        [curveEntry (pass m cfg avg samples it st).2 ml]).length = it + 1 := by
      rw [List.length_append, pass_curve_same, hit]; rfl
    unfold loop
    simp only
    split
    · rw [hc]; exact ⟨hp.1, hp.2⟩
    · exact ih _ _ hc ⟨hp.1, hp.2⟩

/-- **C158 (any data, any rates).** Online or batch training with exact inference and nonnegative rates,
for *every* weight vector `u` and margin `γ`: let `ξ` say by how much `u` misses the margin on each sample,
and let `T` be the sum of the rates of the epochs that were run. Then
`γ · (sum of the rates of the updates) ≤ T · Σ ξ + ‖u‖ · √(R2 · N · sum of their squares)`, where `N` is 1
online and the number of samples in batch mode (stated without the root). -/
theorem C158_rates (m : SModel X Y) (outputs : X → Set Y) (cfg : Config) (avg : Option ℤ)
    (samples : List (X × Y)) (u : ℕ → ℚ) (γ R2 : ℚ) (ξ : X × Y → ℚ) (hR2 : 0 ≤ R2)
    (hlr : ∀ t, 0 ≤ cfg.lr t)
    (hinf : (perceptronProblem m outputs).ExactInference m.inference)
    (hlab : ∀ s ∈ samples, s.2 ∈ outputs s.1)
    (hmiss : MissesBy (perceptronProblem m outputs) u γ ξ samples)
    (hrad : Radius (perceptronProblem m outputs) R2 samples) :
    let st := train m cfg avg samples
    let missed := (samples.map ξ).sum * ∑ t ∈ range st.curve.length, cfg.lr t
    missed ≤ γ * rateSum cfg.lr 1 st.visits →
    (γ * rateSum cfg.lr 1 st.visits - missed) ^ 2 ≤
      (∑ k ∈ range m.dim, u k ^ 2) *
        ((if cfg.batch then (samples.length : ℚ) else 1) * R2 * rateSum cfg.lr 2 st.visits) := by
  intro st missed hle
  have hinv := loop_rate m outputs cfg avg u γ R2 ξ samples hR2 hlr hinf hlab hmiss hrad
    (samples.map fun s => m.maxLoss s.2).sum cfg.maxIter 0 start rfl
    ⟨by show γ * 0 ≤ dot m.dim u (fun _ => 0) + _; rw [dot_zero_right]; simp,
      by show dot m.dim (fun _ => 0) (fun _ => 0) ≤ _ * _ * (0 : ℚ); rw [dot_zero_right]; simp⟩
  obtain ⟨h1, h2⟩ := hinv
  change γ * rateSum cfg.lr 1 st.visits ≤ dot m.dim u st.w + missed at h1
  change dot m.dim st.w st.w ≤ _ * R2 * rateSum cfg.lr 2 st.visits at h2
  have hcs : dot m.dim u st.w ^ 2 ≤ (∑ k ∈ range m.dim, u k ^ 2) * dot m.dim st.w st.w := by
    have := sum_mul_sq_le_sq_mul_sq (range m.dim) u st.w
    unfold dot
    simpa only [pow_two] using this
  have hu : 0 ≤ ∑ k ∈ range m.dim, u k ^ 2 := sum_nonneg fun k _ => sq_nonneg _
  calc (γ * rateSum cfg.lr 1 st.visits - missed) ^ 2 ≤ dot m.dim u st.w ^ 2 :=
        pow_le_pow_left₀ (by linarith) (by linarith) 2
    _ ≤ _ := hcs
    _ ≤ _ := mul_le_mul_of_nonneg_left h2 hu

/-- **C158 (mistakes on any data).** Without decay: `γ² · mistakes ≤ 2 γ · epochs · Σ ξ + N · R2 · ‖u‖²`,
for every `u`, `γ > 0`, whether or not the samples can be separated. -/
theorem C158_mistakes (m : SModel X Y) (outputs : X → Set Y) (cfg : Config) (avg : Option ℤ)
    (samples : List (X × Y)) (u : ℕ → ℚ) (γ R2 : ℚ) (ξ : X × Y → ℚ) (hγ : 0 < γ) (hR2 : 0 ≤ R2)
    (hlr : ∀ t, cfg.lr t = 1)
    (hinf : (perceptronProblem m outputs).ExactInference m.inference)
    (hlab : ∀ s ∈ samples, s.2 ∈ outputs s.1)
    (hmiss : MissesBy (perceptronProblem m outputs) u γ ξ samples)
    (hrad : Radius (perceptronProblem m outputs) R2 samples) :
    let st := train m cfg avg samples
    γ ^ 2 * mistakes st.visits ≤ 2 * γ * (st.curve.length * (samples.map ξ).sum) +
      (if cfg.batch then (samples.length : ℚ) else 1) * R2 * ∑ k ∈ range m.dim, u k ^ 2 := by
  intro st
  have h := C158_rates m outputs cfg avg samples u γ R2 ξ hR2 (fun t => by rw [hlr t]; norm_num) hinf hlab
    hmiss hrad
  simp only [rateSum_one cfg.lr _ hlr, hlr, sum_const, card_range, nsmul_eq_mul, mul_one] at h
  change _ ≤ γ * (mistakes st.visits : ℚ) → _ at h
  have hΞ : 0 ≤ (samples.map ξ).sum := by
    apply List.sum_nonneg
    intro q hq
    obtain ⟨s, hs, rfl⟩ := List.mem_map.mp hq
    exact (hmiss s hs).1
  have hu : 0 ≤ ∑ k ∈ range m.dim, u k ^ 2 := sum_nonneg fun k _ => sq_nonneg _
  have hN : (0 : ℚ) ≤ if cfg.batch then (samples.length : ℚ) else 1 := by split <;> positivity
  change (samples.map ξ).sum * (st.curve.length : ℚ) ≤ _ → (γ * (mistakes st.visits : ℚ) - (samples.map ξ).sum * (st.curve.length : ℚ)) ^ 2 ≤ _ * (_ * R2 * (mistakes st.visits : ℚ)) at h
  generalize (if cfg.batch then (samples.length : ℚ) else 1) = N at *
  generalize (∑ k ∈ range m.dim, u k ^ 2) = U at *
  have hK0 : (0 : ℚ) ≤ mistakes st.visits := Nat.cast_nonneg _
  have hE : (0 : ℚ) ≤ st.curve.length := Nat.cast_nonneg _
  generalize (mistakes st.visits : ℚ) = K at *
  generalize (st.curve.length : ℚ) = E at *
  generalize (samples.map ξ).sum = S at *
  have hNU : 0 ≤ N * R2 * U := by positivity
  have hES : 0 ≤ E * S := by positivity
  by_cases hc : S * E ≤ γ * K
  · have h' := h hc
    rcases hK0.eq_or_lt with h0 | h0
    · rw [← h0]; have := mul_nonneg hγ.le hES; nlinarith
    · refine le_of_mul_le_mul_left ?_ h0
      have := sq_nonneg (S * E)
      nlinarith
  · have := mul_le_mul_of_nonneg_left (not_le.mp hc).le hγ.le
    have := mul_nonneg hγ.le hES
    nlinarith

/-! ### in terms of what `fit` leaves behind -/

theorem onlineFold_losses (m : SModel X Y) (avg : Option ℤ) (lr : ℚ) (it : ℕ) (L : ℚ) (l : List (X × Y))
    (hL : ∀ s ∈ l, ∀ w, m.loss s.2 (m.inference s.1 w) ≤ L) (p : St × ℚ) :
    (l.foldl (onlineStep m avg lr it) p).2 - p.2 ≤
      L * mistakes (l.foldl (onlineStep m avg lr it) p).1.visits - L * mistakes p.1.visits := by
  induction l generalizing p with
  | nil => simp
  | cons s l ih =>
    rw [List.foldl_cons]
    have h := ih (fun s' hs' => hL s' (List.mem_cons_of_mem _ hs')) (onlineStep m avg lr it p s)
    have h1 : (onlineStep m avg lr it p s).2 = p.2 + m.loss s.2 (m.inference s.1 p.1.w) := rfl
    have h2 : mistakes (onlineStep m avg lr it p s).1.visits = mistakes p.1.visits +
        if m.loss s.2 (m.inference s.1 p.1.w) ≠ 0 then 1 else 0 := by
      unfold onlineStep; simp only [observe_visits]; rw [mistakes_append]
    rw [h1, h2] at h
    have h3 := hL s List.mem_cons_self p.1.w
    by_cases hz : m.loss s.2 (m.inference s.1 p.1.w) = 0
    · rw [if_neg (not_not.mpr hz), hz] at h; push_cast at h; linarith
    · rw [if_pos hz] at h; push_cast at h; linarith

theorem batchFold_losses (m : SModel X Y) (lr : ℚ) (it : ℕ) (w0 : W) (L : ℚ) (l : List (X × Y))
    (hL : ∀ s ∈ l, ∀ w, m.loss s.2 (m.inference s.1 w) ≤ L) (p : St × ℚ) :
    (l.foldl (batchStep m lr it w0) p).2 - p.2 ≤
      L * mistakes (l.foldl (batchStep m lr it w0) p).1.visits - L * mistakes p.1.visits := by
  induction l generalizing p with
  | nil => simp
  | cons s l ih =>
    rw [List.foldl_cons]
    have h := ih (fun s' hs' => hL s' (List.mem_cons_of_mem _ hs')) (batchStep m lr it w0 p s)
    have h1 : (batchStep m lr it w0 p s).2 = p.2 + m.loss s.2 (m.inference s.1 w0) := rfl
    have h2 : mistakes (batchStep m lr it w0 p s).1.visits = mistakes p.1.visits +
        if m.loss s.2 (m.inference s.1 w0) ≠ 0 then 1 else 0 := by
      unfold batchStep; simp only; rw [mistakes_append]
    rw [h1, h2] at h
    have h3 := hL s List.mem_cons_self w0
    by_cases hz : m.loss s.2 (m.inference s.1 w0) = 0
    · rw [if_neg (not_not.mpr hz), hz] at h; push_cast at h; linarith
    · rw [if_pos hz] at h; push_cast at h; linarith

theorem pass_losses (m : SModel X Y) (cfg : Config) (avg : Option ℤ) (samples : List (X × Y)) (it : ℕ) (L : ℚ)
    (hL : ∀ s ∈ samples, ∀ w, m.loss s.2 (m.inference s.1 w) ≤ L) (st : St) :
    (pass m cfg avg samples it st).2 ≤
      L * mistakes (pass m cfg avg samples it st).1.visits - L * mistakes st.visits := by
  unfold pass
  simp only
  have h0 : (if avg = some (-1) then { st with nObs := 0, wbar := fun _ => 0 } else st).visits = st.visits := by
    split <;> rfl
  generalize (if avg = some (-1) then { st with nObs := 0, wbar := fun _ => 0 } else st) = st0 at h0
  rw [← h0]
  split
  · have := batchFold_losses m (cfg.lr it) it st0.w L samples hL (st0, 0)
    simp only [observe_visits]
    linarith
  · have := onlineFold_losses m avg (cfg.lr it) it L samples hL (st0, 0)
    linarith

/-- the recorded losses add up to at most `L` per mistake. -/
theorem loop_curve_mistakes (m : SModel X Y) (cfg : Config) (avg : Option ℤ) (samples : List (X × Y)) (L ml : ℚ)
    (hml : 0 < ml) (hL : ∀ s ∈ samples, ∀ w, m.loss s.2 (m.inference s.1 w) ≤ L) (n it : ℕ) (st : St)
    (h : ml * (st.curve.map fun c => c.getD 0).sum ≤ L * mistakes st.visits) :
    ml * ((loop m cfg avg samples ml n it st).curve.map fun c => c.getD 0).sum ≤
      L * mistakes (loop m cfg avg samples ml n it st).visits := by
  induction n generalizing it st with
  | zero => exact h
  | succ n ih =>
    have hp := pass_losses m cfg avg samples it L hL st
    have hc : ml * (((pass m cfg avg samples it st).1.curve ++
        [curveEntry (pass m cfg avg samples it st).2 ml]).map fun c => c.getD 0).sum ≤
        L * mistakes (pass m cfg avg samples it st).1.visits := by
      rw [List.map_append, List.sum_append, pass_curve_same]
      unfold curveEntry
      rw [if_neg hml.ne']
      simp only [List.map_cons, List.map_nil, List.sum_cons, List.sum_nil, Option.getD_some, add_zero]
      rw [mul_add, mul_div_cancel₀ _ hml.ne']
      linarith
    unfold loop
    simp only
    split
    · exact hc
    · exact ih _ _ hc

/-- `fit` leaves the loss curve of the run behind. -/
theorem fit_curve (m : SModel X Y) (o o' : Obj) (samples : List (X × Y))
    (hfit : Perceptron.fit m o samples = .ok o') :
    ∃ avg, o'.lossCurve = (train m o.cfg avg samples).curve := by
  unfold Perceptron.fit at hfit
  cases hna : normAverage o.average with
  | error err => rw [hna] at hfit; cases hfit
  | ok avg =>
    rw [hna] at hfit
    simp only at hfit
    injection hfit with hfit
    subst hfit
    exact ⟨avg, rfl⟩

/-- **C158 (loss curve).** After `fit` without decay, with or without averaging, online or batch, the sum of
`loss_curve_` is bounded for every `u`: if no prediction costs more than `L`, then
`γ² · max_losses · Σ loss_curve_ ≤ L · (2 γ · len(loss_curve_) · Σ ξ + N · R2 · ‖u‖²)`. -/
theorem C158_loss_curve (m : SModel X Y) (outputs : X → Set Y) (o o' : Obj)
    (samples : List (X × Y)) (u : ℕ → ℚ) (γ R2 L : ℚ) (ξ : X × Y → ℚ) (hγ : 0 < γ) (hR2 : 0 ≤ R2) (hL0 : 0 ≤ L)
    (hlr : ∀ t, o.cfg.lr t = 1)
    (hinf : (perceptronProblem m outputs).ExactInference m.inference)
    (hlab : ∀ s ∈ samples, s.2 ∈ outputs s.1)
    (hmiss : MissesBy (perceptronProblem m outputs) u γ ξ samples)
    (hrad : Radius (perceptronProblem m outputs) R2 samples)
    (hL : ∀ s ∈ samples, ∀ w, m.loss s.2 (m.inference s.1 w) ≤ L)
    (hml : 0 < (samples.map fun s => m.maxLoss s.2).sum)
    (hfit : Perceptron.fit m o samples = .ok o') :
    γ ^ 2 * ((samples.map fun s => m.maxLoss s.2).sum * (o'.lossCurve.map fun c => c.getD 0).sum) ≤
      L * (2 * γ * (o'.lossCurve.length * (samples.map ξ).sum) +
        (if o.cfg.batch then (samples.length : ℚ) else 1) * R2 * ∑ k ∈ range m.dim, u k ^ 2) := by
  obtain ⟨avg, hc⟩ := fit_curve m o o' samples hfit
  have h1 := loop_curve_mistakes m o.cfg avg samples L _ hml hL o.cfg.maxIter 0 start (by simp [start, mistakes])
  have h2 := C158_mistakes m outputs o.cfg avg samples u γ R2 ξ hγ hR2 hlr hinf hlab hmiss hrad
  rw [hc]
  change _ * ((train m o.cfg avg samples).curve.map fun c => c.getD 0).sum ≤
    L * mistakes (train m o.cfg avg samples).visits at h1
  calc _ ≤ γ ^ 2 * (L * mistakes (train m o.cfg avg samples).visits) :=
        mul_le_mul_of_nonneg_left h1 (sq_nonneg γ)
    _ = L * (γ ^ 2 * mistakes (train m o.cfg avg samples).visits) := by ring
    _ ≤ _ := mul_le_mul_of_nonneg_left h2 hL0

/-- hinge losses of `u` bound by how much it misses the margin 1, if wrong outputs cost at least 1. -/
theorem hinge_misses (P : Problem X Y) (samples : List (X × Y)) (u : ℕ → ℚ) (hs : List ℚ)
    (hlab : P.Labelled samples)
    (hone : ∀ s ∈ samples, ∀ ŷ ∈ P.outputs s.1, P.loss s.2 ŷ ≠ 0 → 1 ≤ P.loss s.2 ŷ)
    (h : List.Forall₂ (fun s v => P.IsHinge u s.1 s.2 v) samples hs) :
    ∃ ξ : X × Y → ℚ, MissesBy P u 1 ξ samples ∧ (samples.map ξ).sum = hs.sum := by
  classical
  refine ⟨fun s => if e : ∃ v, P.IsHinge u s.1 s.2 v then e.choose else 0, ?_, ?_⟩
  · intro s hsm
    have : ∃ v, P.IsHinge u s.1 s.2 v := by
      obtain ⟨i, hi, rfl⟩ := List.getElem_of_mem hsm
      exact ⟨hs[i]'(by rw [← h.length_eq]; exact hi), h.get hi (by rw [← h.length_eq]; exact hi)⟩
    simp only [this, dif_pos]
    have hv := this.choose_spec
    obtain ⟨l1, l2⟩ := hlab s hsm
    constructor
    · refine hv.2 ⟨s.2, l1, ?_⟩
      unfold Problem.violation; rw [l2]; ring
    · intro ŷ hŷ hl
      have a := hv.2 ⟨ŷ, hŷ, rfl⟩
      have b := hone s hsm ŷ hŷ hl
      unfold Problem.violation at a
      linarith
  · congr 1
    clear hlab hone
    induction h with
    | nil => rfl
    | @cons s v l hs' hv _ ih =>
      rw [List.map_cons, ih]
      have e : ∃ v, P.IsHinge u s.1 s.2 v := ⟨v, hv⟩
      rw [dif_pos e, IsGreatest.unique e.choose_spec hv]

/-- **C158 (against the support vector machine).** If every wrong output costs at least 1, the number of
wrong predictions during training is at most `2 · N · R2` times the regularised risk of *any* weight vector
`u`, for the regularisation `C = epochs / (N · R2)`; so in particular that of the weights an SSVM learner
would return. -/
theorem C158_against_svm (m : SModel X Y) (outputs : X → Set Y) (cfg : Config) (avg : Option ℤ)
    (samples : List (X × Y)) (u : ℕ → ℚ) (R2 obj : ℚ) (hR2 : 0 < R2) (hne : samples ≠ [])
    (hlr : ∀ t, cfg.lr t = 1)
    (hinf : (perceptronProblem m outputs).ExactInference m.inference)
    (hlab : (perceptronProblem m outputs).Labelled samples)
    (hone : ∀ s ∈ samples, ∀ ŷ ∈ outputs s.1, m.loss s.2 ŷ ≠ 0 → 1 ≤ m.loss s.2 ŷ)
    (hrad : Radius (perceptronProblem m outputs) R2 samples)
    (hobj : (perceptronProblem m outputs).IsObjective
      ((train m cfg avg samples).curve.length / ((if cfg.batch then (samples.length : ℚ) else 1) * R2))
      samples u obj) :
    (mistakes (train m cfg avg samples).visits : ℚ) ≤
      2 * ((if cfg.batch then (samples.length : ℚ) else 1) * R2) * obj := by
  obtain ⟨hs, hh, rfl⟩ := hobj
  obtain ⟨ξ, hm, hsum⟩ := hinge_misses _ samples u hs hlab hone hh
  have h := C158_mistakes m outputs cfg avg samples u 1 R2 ξ one_pos hR2.le hlr hinf
    (fun s hs => (hlab s hs).1) hm hrad
  simp only [one_pow, one_mul, mul_one, hsum] at h
  have hN : (0 : ℚ) < if cfg.batch then (samples.length : ℚ) else 1 := by
    split
    · exact_mod_cast List.length_pos_iff.mpr hne
    · exact one_pos
  have e : ∑ k ∈ range m.dim, u k ^ 2 = ∑ k ∈ range (perceptronProblem m outputs).dim, u k * u k :=
    sum_congr rfl fun k _ => pow_two _
  rw [e] at h
  refine h.trans (le_of_eq ?_)
  generalize (if cfg.batch then (samples.length : ℚ) else 1) = N at *
  have h0 : N * R2 ≠ 0 := (mul_pos hN hR2).ne'
  field_simp
  ring

/-- **C158 (batch training converges).** In batch mode too: if some `u` separates the samples with margin
`γ`, training with more than `n R2 ‖u‖² / γ²` allowed epochs ends with recorded loss zero, and without
averaging the learned weights predict every training sample with loss zero. -/
theorem C158_batch_converges (m : SModel X Y) (outputs : X → Set Y) (o : Obj)
    (samples : List (X × Y)) (u : ℕ → ℚ) (γ R2 : ℚ) (hγ : 0 < γ) (hR2 : 0 ≤ R2)
    (hbatch : o.cfg.batch = true) (hlr : ∀ t, o.cfg.lr t = 1) (havg : o.average = .off)
    (hinf : (perceptronProblem m outputs).ExactInference m.inference)
    (hlab : ∀ s ∈ samples, s.2 ∈ outputs s.1)
    (hnn : ∀ s ∈ samples, ∀ w, 0 ≤ m.loss s.2 (m.inference s.1 w))
    (hml : 0 < (samples.map fun s => m.maxLoss s.2).sum)
    (hsep : Separates (perceptronProblem m outputs) u γ samples)
    (hrad : Radius (perceptronProblem m outputs) R2 samples)
    (hiter : samples.length * R2 * (∑ k ∈ range m.dim, u k ^ 2) / γ ^ 2 < o.cfg.maxIter) :
    ∃ o', Perceptron.fit m o samples = .ok o' ∧ o'.lossCurve.getLast? = some (some 0) ∧
      ∀ s ∈ samples, m.loss s.2 (m.inference s.1 o'.w) = 0 := by
  have hb := C158_mistakes m outputs o.cfg none samples u γ R2 (fun _ => 0) hγ hR2 hlr hinf hlab
    (fun s hs => ⟨le_rfl, fun ŷ hŷ hl => by simpa using hsep s hs ŷ hŷ hl⟩) hrad
  simp only [hbatch, if_true, List.map_const', List.sum_replicate, nsmul_zero, mul_zero, zero_add] at hb
  have hfit : Perceptron.fit m o samples = .ok { o with
      average := .off, w := (train m o.cfg none samples).w,
      lossCurve := (train m o.cfg none samples).curve } := by
    unfold Perceptron.fit; rw [havg]; simp [normAverage]
  have hstop : (train m o.cfg none samples).curve.getLast? = some (some 0) := by
    rcases loop_stop_or_mistakes m o.cfg none samples hnn _ hml.ne' o.cfg.maxIter 0 start with h | h
    · exact h
    · exfalso
      have h' : o.cfg.maxIter ≤ mistakes (train m o.cfg none samples).visits := by
        unfold train; have : mistakes start.visits = 0 := rfl
        omega
      have h'' : (o.cfg.maxIter : ℚ) ≤ mistakes (train m o.cfg none samples).visits := by
        exact_mod_cast h'
      rw [div_lt_iff₀ (by positivity)] at hiter
      have := mul_le_mul_of_nonneg_left h'' (sq_nonneg γ)
      linarith
  exact ⟨_, hfit, hstop, (C54_early_stop m o _ samples hnn havg hfit hstop).1⟩

/-! ### non-vacuity -/

/-- One input, labelled once with each of two classes: not separable. -/
def contradictorySamples : List ((ℕ → ℚ) × ℕ) := [(fun _ => 1, 0), (fun _ => 1, 1), (fun _ => 1, 1)]

/-- no weights separate the contradictory samples, yet the hypotheses of C158 hold: with `u = 0` the margin 1
is missed by 1 on every sample, joint-feature differences have squared length at most 8, every wrong output
costs 1 and the samples are labelled; training never stops before `max_iter`. -/
example :
    (perceptronProblem (multiClassModel exampleClf) (classes 3)).ExactInference
      (multiClassModel exampleClf).inference ∧
    MissesBy (perceptronProblem (multiClassModel exampleClf) (classes 3)) (fun _ => 0) 1 (fun _ => 1)
      contradictorySamples ∧
    Radius (perceptronProblem (multiClassModel exampleClf) (classes 3)) 8 contradictorySamples ∧
    (perceptronProblem (multiClassModel exampleClf) (classes 3)).Labelled contradictorySamples ∧
    (∀ s ∈ contradictorySamples, ∀ ŷ ∈ classes 3 s.1, (multiClassModel exampleClf).loss s.2 ŷ ≠ 0 →
      1 ≤ (multiClassModel exampleClf).loss s.2 ŷ) ∧
    (train (multiClassModel exampleClf) ⟨5, true, fun _ => 1⟩ none contradictorySamples).curve.length = 5 ∧
    mistakes (train (multiClassModel exampleClf) ⟨5, true, fun _ => 1⟩ none contradictorySamples).visits ≠ 0 := by
  refine ⟨(multiClass_exact exampleClf rfl (fun _ _ => zero_le_one) true).2, ?_, ?_, ?_, ?_, by decide +kernel,
    by decide +kernel⟩
  · have : ∀ s ∈ contradictorySamples, (0 : ℚ) ≤ 1 ∧ ∀ ŷ < 3,
      (perceptronProblem (multiClassModel exampleClf) (classes 3)).loss s.2 ŷ ≠ 0 →
      1 - 1 ≤ (perceptronProblem (multiClassModel exampleClf) (classes 3)).value (fun _ => 0) s.1 s.2 s.2 -
        (perceptronProblem (multiClassModel exampleClf) (classes 3)).value (fun _ => 0) s.1 s.2 ŷ := by
      decide +kernel
    exact this
  · have : ∀ s ∈ contradictorySamples, ∀ ŷ < 3,
      (perceptronProblem (multiClassModel exampleClf) (classes 3)).loss s.2 ŷ ≠ 0 →
      ∑ k ∈ range (perceptronProblem (multiClassModel exampleClf) (classes 3)).dim,
        ((perceptronProblem (multiClassModel exampleClf) (classes 3)).feat s.1 s.2 s.2 k -
          (perceptronProblem (multiClassModel exampleClf) (classes 3)).feat s.1 ŷ s.2 k) ^ 2 ≤ 8 := by
      decide +kernel
    exact this
  · have : ∀ s ∈ contradictorySamples, s.2 < 3 ∧
      (perceptronProblem (multiClassModel exampleClf) (classes 3)).loss s.2 s.2 = 0 := by decide +kernel
    exact this
  · have : ∀ s ∈ contradictorySamples, ∀ ŷ < 3, (multiClassModel exampleClf).loss s.2 ŷ ≠ 0 →
      1 ≤ (multiClassModel exampleClf).loss s.2 ŷ := by decide +kernel
    exact this

end Verif.Props
