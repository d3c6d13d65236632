import Verif.Lemmas.RiskDescent
import Mathlib.Algebra.Order.Archimedean.Basic
import Mathlib.Tactic.IntervalCases

/-!
# C101: SubgradientSSVM approaches the minimum of the risk
-/

namespace Verif.Props

open Finset Verif.Spec Verif.Learner Verif.Subgradient Verif.Descent Verif.Unstructured

variable {X Y : Type}

theorem sum_succ_ge (T : ℕ) : (T : ℚ) ^ 2 / 2 ≤ ∑ j ∈ range T, ((j : ℚ) + 1) := by
  induction T with
  | zero => simp
  | succ T ih => rw [sum_range_succ]; push_cast; nlinarith

/-- a weighted mean of iterates with weights `1, 2, …` or `1, 4, …` is as close as the iterates. -/
theorem averaged_dist {N : ℕ} (ws : ℕ → W) (u : W) (R τ : ℚ) (hτ : 1 ≤ τ) (T : ℕ) (hT : 0 < T)
    (hR : ∀ t ≤ T, (τ + t) * dist2 N (ws t) u ≤ R) (y : W)
    (hy : (∀ k, y k = weightedMean (fun j => j) ws T k) ∨
      ∀ k, y k = weightedMean (fun j => (j : ℚ) ^ 2) ws T k) :
    T * dist2 N y u ≤ 2 * R := by
  have hTq : (0 : ℚ) < T := by exact_mod_cast hT
  have hd0 : 0 ≤ dist2 N y u := dist2_nonneg _ _
  have hS1 := sum_succ_ge T
  set S := ∑ j ∈ range T, ((j : ℚ) + 1) with hS
  have hSpos : 0 < S := lt_of_lt_of_le (by positivity) hS1
  have hR1 : ∀ j < T, ((j : ℚ) + 1) * dist2 N (ws (j + 1)) u ≤ R := by
    intro j hj
    have h1 := hR (j + 1) (by omega)
    have h2 : 0 ≤ dist2 N (ws (j + 1)) u := dist2_nonneg _ _
    push_cast at h1
    nlinarith
  have key : S * dist2 N y u ≤ T * R := by
    rcases hy with hy | hy
    · have h1 := mean_dist (N := N) (fun j => (j : ℚ) + 1) (fun j => by positivity) (fun j => ws (j + 1)) u T
        hSpos y (by
          intro k _
          rw [hy k]
          unfold weightedMean
          push_cast
          rfl)
      refine le_trans h1 (le_trans (sum_le_sum fun j hj => hR1 j (mem_range.mp hj)) ?_)
      rw [sum_const, card_range, nsmul_eq_mul]
    · set S2 := ∑ j ∈ range T, ((j : ℚ) + 1) ^ 2 with hS2
      have hS2pos : 0 < S2 := sum_pos (fun j _ => by positivity) ⟨0, mem_range.mpr hT⟩
      have h1 := mean_dist (N := N) (fun j => ((j : ℚ) + 1) ^ 2) (fun j => by positivity)
        (fun j => ws (j + 1)) u T hS2pos y (by
          intro k _
          rw [hy k]
          unfold weightedMean
          push_cast
          rfl)
      have h2 : S2 * dist2 N y u ≤ S * R := by
        refine le_trans h1 ?_
        rw [hS, sum_mul]
        refine sum_le_sum fun j hj => ?_
        have := mul_le_mul_of_nonneg_left (hR1 j (mem_range.mp hj)) (by positivity : (0 : ℚ) ≤ (j : ℚ) + 1)
        calc _ = ((j : ℚ) + 1) * (((j : ℚ) + 1) * dist2 N (ws (j + 1)) u) := by ring
          _ ≤ _ := this
      have h3 : S ^ 2 ≤ T * S2 := by
        have := sum_mul_sq_le_sq_mul_sq (range T) (fun j : ℕ => (j : ℚ) + 1) (fun _ => 1)
        simp only [mul_one, one_pow, sum_const, card_range, nsmul_eq_mul] at this
        rw [mul_comm]
        exact this
      have h4 : S * (S * dist2 N y u) ≤ S * (T * R) := by
        calc S * (S * dist2 N y u) = S ^ 2 * dist2 N y u := by ring
          _ ≤ T * S2 * dist2 N y u := mul_le_mul_of_nonneg_right h3 hd0
          _ = T * (S2 * dist2 N y u) := by ring
          _ ≤ T * (S * R) := mul_le_mul_of_nonneg_left h2 hTq.le
          _ = S * (T * R) := by ring
      exact le_of_mul_le_mul_left h4 hSpos
  have h5 : T * (T * dist2 N y u) ≤ T * (2 * R) := by
    have := mul_le_mul_of_nonneg_right hS1 hd0
    nlinarith
  exact le_of_mul_le_mul_left h5 hTq

/-- The learner `o` with another `max_iter`. -/
def withMaxIter (o : Obj) (N : ℕ) : Obj := { o with cfg := { o.cfg with maxIter := N } }

/-- The learning rate of the documentation's Pegasos schedule: `learning_rate='auto'`,
`decay_exponent=1`, `decay_t0 = t0`; no momentum; training is not stopped early. -/
def Pegasos (cfg : Config) (t0 : ℚ) : Prop :=
  0 < cfg.C ∧ cfg.momentum = 0 ∧ cfg.learningRate = none ∧ (∀ t : ℕ, cfg.decay t = t + t0) ∧ 1 ≤ t0 ∧
    cfg.breakOnNoConstraints = false

theorem fit_converges (m : SModel X Y) (outputs : X → Set Y)
    (hLA : (problemOf m outputs).ExactLossAug (fun x y w => m.lossAug x y w true))
    (samples : List (X × Y)) (hne : samples ≠ []) (hl : (problemOf m outputs).Labelled samples)
    (Q : ℚ) (hQ : FeatBound (problemOf m outputs) samples Q)
    (o : Obj) (t0 : ℚ) (hpeg : Pegasos o.cfg t0) (havg : o.cfg.averaging = .none ∨ o.t = 0)
    (c0 : ℚ) (hc0 : 0 ≤ c0) (mm : ℕ) (hmm : 0 < mm)
    (hblk : ∀ p : List (List (X × Y)), p.flatten.Perm samples →
      (p.length : ℤ) = blockCount o.cfg samples.length → (∀ b ∈ p, BlockSize o.cfg samples.length b) →
      p.length = mm ∧ ∀ b ∈ p, o.cfg.C * samples.length * blockScale o.cfg b = c0)
    (u : W) (a : ℚ) (hu : (problemOf m outputs).IsRiskMin (c0 / mm) samples u a) :
    ∃ K, 0 ≤ K ∧ ∀ order : ℕ → List (X × Y), (∀ it, (order it).Perm samples) → ∀ N o',
      Subgradient.fit m order (withMaxIter o N) samples false = .ok o' →
      ∃ w obj, o'.w = some w ∧ o'.curves.objective.getLast? = some obj ∧
        (problemOf m outputs).IsObjective o.cfg.C samples w obj ∧ N * dist2 m.dim w u ≤ K := by
  obtain ⟨hC, hmom, hlr, hdec, ht0, hbrk⟩ := hpeg
  have hex : ∀ s ∈ samples, ∀ w, ∃ v, (problemOf m outputs).IsHinge w s.1 s.2 v := fun s hs w =>
    ⟨_, (C29_slack m outputs true hLA s.1 s.2 w (hl s hs).1 (hl s hs).2).1⟩
  have hQ0 : 0 ≤ Q := by
    obtain ⟨s, hs⟩ := List.exists_mem_of_ne_nil _ hne
    exact le_trans (sum_nonneg fun k _ => sq_nonneg _) (hQ s hs s.2 (hl s hs).1)
  set w0 : W := o.w.getD (fun _ => 0) with hw0
  set M := max (c0 ^ 2 * ((samples.length : ℚ) ^ 2 * Q)) (vdot m.dim w0 w0) with hM
  set τ : ℚ := t0 + o.t with hτ
  have hτ1 : 1 ≤ τ := by
    have : (0 : ℚ) ≤ o.t := by positivity
    rw [hτ]; linarith
  set R := rate mm M τ (dist2 m.dim w0 u) (vdot m.dim u u) with hR
  have hM0 : 0 ≤ M := le_trans (vdot_nonneg w0) (le_max_right _ _)
  have hR0 : 0 ≤ R := by
    rw [hR]
    unfold rate
    have h1 : 0 ≤ max (4 * (2 * (mm : ℚ) ^ 2 + mm) * M) ((τ - 1) * dist2 m.dim w0 u) :=
      le_trans (by positivity) (le_max_left _ _)
    have h2 := vdot_nonneg (N := m.dim) u
    positivity
  refine ⟨2 * R, by linarith, ?_⟩
  intro order hord N o' h
  obtain ⟨lr, passes, ws, w, -, -, g3, -, g5, g6, g7, g8, -, g10, g11, g12, g13, obj, g14, g15⟩ :=
    C48_fit m outputs hLA order samples hne hl hord (withMaxIter o N) o' hC false h
  refine ⟨w, obj, g10, g14, g15, ?_⟩
  have hN : passes.length = N := g5 hbrk
  have hblk' : ∀ p ∈ passes, p.flatten.Perm samples ∧ p.length = mm ∧
      ∀ b ∈ p, o.cfg.C * samples.length * blockScale o.cfg b = c0 := by
    intro p hp
    obtain ⟨k1, -, k2, k3⟩ := g6 p hp
    exact ⟨k1, hblk p k1 k2 k3⟩
  have hn : (0 : ℚ) < samples.length := by exact_mod_cast List.length_pos_iff.mpr hne
  have hlr' : lr = o.cfg.C * samples.length := by
    rw [g3 rfl]
    change o.cfg.learningRate.getD _ = _
    rw [hlr]
    rfl
  have hCn : o.cfg.C * samples.length ≠ 0 := by positivity
  have hdesc : (problemOf m outputs).IsDescent
      (fun b => o.cfg.C * samples.length * blockScale o.cfg b) 0 (fun t => 1 / (τ + t)) passes.flatten ws := by
    have e : (fun t : ℕ => lr / o.cfg.decay (o.t + t) / (o.cfg.C * samples.length)) =
        fun t : ℕ => 1 / (τ + t) := by
      funext t
      rw [hlr', hdec, hτ]
      push_cast
      rw [div_right_comm, div_self hCn]
      congr 1
      ring
    rw [← e, ← hmom]
    exact g8
  have hall : ∀ t ≤ passes.length * mm, (τ + t) * dist2 m.dim (ws t) u ≤ R := by
    intro t ht
    have := descent_converges (problemOf m outputs) samples hex Q hQ0 hQ _ c0 hc0 mm hmm passes hblk' τ hτ1 ws
      hdesc M (le_max_left _ _) (by rw [g7]; exact le_max_right _ _) u a hu.1 hu.2 t ht
    rw [g7] at this
    exact this
  have hlen : passes.flatten.length = passes.length * mm := flatten_length mm passes fun l hl => (hblk' l hl).2.1
  rcases Nat.eq_zero_or_pos N with rfl | hNpos
  · simp only [Nat.cast_zero, zero_mul]
    linarith
  have hpne : passes ≠ [] := by
    intro h0; rw [h0] at hN; simp at hN; omega
  have hTN : N ≤ passes.length * mm := by rw [hN]; exact Nat.le_mul_of_pos_right _ hmm
  have hTpos : 0 < passes.length * mm := by omega
  have hd0 : 0 ≤ dist2 m.dim w u := dist2_nonneg _ _
  have hTNq : (N : ℚ) ≤ ((passes.length * mm : ℕ) : ℚ) := by exact_mod_cast hTN
  have hfin : ((passes.length * mm : ℕ) : ℚ) * dist2 m.dim w u ≤ 2 * R := by
    cases ha : o.cfg.averaging with
    | none =>
      have hw := g11 ha
      have := hall (passes.length * mm) le_rfl
      rw [hw, hlen]
      have h0 : 0 ≤ dist2 m.dim (ws (passes.length * mm)) u := dist2_nonneg _ _
      nlinarith
    | linear =>
      have ht : o.t = 0 := by
        rcases havg with h | h
        · rw [ha] at h; cases h
        · exact h
      refine averaged_dist ws u R τ hτ1 _ hTpos hall w (Or.inl ?_)
      have := g12 ha ht hpne
      rw [hlen] at this
      exact this
    | squared =>
      have ht : o.t = 0 := by
        rcases havg with h | h
        · rw [ha] at h; cases h
        · exact h
      refine averaged_dist ws u R τ hτ1 _ hTpos hall w (Or.inr ?_)
      have := g13 ha ht hpne
      rw [hlen] at this
      exact this
  exact le_trans (mul_le_mul_of_nonneg_right hTNq hd0) hfin

/-- One sample per step, the whole data per step, or mini-batches whose size divides the number of
samples. -/
def EvenBatches (cfg : Config) (n : ℕ) : Prop :=
  cfg.nJobs = 1 ∧ (cfg.batchSize = none ∨ cfg.batchSize = some (-1) ∨
    ∃ b : ℕ, 0 < b ∧ cfg.batchSize = some (b : ℤ) ∧ b ∣ n)

theorem all_full (b : ℕ) (l : List (List (X × Y))) (h : ∀ x ∈ l, x.length ≤ b)
    (hs : l.flatten.length = l.length * b) : ∀ x ∈ l, x.length = b := by
  have hle : ∀ l : List (List (X × Y)), (∀ x ∈ l, x.length ≤ b) → l.flatten.length ≤ l.length * b := by
    intro l
    induction l with
    | nil => intro _; simp
    | cons a l ih =>
      intro h
      rw [List.flatten_cons, List.length_append, List.length_cons, Nat.succ_mul]
      have := ih fun x hx => h x (by simp [hx])
      have := h a (by simp)
      omega
  induction l with
  | nil => intro x hx; cases hx
  | cons a l ih =>
    rw [List.flatten_cons, List.length_append, List.length_cons, Nat.succ_mul] at hs
    have h1 := hle l fun x hx => h x (by simp [hx])
    have h2 := h a (by simp)
    intro x hx
    rcases List.mem_cons.mp hx with rfl | hx
    · omega
    · exact ih (fun x hx => h x (by simp [hx])) (by omega) x hx

/-- with even batches, every step follows a subgradient of a risk with the same constant, and the mean of
these risks over a pass is the risk of the data with constant `C`. -/
theorem even_blocks (cfg : Config) (samples : List (X × Y)) (hne : samples ≠ []) (hC : 0 < cfg.C)
    (he : EvenBatches cfg samples.length) :
    ∃ (c0 : ℚ) (mm : ℕ), 0 ≤ c0 ∧ 0 < mm ∧ c0 / mm = cfg.C ∧
      ∀ p : List (List (X × Y)), p.flatten.Perm samples →
        (p.length : ℤ) = blockCount cfg samples.length → (∀ b ∈ p, BlockSize cfg samples.length b) →
        p.length = mm ∧ ∀ b ∈ p, cfg.C * samples.length * blockScale cfg b = c0 := by
  obtain ⟨hj, he⟩ := he
  have hnpos : 0 < samples.length := List.length_pos_iff.mpr hne
  have hn : (0 : ℚ) < samples.length := by exact_mod_cast hnpos
  have single : ∀ (_ : cfg.batchSize = none ∨ cfg.batchSize = some 1), ∃ (c0 : ℚ) (mm : ℕ), 0 ≤ c0 ∧ 0 < mm ∧
      c0 / mm = cfg.C ∧ ∀ p : List (List (X × Y)), p.flatten.Perm samples →
        (p.length : ℤ) = blockCount cfg samples.length → (∀ b ∈ p, BlockSize cfg samples.length b) →
        p.length = mm ∧ ∀ b ∈ p, cfg.C * samples.length * blockScale cfg b = c0 := by
    intro hb
    refine ⟨cfg.C * samples.length, samples.length, by positivity, hnpos, by field_simp, ?_⟩
    intro p _ hc _
    constructor
    · unfold blockCount at hc
      rw [if_pos hj] at hc
      rcases hb with hb | hb <;> rw [hb] at hc <;> simp at hc <;> omega
    · intro b _
      have : usesBatches cfg = false := by rcases hb with hb | hb <;> simp [usesBatches, hb]
      unfold blockScale
      rw [this]
      simp
  rcases he with hb | hb | ⟨b, hb0, hb, hd⟩
  · exact single (Or.inl hb)
  · refine ⟨cfg.C, 1, hC.le, one_pos, by simp, ?_⟩
    intro p hp hc hs
    constructor
    · unfold blockCount at hc
      rw [if_pos hj, hb] at hc
      simpa using hc
    · intro x hx
      have h1 := ((hs x hx).2.2.2 hj (-1) hb).1 rfl
      have : usesBatches cfg = true := by simp [usesBatches, hj, hb]
      unfold blockScale
      rw [this, if_pos rfl, h1]
      field_simp
  · by_cases hb1 : b = 1
    · exact single (Or.inr (by rw [hb, hb1]; rfl))
    · obtain ⟨q, hq⟩ := hd
      have hbq : (0 : ℚ) < b := by exact_mod_cast hb0
      have hq0 : 0 < q := by
        rcases Nat.eq_zero_or_pos q with h | h
        · rw [h] at hq; omega
        · exact h
      have hqq : (0 : ℚ) < q := by exact_mod_cast hq0
      refine ⟨cfg.C * samples.length / b, q, by positivity, hq0, ?_, ?_⟩
      · rw [hq]; push_cast; field_simp
      · intro p hp hc hs
        have hb1' : (b : ℤ) ≠ 1 := by exact_mod_cast hb1
        have hbm1 : (b : ℤ) ≠ -1 := by omega
        have hlen : p.length = q := by
          unfold blockCount at hc
          rw [if_pos hj, hb] at hc
          simp only [if_neg hb1', if_neg hbm1] at hc
          have : ((samples.length : ℕ) : ℚ) / ((b : ℤ) : ℚ) = ((q : ℤ) : ℚ) := by
            rw [hq]; push_cast; field_simp
          rw [this, Int.ceil_intCast] at hc
          exact_mod_cast hc
        refine ⟨hlen, ?_⟩
        have hfull := all_full b p (fun x hx => by
          have := ((hs x hx).2.2.2 hj b hb).2 hbm1
          exact_mod_cast this) (by rw [hp.length_eq, hlen, hq]; ring)
        intro x hx
        have : usesBatches cfg = true := by simp [usesBatches, hj, hb, hb1]
        unfold blockScale
        rw [this, if_pos rfl, hfull x hx]
        ring

/-- **C101.** SubgradientSSVM with the Pegasos schedule, exact loss-augmented inference and bounded features
approaches the minimum of the regularised risk, whatever the order of the samples in every pass, whatever
happened to the learner before and however weights are averaged: the squared distance of the learned weights
to the minimum, and the squared difference of the last entry of `objective_curve_` to the minimal risk, are
at most a constant over the number of passes. -/
theorem C101_converges_partial (m : SModel X Y) (outputs : X → Set Y)
    (hLA : (problemOf m outputs).ExactLossAug (fun x y w => m.lossAug x y w true))
    (samples : List (X × Y)) (hne : samples ≠ []) (hl : (problemOf m outputs).Labelled samples)
    (Q : ℚ) (hQ : FeatBound (problemOf m outputs) samples Q)
    (o : Obj) (t0 : ℚ) (hpeg : Pegasos o.cfg t0) (havg : o.cfg.averaging = .none ∨ o.t = 0)
    (heven : EvenBatches o.cfg samples.length)
    (u : W) (a : ℚ) (hu : (problemOf m outputs).IsRiskMin o.cfg.C samples u a) :
    ∃ K, ∀ order : ℕ → List (X × Y), (∀ it, (order it).Perm samples) → ∀ N o',
      Subgradient.fit m order (withMaxIter o N) samples false = .ok o' →
      ∃ w obj, o'.w = some w ∧ o'.curves.objective.getLast? = some obj ∧
        (problemOf m outputs).IsObjective o.cfg.C samples w obj ∧
        N * ∑ k ∈ range m.dim, (w k - u k) ^ 2 ≤ K ∧ N * (obj - a) ^ 2 ≤ K := by
  obtain ⟨c0, mm, h1, h2, h3, h4⟩ := even_blocks o.cfg samples hne hpeg.1 heven
  have hu' := hu
  rw [← h3] at hu'
  obtain ⟨K, hK0, hK⟩ := fit_converges m outputs hLA samples hne hl Q hQ o t0 hpeg havg c0 h1 mm h2 h4 u a hu'
  have hex : ∀ s ∈ samples, ∀ w, ∃ v, (problemOf m outputs).IsHinge w s.1 s.2 v := fun s hs w =>
    ⟨_, (C29_slack m outputs true hLA s.1 s.2 w (hl s hs).1 (hl s hs).2).1⟩
  have hQ0 : 0 ≤ Q := by
    obtain ⟨s, hs⟩ := List.exists_mem_of_ne_nil _ hne
    exact le_trans (sum_nonneg fun k _ => sq_nonneg _) (hQ s hs s.2 (hl s hs).1)
  set E := 4 * vdot m.dim u u + 4 * (o.cfg.C ^ 2 * ((samples.length : ℚ) ^ 2 * Q)) with hE
  have hE0 : 0 ≤ E := by
    have := vdot_nonneg (N := m.dim) u
    positivity
  refine ⟨max K ((2 * K + E) * K), ?_⟩
  intro order hord N o' h
  obtain ⟨w, obj, g1, g2, g3, g4⟩ := hK order hord N o' h
  have hd : dist2 m.dim w u = ∑ k ∈ range m.dim, (w k - u k) ^ 2 := by
    unfold dist2 vdot diff
    exact sum_congr rfl fun k _ => by ring
  refine ⟨w, obj, g1, g2, g3, le_trans (hd ▸ g4) (le_max_left _ _), le_trans ?_ (le_max_right _ _)⟩
  rcases Nat.eq_zero_or_pos N with rfl | hNpos
  · simp only [Nat.cast_zero, zero_mul]; positivity
  have hN1 : (1 : ℚ) ≤ N := by exact_mod_cast hNpos
  have hgap := objective_gap (problemOf m outputs) samples hex Q hQ o.cfg.C hpeg.1.le u w a obj hu.1 hu.2 g3
  change (obj - a) ^ 2 ≤ 2 * dist2 m.dim w u ^ 2 + E * dist2 m.dim w u at hgap
  set d := dist2 m.dim w u with hdd
  have hd0 : 0 ≤ d := dist2_nonneg _ _
  have hdK : d ≤ K := by nlinarith
  have h5 : (obj - a) ^ 2 ≤ (2 * K + E) * d := by nlinarith
  calc (N : ℚ) * (obj - a) ^ 2 ≤ N * ((2 * K + E) * d) := mul_le_mul_of_nonneg_left h5 (by linarith)
    _ = (2 * K + E) * (N * d) := by ring
    _ ≤ (2 * K + E) * K := mul_le_mul_of_nonneg_left g4 (by linarith)

/-- In particular the risk of the learned weights gets as close to the minimum as desired if only `max_iter`
is large enough. -/
theorem C101_enough_passes_partial (m : SModel X Y) (outputs : X → Set Y)
    (hLA : (problemOf m outputs).ExactLossAug (fun x y w => m.lossAug x y w true))
    (samples : List (X × Y)) (hne : samples ≠ []) (hl : (problemOf m outputs).Labelled samples)
    (Q : ℚ) (hQ : FeatBound (problemOf m outputs) samples Q)
    (o : Obj) (t0 : ℚ) (hpeg : Pegasos o.cfg t0) (havg : o.cfg.averaging = .none ∨ o.t = 0)
    (heven : EvenBatches o.cfg samples.length)
    (u : W) (a : ℚ) (hu : (problemOf m outputs).IsRiskMin o.cfg.C samples u a) (ε : ℚ) (hε : 0 < ε) :
    ∃ N₀, ∀ order : ℕ → List (X × Y), (∀ it, (order it).Perm samples) → ∀ N ≥ N₀, ∀ o',
      Subgradient.fit m order (withMaxIter o N) samples false = .ok o' →
      ∃ obj, o'.curves.objective.getLast? = some obj ∧ a ≤ obj ∧ obj ≤ a + ε := by
  obtain ⟨K, hK⟩ := C101_converges_partial m outputs hLA samples hne hl Q hQ o t0 hpeg havg heven u a hu
  obtain ⟨N₀, hN₀⟩ := exists_nat_gt (K / ε ^ 2)
  refine ⟨N₀ + 1, ?_⟩
  intro order hord N hN o' h
  obtain ⟨w, obj, -, g2, g3, -, g5⟩ := hK order hord N o' h
  refine ⟨obj, g2, hu.2 w obj g3, ?_⟩
  have h1 := hu.2 w obj g3
  by_contra hc
  push Not at hc
  have h2 : ε ^ 2 < (obj - a) ^ 2 := pow_lt_pow_left₀ (by linarith) hε.le two_ne_zero
  have hNq : (N₀ : ℚ) + 1 ≤ N := by exact_mod_cast hN
  rw [div_lt_iff₀ (by positivity)] at hN₀
  have hNpos : (0 : ℚ) < N := by
    have : (0 : ℚ) ≤ N₀ := by positivity
    linarith
  have h3 := mul_lt_mul_of_pos_left h2 hNpos
  have h4 : (N₀ : ℚ) * ε ^ 2 ≤ N * ε ^ 2 := mul_le_mul_of_nonneg_right (by linarith) (by positivity)
  linarith

/-- **C101 for `n_jobs ≠ 1`.** The learned weights approach the minimum of another risk: that with constant
`C · n / ⌈n / n_jobs⌉`, because the constraints of the samples of a batch are added up while their number is
not taken into account. -/
theorem C101_parallel (m : SModel X Y) (outputs : X → Set Y)
    (hLA : (problemOf m outputs).ExactLossAug (fun x y w => m.lossAug x y w true))
    (samples : List (X × Y)) (hne : samples ≠ []) (hl : (problemOf m outputs).Labelled samples)
    (Q : ℚ) (hQ : FeatBound (problemOf m outputs) samples Q)
    (o : Obj) (t0 : ℚ) (hpeg : Pegasos o.cfg t0) (havg : o.cfg.averaging = .none ∨ o.t = 0)
    (hj : o.cfg.nJobs ≠ 1) (hj0 : o.cfg.nJobs ≠ 0) (u : W) (a : ℚ)
    (hu : (problemOf m outputs).IsRiskMin
      (o.cfg.C * samples.length / ⌈(samples.length : ℚ) / o.cfg.nJobs⌉) samples u a) :
    ∃ K, ∀ order : ℕ → List (X × Y), (∀ it, (order it).Perm samples) → ∀ N o',
      Subgradient.fit m order (withMaxIter o N) samples false = .ok o' →
      ∃ w, o'.w = some w ∧ N * ∑ k ∈ range m.dim, (w k - u k) ^ 2 ≤ K := by
  have hnpos : 0 < samples.length := List.length_pos_iff.mpr hne
  have hn : (0 : ℚ) < samples.length := by exact_mod_cast hnpos
  have hjq : (0 : ℚ) < o.cfg.nJobs := by exact_mod_cast Nat.pos_of_ne_zero hj0
  have hceil : 0 < ⌈(samples.length : ℚ) / o.cfg.nJobs⌉ := Int.ceil_pos.mpr (by positivity)
  set q := ⌈(samples.length : ℚ) / o.cfg.nJobs⌉ with hq
  have hqn : ((q.toNat : ℕ) : ℚ) = (q : ℚ) := by
    have : ((q.toNat : ℕ) : ℤ) = q := Int.toNat_of_nonneg hceil.le
    exact_mod_cast congrArg (fun z : ℤ => (z : ℚ)) this
  have hC := hpeg.1
  obtain ⟨K, -, hK⟩ := fit_converges m outputs hLA samples hne hl Q hQ o t0 hpeg havg
    (o.cfg.C * samples.length) (by positivity) q.toNat (by omega) (by
      intro p _ hc _
      constructor
      · unfold blockCount at hc
        rw [if_neg hj] at hc
        have : (p.length : ℤ) = q := hc
        omega
      · intro b _
        have : usesBatches o.cfg = false := by simp [usesBatches, hj]
        unfold blockScale
        rw [this]
        simp) u a (by rw [hqn]; exact hu)
  refine ⟨K, ?_⟩
  intro order hord N o' h
  obtain ⟨w, obj, g1, -, -, g4⟩ := hK order hord N o' h
  refine ⟨w, g1, le_trans (le_of_eq ?_) g4⟩
  unfold dist2 vdot diff
  congr 1
  exact sum_congr rfl fun k _ => by ring

/-! ### when training raises -/

/-- Modes in which training works: single samples; mini-batches for models without `rescale_C`; several jobs
without `batch_size`. -/
def ModeOk (m : SModel X Y) (cfg : Config) : Prop :=
  (cfg.nJobs = 1 ∧ (cfg.batchSize = none ∨ cfg.batchSize = some 1 ∨
    m.rescaleC = false ∧ ∃ b, cfg.batchSize = some b ∧ (b = -1 ∨ 0 < b))) ∨
  (cfg.nJobs ≠ 1 ∧ cfg.nJobs ≠ 0 ∧ cfg.batchSize = none)

theorem learn_ok_iff (m : SModel X Y) (cfg : Config) (lr : ℚ) (data : List (X × Y)) (hne : data ≠ [])
    (st : St) : (∃ r, learn m cfg lr data st = .ok r) ↔ ModeOk m cfg := by
  unfold learn ModeOk
  by_cases hj : cfg.nJobs = 1
  · rw [if_pos hj]
    simp only [hj, true_and, ne_eq, not_true_eq_false, false_and, or_false]
    unfold sequentialLearning
    cases hb : cfg.batchSize with
    | none => simp
    | some b =>
      simp only
      by_cases hb1 : b = 1
      · rw [if_pos hb1]; simp [hb1]
      · rw [if_neg hb1]
        have hmb := (C50_minibatches data b).2
        cases hm : miniBatches data b with
        | error err =>
          have : ¬(b = -1 ∨ 0 < b) := by
            intro h
            obtain ⟨bs, hbs⟩ := hmb.mpr (h.imp id fun h => ⟨h, hne⟩)
            rw [hm] at hbs; cases hbs
          simp only [reduceCtorEq, exists_false, Option.some.injEq, hb1, false_or, false_iff]
          rintro ⟨-, b', rfl, h⟩
          exact this h
        | ok bs =>
          have hbp : b = -1 ∨ 0 < b := (hmb.mp ⟨bs, hm⟩).imp id fun h => h.1
          have hf := ((C50_minibatches data b).1 bs hm).1
          have hbs : bs ≠ [] := by
            intro h0; rw [h0] at hf; exact hne hf.symm
          simp only [reduceCtorEq, Option.some.injEq, hb1, false_or]
          cases hr : m.rescaleC with
          | true => simp [hbs]
          | false =>
            simp only [Bool.false_eq_true, false_and, if_false]
            exact ⟨fun _ => ⟨trivial, b, rfl, hbp⟩, fun _ => ⟨_, rfl⟩⟩
  · rw [if_neg hj]
    simp only [hj, false_and, false_or, ne_eq, not_false_eq_true, true_and]
    unfold parallelLearning
    by_cases hb : cfg.batchSize = none
    · rw [if_neg (by simp [hb])]
      by_cases h0 : cfg.nJobs = 0
      · rw [if_pos h0]; simp [h0]
      · rw [if_neg h0]
        have hsl := (even_slices (cfg.nJobs : ℤ) data).2
        obtain ⟨sl, hs⟩ := hsl.mpr ⟨hne, by omega⟩
        rw [hs]
        simp [h0, hb]
    · rw [if_pos hb]; simp [hb]

theorem loop_ok_iff (m : SModel X Y) (cfg : Config) (lr : ℚ) (order : ℕ → List (X × Y))
    (hord : ∀ it, order it ≠ []) :
    ∀ n it data st c, data ≠ [] →
      ((∃ r, loop m cfg lr order n it data st c = .ok r) ↔ n = 0 ∨ ModeOk m cfg) ∧
      ∀ r, loop m cfg lr order n it data st c = .ok r → r.1 ≠ [] := by
  intro n
  induction n with
  | zero =>
    intro it data st c hne
    unfold loop
    refine ⟨by simp, ?_⟩
    intro r hr
    rw [Except.ok.injEq] at hr
    subst hr
    exact hne
  | succ n ih =>
    intro it data st c hne
    unfold loop
    simp only
    set dat := if cfg.shuffle = true then order it else data with hdat
    have hd : dat ≠ [] := by
      rw [hdat]; split_ifs
      · exact hord it
      · exact hne
    have hlearn := learn_ok_iff m cfg lr dat hd st
    cases hl : learn m cfg lr dat st with
    | error err =>
      have : ¬ModeOk m cfg := by
        intro h
        obtain ⟨r, hr⟩ := hlearn.mpr h
        rw [hl] at hr; cases hr
      simp [this]
    | ok r =>
      have hmode := hlearn.mp ⟨r, hl⟩
      obtain ⟨st1, p⟩ := r
      simp only
      split_ifs with hbr
      · refine ⟨by simp [hmode], ?_⟩
        intro r hr
        rw [Except.ok.injEq] at hr
        subst hr
        exact hd
      · rw [objectivePrimal_ok m st1.selfW dat cfg.C true hd]
        simp only
        obtain ⟨i1, i2⟩ := ih (it + 1) dat st1
          ⟨c.objective ++ [(dat.map (sampleSlack m st1.selfW)).sum * cfg.C +
            (∑ k ∈ range m.dim, st1.selfW k ^ 2) / 2],
            computeTrainingLoss m cfg.showLossEvery st1.selfW dat it c.loss⟩ hd
        exact ⟨i1.trans (by simp [hmode]), i2⟩

/-- **C102.** On non-empty data and with at least one pass, `fit` without warm start succeeds exactly in the
modes of `ModeOk`. -/
theorem C102_fit_succeeds (m : SModel X Y) (order : ℕ → List (X × Y)) (samples : List (X × Y))
    (hne : samples ≠ []) (hord : ∀ it, (order it).Perm samples) (o : Obj) (hit : 0 < o.cfg.maxIter) :
    (∃ o', Subgradient.fit m order o samples false = .ok o') ↔ ModeOk m o.cfg := by
  have hord' : ∀ it, order it ≠ [] := by
    intro it h
    have := (hord it).length_eq
    rw [h] at this
    exact hne (List.length_eq_zero_iff.mp this.symm)
  unfold Subgradient.fit
  simp only
  have hs : Subgradient.setup o samples.length false =
      .ok (o.cfg.learningRate.getD (o.cfg.C * samples.length), []) := by
    unfold Subgradient.setup
    rw [if_neg (by simp)]
  rw [hs]
  simp only
  obtain ⟨h1, h2⟩ := loop_ok_iff m o.cfg (o.cfg.learningRate.getD (o.cfg.C * samples.length)) order hord'
    o.cfg.maxIter 0 samples ⟨o.w.getD (fun _ => 0), fun _ => 0, o.w.getD (fun _ => 0), o.t⟩
    ⟨[], o.curves.loss⟩ hne
  have h3 : o.cfg.maxIter = 0 ∨ ModeOk m o.cfg ↔ ModeOk m o.cfg := by
    constructor
    · rintro (h | h)
      · omega
      · exact h
    · exact Or.inr
  rw [h3] at h1
  cases hl : loop m o.cfg (o.cfg.learningRate.getD (o.cfg.C * samples.length)) order o.cfg.maxIter 0 samples
    ⟨o.w.getD (fun _ => 0), fun _ => 0, o.w.getD (fun _ => 0), o.t⟩ ⟨[], o.curves.loss⟩ with
  | error err =>
    rw [hl] at h1
    simp only [reduceCtorEq, exists_false, false_iff] at h1
    simp [h1]
  | ok r =>
    have hr := h2 r hl
    rw [hl] at h1
    obtain ⟨data', st', c'⟩ := r
    simp only
    rw [objectivePrimal_ok m st'.selfW data' o.cfg.C true hr]
    simp only
    exact ⟨fun _ => h1.mp ⟨_, rfl⟩, fun _ => ⟨_, rfl⟩⟩

/-- all working modes, and three that raise. -/
example : (∀ jb ∈ [(1, none), (1, some 1), (1, some (-1)), (1, some 2), (2, none)],
      (Subgradient.fit (multiClassModel exampleClf) (fun _ => exampleSamples)
        (exampleSG 2 jb.1 jb.2 .none) exampleSamples false).toOption.isSome = true) ∧
    ∀ jb ∈ [(1, some 0), (2, some 2), (0, none)],
      (Subgradient.fit (multiClassModel exampleClf) (fun _ => exampleSamples)
        (exampleSG 2 jb.1 jb.2 .none) exampleSamples false).toOption.isSome = false := by decide +kernel

/-! ### a concrete problem -/

/-- two classes, one feature, unit class weights. -/
def twoClf : MultiClass := ⟨2, 1, ⟨2, fun _ => 1⟩, true, false⟩

/-- `k` times the sample with feature 1 and class 1. -/
def oneSamples (k : ℕ) : List ((ℕ → ℚ) × ℕ) := List.replicate k (fun _ => 1, 1)

/-- weights `(-s, s)`. -/
def antiW (s : ℚ) : W := fun k => if k = 0 then -s else s

abbrev twoProblem := problemOf (multiClassModel twoClf) (classes 2)

theorem two_value (w : W) (c : ℕ) (hc : c < 2) : twoProblem.value w (fun _ => 1) 1 c = w c := by
  have hdim : twoProblem.dim = 2 := rfl
  unfold Problem.value
  rw [hdim, sum_range_succ, sum_range_one]
  have hf : ∀ c < 2, ∀ k < 2, twoProblem.feat (fun _ => 1) c 1 k = if c = k then 1 else 0 := by
    decide +kernel
  rw [hf c hc 0 (by norm_num), hf c hc 1 (by norm_num)]
  interval_cases c <;> simp

theorem two_hinge (w : W) : twoProblem.IsHinge w (fun _ => 1) 1 (max 0 (1 + w 0 - w 1)) := by
  have v0 : twoProblem.violation w (fun _ => 1) 1 0 = 1 + w 0 - w 1 := by
    unfold Problem.violation
    rw [two_value w 0 (by norm_num), two_value w 1 (by norm_num)]
    have : twoProblem.loss 1 0 = 1 := by decide +kernel
    rw [this]
  have v1 : twoProblem.violation w (fun _ => 1) 1 1 = 0 := by
    unfold Problem.violation
    have : twoProblem.loss 1 1 = 0 := by decide +kernel
    rw [this]; ring
  constructor
  · rcases le_total 0 (1 + w 0 - w 1) with h | h
    · rw [max_eq_right h]; exact ⟨0, (by decide : 0 < 2), v0.symm⟩
    · rw [max_eq_left h]; exact ⟨1, (by decide : 1 < 2), v1.symm⟩
  · rintro v ⟨y, hy, rfl⟩
    have hy' : y < 2 := hy
    interval_cases y
    · rw [v0]; exact le_max_right _ _
    · rw [v1]; exact le_max_left _ _

theorem two_objective (C : ℚ) (k : ℕ) (w : W) (a : ℚ) : twoProblem.IsObjective C (oneSamples k) w a ↔
    a = (w 0 * w 0 + w 1 * w 1) / 2 + C * (k * max 0 (1 + w 0 - w 1)) := by
  have hs : ∑ j ∈ range twoProblem.dim, w j * w j = w 0 * w 0 + w 1 * w 1 := by
    have hdim : twoProblem.dim = 2 := rfl
    rw [hdim, sum_range_succ, sum_range_one]
  unfold Problem.IsObjective
  rw [hs]
  constructor
  · rintro ⟨hs, h1, rfl⟩
    have : hs.sum = k * max 0 (1 + w 0 - w 1) := by
      unfold oneSamples at h1
      induction k generalizing hs with
      | zero => cases h1; simp
      | succ k ih =>
        rw [List.replicate_succ] at h1
        cases h1 with
        | cons h h' =>
          rw [List.sum_cons, ih _ h', h.unique (two_hinge w)]
          push_cast; ring
    rw [this]
  · rintro rfl
    refine ⟨List.replicate k (max 0 (1 + w 0 - w 1)), ?_, by simp⟩
    unfold oneSamples
    induction k with
    | zero => exact List.Forall₂.nil
    | succ k ih => exact List.Forall₂.cons (two_hinge w) ih

/-- the minimum of the risk. -/
theorem two_min (C : ℚ) (hC : 0 ≤ C) (k : ℕ) :
    (C * k ≤ 1 / 2 → twoProblem.IsRiskMin C (oneSamples k) (antiW (C * k)) (C * k - (C * k) ^ 2)) ∧
    (1 / 2 ≤ C * k → twoProblem.IsRiskMin C (oneSamples k) (antiW (1 / 2)) (1 / 4)) := by
  have hz : antiW (C * k) 0 = -(C * k) ∧ antiW (C * k) 1 = C * k := ⟨rfl, rfl⟩
  have hz' : antiW (1 / 2) 0 = -(1 / 2) ∧ antiW (1 / 2) 1 = 1 / 2 := ⟨rfl, rfl⟩
  have hCk : 0 ≤ C * k := by positivity
  constructor
  · intro h
    refine ⟨(two_objective C k _ _).2 ?_, ?_⟩
    · rw [hz.1, hz.2, max_eq_right (by linarith)]; ring
    · intro w b hb
      rw [two_objective] at hb
      have h1 : C * k * (1 + w 0 - w 1) ≤ C * k * max 0 (1 + w 0 - w 1) :=
        mul_le_mul_of_nonneg_left (le_max_right _ _) hCk
      rw [hb]
      nlinarith [sq_nonneg (w 0 + C * k), sq_nonneg (w 1 - C * k)]
  · intro h
    refine ⟨(two_objective C k _ _).2 ?_, ?_⟩
    · rw [hz'.1, hz'.2, max_eq_left (by norm_num)]; norm_num
    · intro w b hb
      rw [two_objective] at hb
      have h0 : 0 ≤ max 0 (1 + w 0 - w 1) := le_max_left _ _
      have h1 : 1 + w 0 - w 1 ≤ max 0 (1 + w 0 - w 1) := le_max_right _ _
      rw [hb]
      nlinarith [sq_nonneg (w 0 + 1 / 2), sq_nonneg (w 1 - 1 / 2)]

theorem two_bound (k : ℕ) : FeatBound twoProblem (oneSamples k) 2 := by
  intro s hs ŷ hy
  obtain rfl := List.eq_of_mem_replicate hs
  have hy' : ŷ < 2 := hy
  have hdim : twoProblem.dim = 2 := rfl
  rw [hdim]
  interval_cases ŷ <;> decide +kernel

theorem two_labelled (k : ℕ) : twoProblem.Labelled (oneSamples k) :=
  multiClass_labelled twoClf rfl _ fun s hs => by
    obtain rfl := List.eq_of_mem_replicate hs
    decide

/-- a learner with the default parameters: `learning_rate='auto'`, `decay_exponent=1`, `decay_t0=10`, no
momentum, no averaging. -/
def defaultSG (C : ℚ) (brk : Bool) (jobs maxIter : ℕ) : Obj :=
  ⟨⟨maxIter, C, 0, none, fun t => t + 10, brk, none, .none, false, jobs, 0⟩, none, 0, none, ⟨[], []⟩⟩

/-- the hypotheses of `C101_converges_partial` hold for this problem and the default parameters except
`break_on_no_constraints`, and training succeeds. -/
example (N : ℕ) (hN : 0 < N) :
    twoProblem.ExactLossAug (fun x y w => (multiClassModel twoClf).lossAug x y w true) ∧
    twoProblem.Labelled (oneSamples 2) ∧ FeatBound twoProblem (oneSamples 2) 2 ∧
    Pegasos (defaultSG (1 / 8) false 1 0).cfg 10 ∧
    EvenBatches (defaultSG (1 / 8) false 1 0).cfg (oneSamples 2).length ∧
    twoProblem.IsRiskMin (1 / 8) (oneSamples 2) (antiW (1 / 8 * (2 : ℕ))) (1 / 8 * (2 : ℕ) - (1 / 8 * (2 : ℕ)) ^ 2) ∧
    ∃ o', Subgradient.fit (multiClassModel twoClf) (fun _ => oneSamples 2)
      (withMaxIter (defaultSG (1 / 8) false 1 0) N) (oneSamples 2) false = .ok o' :=
  ⟨(multiClass_exact twoClf rfl (fun _ _ => zero_le_one) true).1, two_labelled 2, two_bound 2,
    ⟨by norm_num [defaultSG], rfl, rfl, fun _ => rfl, by norm_num, rfl⟩, ⟨rfl, Or.inl rfl⟩,
    (two_min (1 / 8) (by norm_num) 2).1 (by norm_num),
    (C102_fit_succeeds _ _ _ (by decide) (fun _ => List.Perm.refl _) _ hN).2 (Or.inl ⟨rfl, Or.inl rfl⟩)⟩

/-- **C101 fails for `n_jobs = 2`.** Two equal samples, `C = 1/8`: the risk has its minimum at
`(-1/4, 1/4)`, with one job the learned weights approach it, but with two jobs they stay away from it for every
large number of passes. -/
theorem C101_violated_parallel :
    twoProblem.IsRiskMin (1 / 8) (oneSamples 2) (antiW (1 / 4)) (3 / 16) ∧
    ∃ N₀, ∀ N ≥ N₀,
      (∃ o', Subgradient.fit (multiClassModel twoClf) (fun _ => oneSamples 2)
        (defaultSG (1 / 8) false 2 N) (oneSamples 2) false = .ok o') ∧
      ∀ o', Subgradient.fit (multiClassModel twoClf) (fun _ => oneSamples 2)
        (defaultSG (1 / 8) false 2 N) (oneSamples 2) false = .ok o' →
        ∃ w, o'.w = some w ∧ 1 / 32 ≤ ∑ k ∈ range 2, (w k - antiW (1 / 4) k) ^ 2 := by
  have hmin := (two_min (1 / 8) (by norm_num) 2).1 (by norm_num)
  have e1 : (1 / 8 * ((2 : ℕ) : ℚ)) = 1 / 4 := by norm_num
  rw [e1] at hmin
  have e2 : (1 / 4 - (1 / 4) ^ 2 : ℚ) = 3 / 16 := by norm_num
  rw [e2] at hmin
  refine ⟨hmin, ?_⟩
  have hu := (two_min (1 / 4) (by norm_num) 2).2 (by norm_num)
  have hceil : ⌈((oneSamples 2).length : ℚ) / ((defaultSG (1 / 8) false 2 0).cfg.nJobs : ℚ)⌉ = 1 := by
    decide +kernel
  obtain ⟨K, hK⟩ := C101_parallel (multiClassModel twoClf) (classes 2)
    (multiClass_exact twoClf rfl (fun _ _ => zero_le_one) true).1 (oneSamples 2) (by decide) (two_labelled 2)
    2 (two_bound 2) (defaultSG (1 / 8) false 2 0) 10
    ⟨by norm_num [defaultSG], rfl, rfl, fun _ => rfl, by norm_num, rfl⟩ (Or.inl rfl) (by decide) (by decide)
    (antiW (1 / 2)) (1 / 4) (by
      rw [hceil]
      have : (defaultSG (1 / 8) false 2 0).cfg.C * ((oneSamples 2).length : ℚ) / ((1 : ℤ) : ℚ) = 1 / 4 := by
        decide +kernel
      rw [this]
      exact hu)
  obtain ⟨N₀, hN₀⟩ := exists_nat_gt (K * 32)
  refine ⟨N₀ + 1, fun N hN => ⟨?_, ?_⟩⟩
  · exact (C102_fit_succeeds _ _ _ (by decide) (fun _ => List.Perm.refl _) _ (by
      change 0 < N; omega)).2 (Or.inr ⟨(by decide : 2 ≠ 1), (by decide : 2 ≠ 0), rfl⟩)
  · intro o' h
    obtain ⟨w, hw, hd⟩ := hK (fun _ => oneSamples 2) (fun _ => List.Perm.refl _) N o' h
    refine ⟨w, hw, ?_⟩
    have hdim : (multiClassModel twoClf).dim = 2 := rfl
    rw [hdim, sum_range_succ, sum_range_one] at hd
    rw [sum_range_succ, sum_range_one]
    have a0 : antiW (1 / 2) 0 = -(1 / 2) := rfl
    have a1 : antiW (1 / 2) 1 = 1 / 2 := rfl
    have b0 : antiW (1 / 4) 0 = -(1 / 4) := rfl
    have b1 : antiW (1 / 4) 1 = 1 / 4 := rfl
    rw [a0, a1] at hd
    rw [b0, b1]
    have hNq : (N₀ : ℚ) + 1 ≤ N := by exact_mod_cast hN
    have h0 : (0 : ℚ) ≤ N₀ := by positivity
    have hsmall : (w 0 - -(1 / 2)) ^ 2 + (w 1 - 1 / 2) ^ 2 ≤ 1 / 32 := by
      by_contra hc
      push Not at hc
      have := mul_lt_mul_of_pos_left hc (by linarith : (0 : ℚ) < N)
      linarith
    nlinarith [sq_nonneg (w 0 + 3 / 8 + (w 0 + 3 / 8)), sq_nonneg (w 1 - 3 / 8)]

/-! ### stopping early -/

/-- a run whose first pass finds violated constraints and whose second pass finds none, ends after the second
pass. -/
theorem loop_two (m : SModel X Y) (cfg : Config) (lr : ℚ) (order : ℕ → List (X × Y)) (data : List (X × Y))
    (hne : data ≠ []) (hs : cfg.shuffle = false) (hb : cfg.breakOnNoConstraints = true) (st st1 st2 : St)
    (p : ℤ) (hp : p ≠ 0) (h1 : learn m cfg lr data st = .ok (st1, p))
    (h2 : learn m cfg lr data st1 = .ok (st2, 0)) (n it : ℕ) (c : Curves) :
    ∃ c', loop m cfg lr order (n + 2) it data st c = .ok (data, st2, c') := by
  unfold loop
  simp only [hs, Bool.false_eq_true, if_false]
  rw [h1]
  simp only [hp, false_and, if_false]
  rw [objectivePrimal_ok m st1.selfW data cfg.C true hne]
  simp only
  unfold loop
  simp only [hs, Bool.false_eq_true, if_false]
  rw [h2]
  simp only [hb, and_self, if_true]
  exact ⟨_, rfl⟩

/-- the first two passes over `oneSamples 1` with `C = 100`. -/
def earlySt : St := ⟨fun _ => 0, fun _ => 0, fun _ => 0, 0⟩
@[inherit_doc earlySt] def earlyStep (st : St) : St × ℤ :=
  onlineStep (multiClassModel twoClf) (defaultSG 100 true 1 0).cfg 100 1 (st, 0) (fun _ => 1, 1)

/-- **C101 fails for `break_on_no_constraints`** (the default). One sample, `C = 100`, all other parameters at
their defaults: for every `max_iter ≥ 2` training stops after two passes with weights whose risk is
`10000 / 121`, although the minimum is `1 / 4`. -/
theorem C101_violated_early_stop :
    twoProblem.IsRiskMin 100 (oneSamples 1) (antiW (1 / 2)) (1 / 4) ∧
    ∀ N ≥ 2, ∃ o', Subgradient.fit (multiClassModel twoClf) (fun _ => oneSamples 1)
      (defaultSG 100 true 1 N) (oneSamples 1) false = .ok o' ∧
      o'.curves.objective.getLast? = some (10000 / 121) := by
  refine ⟨(two_min 100 (by norm_num) 1).2 (by norm_num), ?_⟩
  intro N hN
  obtain ⟨n, rfl⟩ : ∃ n, N = n + 2 := ⟨N - 2, by omega⟩
  have hp1 : (earlyStep earlySt).2 = 1 := by decide +kernel
  have hp2 : (earlyStep (earlyStep earlySt).1).2 = 0 := by decide +kernel
  have hobj : objectivePrimal (multiClassModel twoClf) (earlyStep (earlyStep earlySt).1).1.selfW
      (oneSamples 1) 100 true = .ok (10000 / 121) := by
    rw [objectivePrimal_ok _ _ _ _ _ (by decide)]
    congr 1
    decide +kernel
  have hstep : ∀ st p, (earlyStep st).2 = p →
      learn (multiClassModel twoClf) (defaultSG 100 true 1 (n + 2)).cfg 100 (oneSamples 1) st =
        .ok ((earlyStep st).1, p) := by
    intro st p hp
    have : learn (multiClassModel twoClf) (defaultSG 100 true 1 (n + 2)).cfg 100 (oneSamples 1) st =
        .ok (earlyStep st) := rfl
    rw [this, ← hp]
  obtain ⟨c', hc'⟩ := loop_two (multiClassModel twoClf) (defaultSG 100 true 1 (n + 2)).cfg 100
    (fun _ => oneSamples 1) (oneSamples 1) (by decide) rfl rfl earlySt _ _ 1 one_ne_zero
    (hstep _ _ hp1) (hstep _ _ hp2) n 0 ⟨[], []⟩
  have hlr : Subgradient.setup (defaultSG 100 true 1 (n + 2)) (oneSamples 1).length false = .ok (100, []) := by
    have : (100 : ℚ) * ((oneSamples 1).length : ℚ) = 100 := by decide +kernel
    change Except.ok ((100 : ℚ) * ((oneSamples 1).length : ℚ), []) = _
    rw [this]
  unfold Subgradient.fit
  simp only
  rw [hlr]
  simp only
  have hc2 : loop (multiClassModel twoClf) (defaultSG 100 true 1 (n + 2)).cfg 100
      (fun _ => oneSamples 1) (defaultSG 100 true 1 (n + 2)).cfg.maxIter 0 (oneSamples 1)
      ⟨(defaultSG 100 true 1 (n + 2)).w.getD fun _ => 0, fun _ => 0,
        (defaultSG 100 true 1 (n + 2)).w.getD fun _ => 0, (defaultSG 100 true 1 (n + 2)).t⟩
      ⟨[], (defaultSG 100 true 1 (n + 2)).curves.loss⟩ = _ := hc'
  rw [hc2]
  simp only
  have hC : (defaultSG 100 true 1 (n + 2)).cfg.C = 100 := rfl
  rw [hC, hobj]
  exact ⟨_, rfl, by simp⟩

end Verif.Props
