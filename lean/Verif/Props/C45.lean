import Verif.Model.FrankWolfe
import Verif.Lemmas.Duality
import Mathlib.Data.List.Forall2

/-!
# C45, C46: Frank-Wolfe training: invariant of the blocks, monotone dual
-/

namespace Verif.Props

open Finset Verif.Spec Verif.Learner Verif.FrankWolfe

variable {X Y : Type}

theorem eps_pos : 0 < eps := by unfold eps; norm_num

theorem clip_nonneg (g : ℚ) : 0 ≤ clip g := le_max_left _ _

theorem clip_le_one (g : ℚ) : clip g ≤ 1 := max_le zero_le_one (min_le_left _ _)

/-- the clipped step never loses. -/
theorem line_search_gain (N D e : ℚ) (hD : 0 ≤ D) (he : 0 < e) :
    0 ≤ clip (N / (D + e)) * N - clip (N / (D + e)) ^ 2 * D / 2 := by
  have hDe : 0 < D + e := by linarith
  unfold clip
  rcases le_or_gt N 0 with hN | hN
  · have : N / (D + e) ≤ 0 := div_nonpos_of_nonpos_of_nonneg hN hDe.le
    rw [max_eq_left (min_le_of_right_le this)]; simp
  · rcases le_total 1 (N / (D + e)) with h1 | h1
    · rw [min_eq_left h1, max_eq_right zero_le_one]
      rw [le_div_iff₀ hDe] at h1
      linarith
    · have hnn : 0 ≤ N / (D + e) := div_nonneg hN.le hDe.le
      rw [min_eq_right h1, max_eq_right hnn]
      set γ := N / (D + e) with hγ
      have hγN : γ * (D + e) = N := div_mul_cancel₀ _ hDe.ne'
      have : γ * D ≤ N := by nlinarith
      nlinarith

/-! ### C46 -/

/-- The dual value of weights and loss term, as Frank-Wolfe training reports it:
`-½ ‖w‖² + l n C`. -/
def fwDual (d n : ℕ) (C : ℚ) (w : ℕ → ℚ) (l : ℚ) : ℚ := -(1 / 2) * (∑ k ∈ range d, w k ^ 2) + l * n * C

theorem sum_sq_eq (d : ℕ) (w : ℕ → ℚ) : ∑ k ∈ range d, w k ^ 2 = dot d w w := by
  unfold dot; apply sum_congr rfl; intro k _; ring

/-- how the dual changes along a step. -/
theorem dual_along (d : ℕ) (w v : ℕ → ℚ) (γ A l δ : ℚ) :
    -(1 / 2) * (∑ k ∈ range d, (w k - γ * v k) ^ 2) + A * (l - γ * δ) =
      -(1 / 2) * (∑ k ∈ range d, w k ^ 2) + A * l +
        (γ * (dot d v w - A * δ) - γ ^ 2 * (∑ k ∈ range d, v k ^ 2) / 2) := by
  have : ∑ k ∈ range d, (w k - γ * v k) ^ 2 =
      ∑ k ∈ range d, w k ^ 2 - 2 * γ * dot d v w + γ ^ 2 * ∑ k ∈ range d, v k ^ 2 := by
    unfold dot
    rw [mul_sum, mul_sum, ← sum_sub_distrib, ← sum_add_distrib]
    apply sum_congr rfl; intro k _; ring
  rw [this]; ring

/-- **C46, block-coordinate step.** With line search, a step on any sample in any state leaves the dual
value at least as large as before. -/
theorem C46_bc_step (m : SModel X Y) (cfg : Config) (hls : cfg.lineSearch = true)
    (samples : List (X × Y)) (st : BC) (i : ℕ) :
    fwDual m.dim samples.length cfg.C st.w st.l ≤
      fwDual m.dim samples.length cfg.C (bcStep m cfg samples st i).w
        (bcStep m cfg samples st i).l := by
  unfold bcStep
  cases hs : samples[i]? with
  | none => exact le_rfl
  | some s =>
    simp only [hls, if_true]
    set n := samples.length
    set c := findConstraint m s.1 s.2 st.w none true true
    set ws : W := fun k => c.delta k * cfg.C with hws
    set ls := c.loss / n
    set D := ∑ k ∈ range m.dim, (st.wMat i k - ws k) ^ 2 with hD
    have hgain := line_search_gain (lineNum m cfg n st i ws ls) D eps
      (sum_nonneg fun k _ => sq_nonneg _) eps_pos
    set γ := clip (lineNum m cfg n st i ws ls / (D + eps)) with hγ
    unfold fwDual
    have ew : ∀ k, st.w k - st.wMat i k + ((1 - γ) * st.wMat i k + γ * ws k) =
        st.w k - γ * (st.wMat i k - ws k) := fun k => by ring
    have el : st.l - st.lMat i + ((1 - γ) * st.lMat i + γ * ls) = st.l - γ * (st.lMat i - ls) := by ring
    have e1 : ∑ k ∈ range m.dim, (st.w k - st.wMat i k + ((1 - γ) * st.wMat i k + γ * ws k)) ^ 2 =
        ∑ k ∈ range m.dim, (st.w k - γ * (st.wMat i k - ws k)) ^ 2 := by
      apply sum_congr rfl; intro k _; rw [ew]
    rw [e1, el]
    have := dual_along m.dim st.w (fun k => st.wMat i k - ws k) γ (n * cfg.C) st.l (st.lMat i - ls)
    have hN : lineNum m cfg n st i ws ls =
        dot m.dim (fun k => st.wMat i k - ws k) st.w - n * cfg.C * (st.lMat i - ls) := by
      unfold lineNum; ring
    rw [hN] at hgain
    have c1 : (st.l - γ * (st.lMat i - ls)) * n * cfg.C =
      n * cfg.C * (st.l - γ * (st.lMat i - ls)) := by ring
    have c2 : st.l * n * cfg.C = n * cfg.C * st.l := by ring
    rw [c1, c2, this]
    linarith

/-- **C46, batch step.** With line search a batch step from any state leaves the dual value at least as
large as before. -/
theorem C46_batch_step (m : SModel X Y) (cfg : Config) (hls : cfg.lineSearch = true) (hC : 0 < cfg.C)
    (samples : List (X × Y)) (hne : samples ≠ []) (it : ℕ) (w : W) (l : ℚ) :
    fwDual m.dim samples.length cfg.C w l ≤
      fwDual m.dim samples.length cfg.C (FrankWolfe.batchStep m cfg samples it w l).2.1
        (FrankWolfe.batchStep m cfg samples it w l).2.2 := by
  have hn : (0 : ℚ) < samples.length := by
    have := List.length_pos_of_ne_nil hne; exact_mod_cast this
  unfold FrankWolfe.batchStep
  simp only [hls, if_true]
  set n : ℚ := (samples.length : ℚ)
  set ls := batchLossSum m samples w / n
  set ws : W := fun k => batchDelta m samples w k * cfg.C
  set D := ∑ k ∈ range m.dim, (w k - ws k) ^ 2
  have hCn : 0 < cfg.C * n := mul_pos hC hn
  set G := 1 / (cfg.C * n) * dot m.dim (fun k => w k - ws k) w - l + ls with hG
  have hgain := line_search_gain G (D / (cfg.C * n)) eps
    (div_nonneg (sum_nonneg fun k _ => sq_nonneg _) hCn.le) eps_pos
  set γ := clip (G / (D / (cfg.C * n) + eps))
  unfold fwDual
  have e1 : ∑ k ∈ range m.dim, ((1 - γ) * w k + γ * ws k) ^ 2 =
      ∑ k ∈ range m.dim, (w k - γ * (w k - ws k)) ^ 2 := by
    apply sum_congr rfl; intro k _; ring
  have := dual_along m.dim w (fun k => w k - ws k) γ (n * cfg.C) l (l - ls)
  rw [e1]
  have c1 : ((1 - γ) * l + γ * ls) * n * cfg.C = n * cfg.C * (l - γ * (l - ls)) := by ring
  have c2 : l * n * cfg.C = n * cfg.C * l := by ring
  rw [c1, c2, this]
  have hmul := mul_nonneg hCn.le hgain
  have e2 : cfg.C * n * (γ * G - γ ^ 2 * (D / (cfg.C * n)) / 2) =
      γ * (dot m.dim (fun k => w k - ws k) w - n * cfg.C * (l - ls)) - γ ^ 2 * D / 2 := by
    rw [hG]; field_simp; ring
  rw [e2] at hmul
  linarith

/-- Orders of visits that a pass can take: every sample index is valid and a pass has as many visits as
there are samples. -/
def ValidOrder (n : ℕ) (order : ℕ → List ℕ) : Prop :=
  ∀ it, (order it).length = n ∧ ∀ i ∈ order it, i < n

theorem bcStep_plain (m : SModel X Y) (cfg : Config) (ha : cfg.averaging = false)
    (samples : List (X × Y)) (st : BC) (i : ℕ) (hi : i < samples.length) :
    (bcStep m cfg samples st i).selfW = (bcStep m cfg samples st i).w ∧
    (bcStep m cfg samples st i).selfL = (bcStep m cfg samples st i).l := by
  unfold bcStep
  rw [List.getElem?_eq_getElem hi]
  simp [ha]

theorem bcFold_plain (m : SModel X Y) (cfg : Config) (hls : cfg.lineSearch = true)
    (ha : cfg.averaging = false) (samples : List (X × Y)) (l : List ℕ)
    (hl : ∀ i ∈ l, i < samples.length) (st : BC) :
    fwDual m.dim samples.length cfg.C st.w st.l ≤
      fwDual m.dim samples.length cfg.C (l.foldl (bcStep m cfg samples) st).w
        (l.foldl (bcStep m cfg samples) st).l ∧
    (l ≠ [] → (l.foldl (bcStep m cfg samples) st).selfW = (l.foldl (bcStep m cfg samples) st).w ∧
      (l.foldl (bcStep m cfg samples) st).selfL = (l.foldl (bcStep m cfg samples) st).l) := by
  induction l generalizing st with
  | nil => exact ⟨le_rfl, fun h => absurd rfl h⟩
  | cons i l ih =>
    rw [List.foldl_cons]
    obtain ⟨i1, i2⟩ := ih (fun j hj => hl j (List.mem_cons_of_mem _ hj)) (bcStep m cfg samples st i)
    refine ⟨(C46_bc_step m cfg hls samples st i).trans i1, fun _ => ?_⟩
    cases l with
    | nil => exact bcStep_plain m cfg ha samples st i (hl i List.mem_cons_self)
    | cons j l => exact i2 (by simp)

theorem calcDualGap_dual {m : SModel X Y} {C : ℚ} {samples : List (X × Y)} {w : W} {l d g p : ℚ}
    (h : calcDualGap m C samples w l = .ok (d, g, p)) :
    d = fwDual m.dim samples.length C w l ∧ p = d + g := by
  unfold calcDualGap at h
  split at h
  · cases h
  · simp only at h
    injection h with h
    simp only [Prod.mk.injEq] at h
    obtain ⟨h1, h2, h3⟩ := h
    subst h1; subst h2; subst h3
    exact ⟨rfl, rfl⟩

theorem bcLoop_monotone (m : SModel X Y) (cfg : Config) (hls : cfg.lineSearch = true)
    (ha : cfg.averaging = false) (order : ℕ → List ℕ) (samples : List (X × Y)) (hne : samples ≠ [])
    (ho : ValidOrder samples.length order) (n it : ℕ) (st : BC) (gap : Option ℚ) (c : Curves)
    (h1 : c.dual.Pairwise (· ≤ ·))
    (h2 : ∀ d ∈ c.dual, d ≤ fwDual m.dim samples.length cfg.C st.w st.l)
    (st' : BC) (c' : Curves) (h : bcLoop m cfg order samples n it st gap c = .ok (st', c')) :
    c'.dual.Pairwise (· ≤ ·) := by
  induction n generalizing it st gap c with
  | zero =>
    unfold bcLoop at h
    injection h with h
    simp only [Prod.mk.injEq] at h
    rw [← h.2]; exact h1
  | succ n ih =>
    obtain ⟨ho1, ho2⟩ := ho it
    obtain ⟨f1, f2⟩ := bcFold_plain m cfg hls ha samples (order it) ho2 st
    have hnil : order it ≠ [] := by
      intro h0; rw [h0, List.length_nil] at ho1
      exact hne (List.length_eq_zero_iff.mp ho1.symm)
    obtain ⟨f3, f4⟩ := f2 hnil
    unfold bcLoop at h
    simp only at h
    have h2' := fun d hd => (h2 d hd).trans f1
    split at h
    · cases hg : calcDualGap m cfg.C samples ((order it).foldl (bcStep m cfg samples) st).selfW
        ((order it).foldl (bcStep m cfg samples) st).selfL with
      | error err => rw [hg] at h; cases h
      | ok r =>
        obtain ⟨d, g, p⟩ := r
        rw [hg] at h
        simp only at h
        have hd := (calcDualGap_dual hg).1
        rw [f3, f4] at hd
        have hp : (c.dual ++ [d]).Pairwise (· ≤ ·) := by
          rw [List.pairwise_append]
          refine ⟨h1, List.pairwise_singleton _ _, ?_⟩
          intro a ha b hb
          rw [List.mem_singleton] at hb
          rw [hb, hd]; exact h2' a ha
        split at h
        · injection h with h
          simp only [Prod.mk.injEq] at h
          rw [← h.2]; exact hp
        · refine ih (it + 1) _ _ _ hp ?_ h
          intro a ha
          simp only at ha
          rcases List.mem_append.mp ha with ha | ha
          · exact h2' a ha
          · rw [List.mem_singleton] at ha; rw [ha, hd]
    · cases gap with
      | none => cases h
      | some g =>
        simp only at h
        split at h
        · injection h with h
          simp only [Prod.mk.injEq] at h
          rw [← h.2]; exact h1
        · exact ih (it + 1) _ _ _ h1 h2' h

theorem batchLoop_monotone (m : SModel X Y) (cfg : Config) (hls : cfg.lineSearch = true)
    (hC : 0 < cfg.C) (samples : List (X × Y)) (hne : samples ≠ []) (n it : ℕ) (w : W) (l : ℚ)
    (c : Curves) (h1 : c.dual.Pairwise (· ≤ ·))
    (h2 : ∀ d ∈ c.dual, d ≤ fwDual m.dim samples.length cfg.C w l) :
    (batchLoop m cfg samples n it w l c).2.dual.Pairwise (· ≤ ·) := by
  induction n generalizing it w l c with
  | zero => exact h1
  | succ n ih =>
    have hd : (FrankWolfe.batchStep m cfg samples it w l).1.1 =
        fwDual m.dim samples.length cfg.C w l := by
      unfold FrankWolfe.batchStep fwDual; simp only; ring
    have hp : (c.dual ++ [(FrankWolfe.batchStep m cfg samples it w l).1.1]).Pairwise (· ≤ ·) := by
      rw [List.pairwise_append]
      refine ⟨h1, List.pairwise_singleton _ _, ?_⟩
      intro a ha b hb
      rw [List.mem_singleton] at hb
      rw [hb, hd]; exact h2 a ha
    have hstep := C46_batch_step m cfg hls hC samples hne it w l
    unfold batchLoop
    simp only
    split
    · exact hp
    · apply ih _ _ _ _ hp
      intro a ha
      simp only at ha
      rcases List.mem_append.mp ha with ha | ha
      · exact (h2 a ha).trans hstep
      · rw [List.mem_singleton] at ha; rw [ha, hd]; exact hstep

/-- **C46, curve.** With line search (and without averaging, in block-coordinate mode) the dual objective
curve recorded by `fit` never decreases, for any learner, fresh or fitted before, any data and any order
of visits. -/
theorem C46_dual_curve (m : SModel X Y) (order : ℕ → List ℕ) (o o' : FrankWolfe.Obj)
    (samples : List (X × Y)) (hls : o.cfg.lineSearch = true) (hC : 0 < o.cfg.C)
    (ha : o.cfg.batchMode = true ∨ o.cfg.averaging = false)
    (ho : ValidOrder samples.length order) (hfit : FrankWolfe.fit m order o samples = .ok o') :
    o'.curves.dual.Pairwise (· ≤ ·) := by
  have hne : samples ≠ [] := by
    intro h0
    subst h0
    unfold FrankWolfe.fit at hfit
    simp only at hfit
    split at hfit
    · cases hfit
    · split at hfit
      · cases hfit
      · rename_i h
        unfold objectivePrimal at h
        simp at h
  have fin : ∀ (c : Curves) (d : ℚ), c.dual.Pairwise (· ≤ ·) → c.dual.getLast? = some d →
      (c.dual ++ [d]).Pairwise (· ≤ ·) := by
    intro c d hp hd
    obtain ⟨ds, hds⟩ := List.getLast?_eq_some_iff.mp hd
    rw [hds] at hp ⊢
    rw [List.pairwise_append] at hp ⊢
    refine ⟨?_, List.pairwise_singleton _ _, ?_⟩
    · rw [List.pairwise_append]; exact hp
    · intro a ha b hb
      rw [List.mem_singleton] at hb
      rw [hb]
      rcases List.mem_append.mp ha with ha | ha
      · exact hp.2.2 a ha d (List.mem_singleton_self d)
      · rw [List.mem_singleton] at ha; rw [ha]
  unfold FrankWolfe.fit at hfit
  simp only at hfit
  split at hfit
  · cases hfit
  · rename_i w l c hrun
    split at hfit
    · cases hfit
    · split at hfit
      · cases hfit
      · rename_i d hlast
        injection hfit with hfit
        rw [← hfit]
        simp only
        refine fin c d ?_ hlast
        split at hrun
        · split at hrun
          · cases hrun
          · injection hrun with hrun
            simp only [Prod.mk.injEq] at hrun
            rw [← hrun.2.2]
            exact batchLoop_monotone m o.cfg hls hC samples hne _ _ _ _ _ List.Pairwise.nil (by simp)
        · rename_i hb
          split at hrun
          · cases hrun
          · rename_i st c' hloop
            injection hrun with hrun
            simp only [Prod.mk.injEq] at hrun
            rw [← hrun.2.2]
            exact bcLoop_monotone m o.cfg hls (ha.resolve_left hb) order samples hne ho _ _ _ _ _
              List.Pairwise.nil (by simp) st c' hloop

/-! ### C45 -/

/-- The invariant of block-coordinate training, in terms of the problem: `w` and `l` are the sums of the
per-sample blocks, and every block is `C` times the mean joint-feature difference (`1/n` times the mean
loss) of a probability distribution over the outputs of its sample. -/
structure BlockSums (P : Problem X Y) (C : ℚ) (samples : List (X × Y)) (w : ℕ → ℚ) (l : ℚ)
    (wMat : ℕ → ℕ → ℚ) (lMat : ℕ → ℚ) : Prop where
  w_eq : ∀ k, w k = ∑ i ∈ range samples.length, wMat i k
  l_eq : l = ∑ i ∈ range samples.length, lMat i
  block : ∀ i (h : i < samples.length), ∃ a b, P.Mix samples[i].1 samples[i].2 a b ∧
    (∀ k < P.dim, wMat i k = C * a k) ∧ lMat i = b / samples.length

/-- Loss-augmented inference answers with admissible outputs (nothing else is asked of it). -/
def Admissible (m : SModel X Y) (outputs : X → Set Y) : Prop :=
  ∀ x y w, y ∈ outputs x → m.lossOf y y = 0 → m.lossAug x y w true ∈ outputs x

theorem step_gamma (m : SModel X Y) (cfg : Config) (st : BC) (n i : ℕ) (hn : 0 < n) (ws : W) (ls D : ℚ) :
    0 ≤ (if cfg.lineSearch then clip (lineNum m cfg n st i ws ls / (D + eps))
      else 2 * (n : ℚ) / (st.k + 2 * n)) ∧
    (if cfg.lineSearch then clip (lineNum m cfg n st i ws ls / (D + eps))
      else 2 * (n : ℚ) / (st.k + 2 * n)) ≤ 1 := by
  split
  · exact ⟨clip_nonneg _, clip_le_one _⟩
  · have h1 : (0 : ℚ) < n := by exact_mod_cast hn
    have h2 : (0 : ℚ) ≤ st.k := Nat.cast_nonneg _
    constructor
    · positivity
    · rw [div_le_one (by positivity)]; linarith

theorem sum_update (n i : ℕ) (hi : i < n) (f : ℕ → ℚ) (v : ℚ) :
    ∑ j ∈ range n, (Function.update f i v) j = ∑ j ∈ range n, f j - f i + v := by
  rw [sum_update_of_mem (mem_range.mpr hi), sdiff_singleton_eq_erase,
    ← sum_erase_add (range n) f (mem_range.mpr hi)]
  ring

theorem bcStep_blocks (m : SModel X Y) (outputs : X → Set Y) (cfg : Config) (samples : List (X × Y))
    (hadm : Admissible m outputs) (hl : (problemOf m outputs).Labelled samples)
    (st : BC) (i : ℕ) (hi : i < samples.length)
    (h : BlockSums (problemOf m outputs) cfg.C samples st.w st.l st.wMat st.lMat) :
    BlockSums (problemOf m outputs) cfg.C samples (bcStep m cfg samples st i).w
      (bcStep m cfg samples st i).l (bcStep m cfg samples st i).wMat
      (bcStep m cfg samples st i).lMat := by
  obtain ⟨h1, h2, h3⟩ := h
  have hnpos : 0 < samples.length := by omega
  unfold bcStep
  rw [List.getElem?_eq_getElem hi]
  simp only
  set n := samples.length
  set x := samples[i].1
  set y := samples[i].2
  set c := findConstraint m x y st.w none true true with hc
  set ws : W := fun k => c.delta k * cfg.C with hws
  set ls := c.loss / (n : ℚ) with hls
  obtain ⟨hγ0, hγ1⟩ := step_gamma m cfg st n i hnpos ws ls
    (∑ k ∈ range m.dim, (st.wMat i k - ws k) ^ 2)
  set γ := (if cfg.lineSearch then
    clip (lineNum m cfg n st i ws ls / ((∑ k ∈ range m.dim, (st.wMat i k - ws k) ^ 2) + eps))
      else 2 * (n : ℚ) / (st.k + 2 * n)) with hγ
  constructor
  · intro k
    have := sum_update n i hi (fun j => st.wMat j k) ((1 - γ) * st.wMat i k + γ * ws k)
    rw [h1 k]
    rw [← this]
    apply sum_congr rfl
    intro j _
    by_cases hj : j = i
    · subst hj; rw [Function.update_self, Function.update_self]
    · rw [Function.update_of_ne hj, Function.update_of_ne hj]
  · rw [sum_update n i hi st.lMat, h2]
  · intro j hj
    by_cases hji : j = i
    · subst hji
      obtain ⟨a, b, hm, ha, hb⟩ := h3 j hj
      obtain ⟨hy, h0⟩ := hl samples[j] (List.getElem_mem hj)
      have hyh : c.yhat ∈ outputs x := hadm x y st.w hy h0
      have hm' := mix_single (problemOf m outputs) (x := x) (y := y) (ŷ := c.yhat) hyh
      refine ⟨_, _, mix_convex hm hm' hγ0 hγ1, ?_, ?_⟩
      · intro k hk
        rw [Function.update_self, ha k hk]
        have : c.delta k = (problemOf m outputs).feat x y y k -
            (problemOf m outputs).feat x c.yhat y k := by
          change -m.feat x c.yhat y k + m.feat x y y k = m.feat x y y k - m.feat x c.yhat y k
          ring
        rw [this]; ring
      · rw [Function.update_self, hb, hls]
        have : c.loss = (problemOf m outputs).loss y c.yhat := rfl
        rw [this]
        ring
    · obtain ⟨a, b, hm, ha, hb⟩ := h3 j hj
      refine ⟨a, b, hm, ?_, ?_⟩
      · intro k hk; rw [Function.update_of_ne hji]; exact ha k hk
      · rw [Function.update_of_ne hji]; exact hb

theorem bcStart_blocks (m : SModel X Y) (outputs : X → Set Y) (C : ℚ) (samples : List (X × Y))
    (hl : (problemOf m outputs).Labelled samples) (l0 : ℚ) :
    BlockSums (problemOf m outputs) C samples (bcStart (fun _ => 0) l0).w
      (bcStart (fun _ => 0) l0).l (bcStart (fun _ => 0) l0).wMat
      (bcStart (fun _ => 0) l0).lMat := by
  constructor
  · intro k; simp [bcStart]
  · simp [bcStart]
  · intro i hi
    obtain ⟨h1, h2⟩ := hl samples[i] (List.getElem_mem hi)
    exact ⟨_, _, mix_true (problemOf m outputs) h1 h2, fun k _ => by simp [bcStart], by simp [bcStart]⟩

/-- **C45.** Started from zero weights, after any sequence of visits of samples, whatever step sizes
were used and whatever loss-augmented inference answered, the weights and the loss term are the sums of
the per-sample blocks, and every block is a scaled convex combination of joint-feature differences (of
losses) of outputs of its sample. -/
theorem C45_block_sums (m : SModel X Y) (outputs : X → Set Y) (cfg : Config) (samples : List (X × Y))
    (hadm : Admissible m outputs) (hl : (problemOf m outputs).Labelled samples) (l0 : ℚ)
    (visits : List ℕ) (hv : ∀ i ∈ visits, i < samples.length) :
    let st := visits.foldl (bcStep m cfg samples) (bcStart (fun _ => 0) l0)
    BlockSums (problemOf m outputs) cfg.C samples st.w st.l st.wMat st.lMat := by
  intro st
  have : ∀ (visits : List ℕ), (∀ i ∈ visits, i < samples.length) → ∀ st0 : BC,
      BlockSums (problemOf m outputs) cfg.C samples st0.w st0.l st0.wMat st0.lMat →
      BlockSums (problemOf m outputs) cfg.C samples
        (visits.foldl (bcStep m cfg samples) st0).w (visits.foldl (bcStep m cfg samples) st0).l
        (visits.foldl (bcStep m cfg samples) st0).wMat
        (visits.foldl (bcStep m cfg samples) st0).lMat := by
    intro visits
    induction visits with
    | nil => intro _ st0 h; exact h
    | cons i l ih =>
      intro hv st0 h
      rw [List.foldl_cons]
      exact ih (fun j hj => hv j (List.mem_cons_of_mem _ hj)) _
        (bcStep_blocks m outputs cfg samples hadm hl st0 i (hv i List.mem_cons_self) h)
  exact this visits hv _ (bcStart_blocks m outputs cfg.C samples hl l0)

theorem sum_list_range (n : ℕ) (f : ℕ → ℚ) : ((List.range n).map f).sum = ∑ i ∈ range n, f i := by
  induction n with
  | zero => simp
  | succ n ih =>
    rw [List.range_succ, List.map_append, List.sum_append, ih, sum_range_succ]
    simp

/-- block sums are dual points. -/
theorem blockSums_dualPoint {P : Problem X Y} {C : ℚ} {samples : List (X × Y)} {w : ℕ → ℚ} {l : ℚ}
    {wMat : ℕ → ℕ → ℚ} {lMat : ℕ → ℚ} (h : BlockSums P C samples w l wMat lMat)
    (hne : samples ≠ []) : P.DualPoint C samples w (samples.length * l) := by
  obtain ⟨h1, h2, h3⟩ := h
  have hn : (samples.length : ℚ) ≠ 0 := by
    have := List.length_pos_of_ne_nil hne; exact_mod_cast this.ne'
  choose! a b hm ha hb using h3
  refine ⟨(List.range samples.length).map fun i => (a i, b i), ?_, ?_, ?_⟩
  · rw [List.forall₂_iff_get]
    refine ⟨by simp, ?_⟩
    intro i hi1 hi2
    simpa using hm i hi1
  · intro k hk
    rw [h1 k, List.map_map]
    have : (List.map ((fun p : (ℕ → ℚ) × ℚ => p.1 k) ∘ fun i => (a i, b i))
        (List.range samples.length)).sum = ∑ i ∈ range samples.length, a i k :=
      (sum_list_range samples.length (fun i => a i k))
    rw [this, mul_sum]
    apply sum_congr rfl
    intro i hi
    exact ha i (mem_range.mp hi) k hk
  · rw [h2, List.map_map]
    have : (List.map (Prod.snd ∘ fun i => (a i, b i)) (List.range samples.length)).sum =
        ∑ i ∈ range samples.length, b i := sum_list_range samples.length b
    rw [this, mul_sum]
    apply sum_congr rfl
    intro i hi
    rw [hb i (mem_range.mp hi), mul_div_cancel₀ _ hn]

end Verif.Props
