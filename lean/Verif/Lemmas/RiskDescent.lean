import Verif.Props.C48
import Verif.Lemmas.Descent

/-!
# Subgradient descent on the structured risk approaches its minimum
-/

namespace Verif.Props

open Finset Verif.Spec Verif.Learner Verif.Subgradient Verif.Descent

variable {X Y : Type}

open Classical in
/-- the hinge loss of a sample as a function of the weights (0 where there is none). -/
noncomputable def hingeOf (P : Problem X Y) (s : X × Y) (w : W) : ℚ :=
  if h : ∃ v, P.IsHinge w s.1 s.2 v then h.choose else 0

theorem hingeOf_spec (P : Problem X Y) (s : X × Y) (w : W) (h : ∃ v, P.IsHinge w s.1 s.2 v) :
    P.IsHinge w s.1 s.2 (hingeOf P s w) := by
  unfold hingeOf
  rw [dif_pos h]
  exact h.choose_spec

/-- The sum of the hinge losses of a block. -/
noncomputable def hingeSum (P : Problem X Y) (b : List (X × Y)) (w : W) : ℚ :=
  (b.map fun s => hingeOf P s w).sum

/-- Squared length of the feature differences. -/
def FeatBound (P : Problem X Y) (samples : List (X × Y)) (Q : ℚ) : Prop :=
  ∀ s ∈ samples, ∀ ŷ ∈ P.outputs s.1,
    ∑ k ∈ range P.dim, (P.feat s.1 s.2 s.2 k - P.feat s.1 ŷ s.2 k) ^ 2 ≤ Q

theorem hinge_slope (P : Problem X Y) (s : X × Y) (hex : ∀ w, ∃ v, P.IsHinge w s.1 s.2 v) (Q : ℚ)
    (hQ : ∀ ŷ ∈ P.outputs s.1, ∑ k ∈ range P.dim, (P.feat s.1 s.2 s.2 k - P.feat s.1 ŷ s.2 k) ^ 2 ≤ Q) :
    HasSlope P.dim Q (hingeOf P s) := by
  intro w
  have h1 := hingeOf_spec P s w (hex w)
  obtain ⟨ŷ, hy, he⟩ := h1.1
  refine ⟨fun k => P.feat s.1 ŷ s.2 k - P.feat s.1 s.2 s.2 k, ?_, ?_⟩
  · refine le_trans (le_of_eq ?_) (hQ ŷ hy)
    unfold vdot
    exact sum_congr rfl fun k _ => by ring
  · intro w'
    have h2 := (hingeOf_spec P s w' (hex w')).2 ⟨ŷ, hy, rfl⟩
    rw [violation_affine P w w'] at h2
    rw [he]
    refine le_trans (le_of_eq ?_) h2
    unfold vdot diff
    rw [sub_eq_add_neg, ← sum_neg_distrib]
    congr 1
    exact sum_congr rfl fun k _ => by ring

theorem hingeSum_slope (P : Problem X Y) (b : List (X × Y))
    (hex : ∀ s ∈ b, ∀ w, ∃ v, P.IsHinge w s.1 s.2 v) (Q : ℚ) (hQ : FeatBound P b Q) (c : ℚ) (hc : 0 ≤ c) :
    HasSlope P.dim (c ^ 2 * ((b.length : ℚ) ^ 2 * Q)) (fun w => c * hingeSum P b w) :=
  (HasSlope.list_sum (hingeOf P) b fun s hs => hinge_slope P s (hex s hs) Q (hQ s hs)).smul c hc

theorem isObjective_iff (P : Problem X Y) (b : List (X × Y))
    (hex : ∀ s ∈ b, ∀ w, ∃ v, P.IsHinge w s.1 s.2 v) (c : ℚ) (w : W) (a : ℚ) :
    P.IsObjective c b w a ↔ a = reg P.dim (fun w => c * hingeSum P b w) w := by
  unfold Problem.IsObjective reg hingeSum vdot
  constructor
  · rintro ⟨hs, h1, rfl⟩
    have : hs = b.map fun s => hingeOf P s w := by
      clear hex
      induction h1 with
      | nil => rfl
      | cons h _ ih =>
        rw [List.map_cons, ← ih]
        congr 1
        exact h.unique (hingeOf_spec P _ w ⟨_, h⟩)
    rw [this]
  · rintro rfl
    refine ⟨_, ?_, rfl⟩
    rw [List.forall₂_map_right_iff, List.forall₂_same]
    intro s hs
    exact hingeOf_spec P s w (hex s hs w)

theorem isSubgradient_sub (P : Problem X Y) (b : List (X × Y))
    (hex : ∀ s ∈ b, ∀ w, ∃ v, P.IsHinge w s.1 s.2 v) (c : ℚ) (w g : W) (h : P.IsSubgradient c b w g) :
    Sub P.dim (reg P.dim (fun w => c * hingeSum P b w)) w g := by
  intro w'
  exact h.2 w' _ _ ((isObjective_iff P b hex c w _).2 rfl) ((isObjective_iff P b hex c w' _).2 rfl)

/-- indexing into the concatenation of lists of equal length. -/
theorem flatten_getD {α : Type} (d : α) (m : ℕ) (L : List (List α)) (h : ∀ l ∈ L, l.length = m) (p i : ℕ)
    (hp : p < L.length) (hi : i < m) : L.flatten.getD (p * m + i) d = (L.getD p []).getD i d := by
  induction L generalizing p with
  | nil => simp at hp
  | cons a L ih =>
    have ha : a.length = m := h a (by simp)
    rw [List.flatten_cons]
    cases p with
    | zero =>
      rw [Nat.zero_mul, Nat.zero_add, List.getD_append _ _ _ _ (by omega)]
      rfl
    | succ p =>
      have e : (p + 1) * m + i = m + (p * m + i) := by ring
      rw [e, List.getD_append_right _ _ _ _ (by omega), ha]
      have : m + (p * m + i) - m = p * m + i := by omega
      rw [this, ih (fun l hl => h l (by simp [hl])) p (by simpa using hp)]
      rfl

theorem sum_getD {α : Type} (d : α) (f : α → ℚ) (l : List α) :
    ∑ i ∈ range l.length, f (l.getD i d) = (l.map f).sum := by
  induction l with
  | nil => rfl
  | cons a l ih =>
    rw [List.length_cons, sum_range_succ', List.map_cons, List.sum_cons, ← ih, add_comm]
    rfl

theorem flatten_length {α : Type} (m : ℕ) (L : List (List α)) (h : ∀ l ∈ L, l.length = m) :
    L.flatten.length = L.length * m := by
  induction L with
  | nil => simp
  | cons a L ih =>
    rw [List.flatten_cons, List.length_append, h a (by simp), ih (fun l hl => h l (by simp [hl])),
      List.length_cons]
    ring

theorem hingeSum_flatten (P : Problem X Y) (p : List (List (X × Y))) (w : W) :
    (p.map fun b => hingeSum P b w).sum = hingeSum P p.flatten w := by
  induction p with
  | nil => rfl
  | cons b p ih =>
    rw [List.map_cons, List.sum_cons, ih, List.flatten_cons]
    unfold hingeSum
    rw [List.map_append, List.sum_append]

theorem HasSlope.mono {N : ℕ} {M M' : ℚ} {φ : (ℕ → ℚ) → ℚ} (h : HasSlope N M φ) (hM : M ≤ M') :
    HasSlope N M' φ := by
  intro w
  obtain ⟨e, h1, h2⟩ := h w
  exact ⟨e, h1.trans hM, h2⟩

/-- Subgradient descent without momentum and with step lengths `1 / (τ + t)`, in passes over all samples of
`m` equally weighted blocks each, approaches the minimum of the structured risk with constant
`c0 / m`. -/
theorem descent_converges (P : Problem X Y) (samples : List (X × Y))
    (hex : ∀ s ∈ samples, ∀ w, ∃ v, P.IsHinge w s.1 s.2 v) (Q : ℚ) (hQ0 : 0 ≤ Q)
    (hQ : FeatBound P samples Q)
    (c : List (X × Y) → ℚ) (c0 : ℚ) (hc0 : 0 ≤ c0) (m : ℕ) (hm : 0 < m) (passes : List (List (List (X × Y))))
    (hp : ∀ p ∈ passes, p.flatten.Perm samples ∧ p.length = m ∧ ∀ b ∈ p, c b = c0)
    (τ : ℚ) (hτ : 1 ≤ τ) (ws : ℕ → W)
    (hd : P.IsDescent c 0 (fun t => 1 / (τ + t)) passes.flatten ws)
    (M : ℚ) (hM : c0 ^ 2 * ((samples.length : ℚ) ^ 2 * Q) ≤ M) (hw0 : vdot P.dim (ws 0) (ws 0) ≤ M)
    (u : W) (a : ℚ) (hu : P.IsObjective (c0 / m) samples u a)
    (hmin : ∀ w b, P.IsObjective (c0 / m) samples w b → a ≤ b) (t : ℕ) (ht : t ≤ passes.length * m) :
    (τ + t) * dist2 P.dim (ws t) u ≤ rate m M τ (dist2 P.dim (ws 0) u) (vdot P.dim u u) := by
  have hlen := flatten_length m passes fun l hl => (hp l hl).2.1
  obtain ⟨gs, vs, -, hstep⟩ := hd
  have hmem : ∀ b ∈ passes.flatten, ∀ s ∈ b, s ∈ samples := by
    intro b hb s hs
    obtain ⟨p, hpp, hbp⟩ := List.mem_flatten.mp hb
    exact (hp p hpp).1.mem_iff.mp (List.mem_flatten.mpr ⟨b, hbp, hs⟩)
  have hblen : ∀ b ∈ passes.flatten, b.length ≤ samples.length := by
    intro b hb
    obtain ⟨p, hpp, hbp⟩ := List.mem_flatten.mp hb
    rw [← (hp p hpp).1.length_eq]
    exact List.Sublist.length_le (List.sublist_flatten_of_mem hbp)
  have hcb : ∀ b ∈ passes.flatten, c b = c0 := by
    intro b hb
    obtain ⟨p, hpp, hbp⟩ := List.mem_flatten.mp hb
    exact (hp p hpp).2.2 b hbp
  set φ : ℕ → W → ℚ := fun t w => c0 * hingeSum P (passes.flatten.getD t []) w with hφ
  set ψ : W → ℚ := fun w => c0 / m * hingeSum P samples w with hψ
  have hget : ∀ t (h : t < passes.flatten.length), passes.flatten.getD t [] = passes.flatten[t] :=
    fun t h => List.getD_eq_getElem _ _ h
  refine run_dist_step φ ψ M ((c0 / m) ^ 2 * ((samples.length : ℚ) ^ 2 * Q)) m passes.length hm ?_ ?_ ?_ ws
    gs τ hτ ?_ ?_ hw0 u ?_ t ht
  · intro t ht
    have ht' : t < passes.flatten.length := by omega
    have hb := List.getElem_mem ht'
    have := hingeSum_slope P (passes.flatten.getD t []) (by
      rw [hget t ht']; exact fun s hs => hex s (hmem _ hb s hs)) Q (by
      rw [hget t ht']; exact fun s hs => hQ s (hmem _ hb s hs)) c0 hc0
    refine HasSlope.mono this (le_trans ?_ hM)
    refine mul_le_mul_of_nonneg_left (mul_le_mul_of_nonneg_right ?_ hQ0) (sq_nonneg c0)
    have h1 : ((passes.flatten.getD t []).length : ℚ) ≤ samples.length := by
      rw [hget t ht']; exact_mod_cast hblen _ hb
    exact pow_le_pow_left₀ (by positivity) h1 2
  · exact hingeSum_slope P samples hex Q hQ _ (by positivity)
  · intro p hpl x
    have hpm : passes.getD p [] ∈ passes := by
      rw [List.getD_eq_getElem _ _ hpl]; exact List.getElem_mem hpl
    obtain ⟨h1, h2, -⟩ := hp _ hpm
    have hmq : (m : ℚ) ≠ 0 := by exact_mod_cast hm.ne'
    have e : ∀ i ∈ range m, reg P.dim (φ (p * m + i)) x =
        vdot P.dim x x / 2 + c0 * hingeSum P ((passes.getD p []).getD i []) x := by
      intro i hi
      unfold reg
      simp only [hφ]
      rw [flatten_getD [] m passes (fun l hl => (hp l hl).2.1) p i hpl (mem_range.mp hi)]
    rw [sum_congr rfl e, sum_add_distrib, sum_const, card_range, ← mul_sum]
    have e2 := sum_getD ([] : List (X × Y)) (fun b => hingeSum P b x) (passes.getD p [])
    rw [h2, hingeSum_flatten] at e2
    have e3 : hingeSum P (passes.getD p []).flatten x = hingeSum P samples x := by
      unfold hingeSum; exact (h1.map _).sum_eq
    rw [e2, e3]
    simp only [hψ, reg, nsmul_eq_mul]
    field_simp
  · intro t ht
    have ht' : t < passes.flatten.length := by omega
    have hb := List.getElem_mem ht'
    have h1 := (hstep t ht').1
    rw [hcb _ hb] at h1
    have := isSubgradient_sub P passes.flatten[t] (fun s hs => hex s (hmem _ hb s hs)) c0 _ _ h1
    simp only [hφ]
    rw [hget t ht']
    exact this
  · intro t ht k _
    have ht' : t < passes.flatten.length := by omega
    obtain ⟨h1, h2⟩ := (hstep t ht').2 k
    rw [h2, h1]
    ring
  · intro x
    rw [isObjective_iff P samples hex] at hu
    have := hmin x _ ((isObjective_iff P samples hex _ x _).2 rfl)
    rw [hu] at this
    exact this

/-- The objective close to the minimum. -/
theorem objective_gap (P : Problem X Y) (samples : List (X × Y))
    (hex : ∀ s ∈ samples, ∀ w, ∃ v, P.IsHinge w s.1 s.2 v) (Q : ℚ) (hQ : FeatBound P samples Q)
    (C : ℚ) (hC : 0 ≤ C) (u w : W) (a b : ℚ) (hu : P.IsObjective C samples u a)
    (hmin : ∀ w b, P.IsObjective C samples w b → a ≤ b) (hw : P.IsObjective C samples w b) :
    (b - a) ^ 2 ≤ 2 * dist2 P.dim w u ^ 2 +
      (4 * vdot P.dim u u + 4 * (C ^ 2 * ((samples.length : ℚ) ^ 2 * Q))) * dist2 P.dim w u := by
  have hle := hmin w b hw
  rw [isObjective_iff P samples hex] at hu hw
  set ψ : W → ℚ := fun w => C * hingeSum P samples w with hψ
  obtain ⟨e, he1, he2⟩ := hingeSum_slope P samples hex Q hQ C hC w
  have h1 := he2 u
  set d := dist2 P.dim w u with hd
  have hd0 : 0 ≤ d := dist2_nonneg _ _
  have e1 : vdot P.dim e (diff u w) = -vdot P.dim e (diff w u) := by
    have : diff u w = fun k => -1 * diff w u k + 0 * u k := by funext k; simp only [diff]; ring
    rw [this, vdot_lin]; ring
  have e2 : vdot P.dim w w = vdot P.dim u u + 2 * vdot P.dim u (diff w u) + d := by
    have : vdot P.dim w w = vdot P.dim (fun k => 1 * u k + 1 * diff w u k) (fun k => 1 * u k + 1 * diff w u k) := by
      apply vdot_congr <;> intro k _ <;> simp only [diff] <;> ring
    rw [this, vdot_sq, hd]
    unfold dist2
    ring
  set v : W := fun k => 1 * u k + 1 * e k with hv
  have e3 : vdot P.dim v (diff w u) = vdot P.dim u (diff w u) + vdot P.dim e (diff w u) := by
    rw [hv, vdot_comm, vdot_lin, vdot_comm _ u, vdot_comm _ e]; ring
  have h2 : b - a ≤ d + vdot P.dim v (diff w u) := by
    rw [hu, hw, e3]
    unfold reg
    rw [e1] at h1
    linarith
  have h3 : vdot P.dim v (diff w u) ^ 2 ≤ vdot P.dim v v * d := vdot_sq_le _ _
  have h4 : vdot P.dim v v ≤ 2 * vdot P.dim u u + 2 * (C ^ 2 * ((samples.length : ℚ) ^ 2 * Q)) := by
    rw [hv, vdot_sq]
    have hn := vdot_nonneg (N := P.dim) (fun k => 1 * u k + -1 * e k)
    rw [vdot_sq] at hn
    linarith
  have h5 := mul_le_mul_of_nonneg_right h4 hd0
  have h6 : (b - a) ^ 2 ≤ (d + vdot P.dim v (diff w u)) ^ 2 := pow_le_pow_left₀ (by linarith) h2 2
  nlinarith [sq_nonneg (d - vdot P.dim v (diff w u))]

end Verif.Props
