import Verif.Spec.Learning
import Verif.Spec.Subgradient
import Verif.Lemmas.QPExists

/-!
# The regularised risk attains its minimum at one rational point
-/

namespace Verif.Lemmas

open Finset Verif.Spec Verif.QP

variable {X Y : Type}

/-- Up to loss and joint features, only finitely many outputs compete for every sample. -/
def FinitelyMany (P : Spec.Problem X Y) (samples : List (X × Y)) : Prop :=
  ∀ s ∈ samples, ∃ l : List Y, (∀ z ∈ l, z ∈ P.outputs s.1) ∧
    ∀ ŷ ∈ P.outputs s.1, ∃ z ∈ l, P.loss s.2 ŷ = P.loss s.2 z ∧ ∀ k < P.dim, P.feat s.1 ŷ s.2 k = P.feat s.1 z s.2 k

theorem violation_congr {P : Spec.Problem X Y} {x : X} {y ŷ z : Y} (h1 : P.loss y ŷ = P.loss y z)
    (h2 : ∀ k < P.dim, P.feat x ŷ y k = P.feat x z y k) (w : ℕ → ℚ) : P.violation w x y ŷ = P.violation w x y z := by
  unfold Spec.Problem.violation Spec.Problem.value
  rw [h1]
  congr 2
  exact sum_congr rfl fun k hk => by rw [h2 k (mem_range.mp hk)]

theorem exists_max (l : List ℚ) (h : l ≠ []) : ∃ v ∈ l, ∀ u ∈ l, u ≤ v := by
  induction l with
  | nil => exact absurd rfl h
  | cons a r ih =>
    by_cases hr : r = []
    · subst hr
      exact ⟨a, List.mem_cons_self, fun u hu => by simp at hu; exact hu.le⟩
    · obtain ⟨v, hv, hm⟩ := ih hr
      rcases le_total v a with h1 | h1
      · refine ⟨a, List.mem_cons_self, fun u hu => ?_⟩
        rcases List.mem_cons.mp hu with rfl | hu
        · exact le_rfl
        · exact (hm u hu).trans h1
      · refine ⟨v, List.mem_cons_of_mem _ hv, fun u hu => ?_⟩
        rcases List.mem_cons.mp hu with rfl | hu
        · exact h1
        · exact hm u hu

/-- Every sample has a hinge loss. -/
theorem finite_hinge {P : Spec.Problem X Y} {samples : List (X × Y)} (hl : P.Labelled samples) (hf : FinitelyMany P samples)
    (w : ℕ → ℚ) {s : X × Y} (hs : s ∈ samples) : ∃ h, P.IsHinge w s.1 s.2 h := by
  obtain ⟨l, h1, h2⟩ := hf s hs
  obtain ⟨z0, hz0, -⟩ := h2 s.2 (hl s hs).1
  obtain ⟨v, hv, hm⟩ := exists_max (l.map fun z => P.violation w s.1 s.2 z) (by
    intro h
    rw [List.map_eq_nil_iff] at h
    subst h
    exact absurd hz0 List.not_mem_nil)
  obtain ⟨z, hz, rfl⟩ := List.mem_map.mp hv
  refine ⟨_, ⟨z, h1 z hz, rfl⟩, ?_⟩
  rintro u ⟨ŷ, hy, rfl⟩
  obtain ⟨z', hz', e1, e2⟩ := h2 ŷ hy
  rw [violation_congr e1 e2 w]
  exact hm _ (List.mem_map.mpr ⟨z', hz', rfl⟩)

theorem forall₂_getD {P : Spec.Problem X Y} {w : ℕ → ℚ} {samples : List (X × Y)} {hs : List ℚ} :
    List.Forall₂ (fun s h => P.IsHinge w s.1 s.2 h) samples hs ↔ hs.length = samples.length ∧
      ∀ i : Fin samples.length, P.IsHinge w samples[i].1 samples[i].2 (hs.getD i 0) := by
  rw [List.forall₂_iff_get]
  constructor
  · rintro ⟨h1, h2⟩
    refine ⟨h1.symm, fun i => ?_⟩
    have := h2 i.1 i.2 (by rw [← h1]; exact i.2)
    rw [List.getD_eq_getElem _ _ (by rw [← h1]; exact i.2)]
    exact this
  · rintro ⟨h1, h2⟩
    refine ⟨h1.symm, fun i hi hi' => ?_⟩
    have := h2 ⟨i, hi⟩
    rw [List.getD_eq_getElem _ _ hi'] at this
    exact this

theorem sum_getD (l : List ℚ) (n : ℕ) (h : l.length = n) : l.sum = ∑ i : Fin n, l.getD i 0 := by
  subst h
  have h1 : ∀ i : Fin l.length, l.getD i 0 = l[i] := fun i => List.getD_eq_getElem _ _ i.2
  rw [sum_congr rfl fun i _ => h1 i]
  exact (Fin.sum_univ_getElem l).symm

theorem objective_iff {P : Spec.Problem X Y} {C : ℚ} {samples : List (X × Y)} {w : ℕ → ℚ} {a : ℚ} :
    P.IsObjective C samples w a ↔ ∃ ξ : Fin samples.length → ℚ,
      (∀ i, P.IsHinge w samples[i].1 samples[i].2 (ξ i)) ∧ a = (∑ k ∈ range P.dim, w k * w k) / 2 + C * ∑ i, ξ i := by
  constructor
  · rintro ⟨hs, h1, rfl⟩
    obtain ⟨h2, h3⟩ := forall₂_getD.mp h1
    exact ⟨fun i => hs.getD i 0, h3, by rw [sum_getD hs _ h2]⟩
  · rintro ⟨ξ, h1, rfl⟩
    have h2 : (List.ofFn ξ).length = samples.length := List.length_ofFn
    refine ⟨List.ofFn ξ, forall₂_getD.mpr ⟨h2, fun i => ?_⟩, ?_⟩
    · rw [ofFn_getD]; exact h1 i
    · rw [List.sum_ofFn]

/-- Extend a vector by zeros. -/
def ext {d : ℕ} (w : Fin d → ℚ) : ℕ → ℚ := fun k => if h : k < d then w ⟨k, h⟩ else 0

theorem sum_ext {d : ℕ} (w : Fin d → ℚ) (g : ℕ → ℚ) : ∑ k ∈ range d, ext w k * g k = ∑ k : Fin d, w k * g k := by
  rw [← Fin.sum_univ_eq_sum_range (fun k => ext w k * g k)]
  refine sum_congr rfl fun k _ => ?_
  unfold ext
  rw [dif_pos k.2]

/-- The quadratic part of the risk. -/
def normForm (d n : ℕ) : ((Fin d → ℚ) × (Fin n → ℚ)) →ₗ[ℚ] ((Fin d → ℚ) × (Fin n → ℚ)) →ₗ[ℚ] ℚ :=
  LinearMap.mk₂ ℚ (fun u v => ∑ k, u.1 k * v.1 k)
    (fun a b c => by simp [add_mul, sum_add_distrib]) (fun t a b => by simp [mul_sum, mul_assoc])
    (fun a b c => by simp [mul_add, sum_add_distrib]) (fun t a b => by simp [mul_sum]; exact sum_congr rfl fun k _ => by ring)

/-- The linear part. -/
def slackSum (d n : ℕ) (C : ℚ) : ((Fin d → ℚ) × (Fin n → ℚ)) →ₗ[ℚ] ℚ where
  toFun u := C * ∑ i, u.2 i
  map_add' a b := by simp [sum_add_distrib, mul_add]
  map_smul' t a := by simp [← mul_sum]; ring

/-- The slack variable of sample `i` minus the violation of an output. -/
def cutMap (d n : ℕ) (i : Fin n) (g : ℕ → ℚ) : ((Fin d → ℚ) × (Fin n → ℚ)) →ₗ[ℚ] ℚ where
  toFun u := (∑ k : Fin d, u.1 k * g k) - u.2 i
  map_add' a b := by simp [add_mul, sum_add_distrib]; ring
  map_smul' t a := by simp [mul_assoc, ← mul_sum]; ring

/-- Coordinates. -/
def wMap (d n : ℕ) (k : Fin d) (t : ℚ) : ((Fin d → ℚ) × (Fin n → ℚ)) →ₗ[ℚ] ℚ where
  toFun u := t * u.1 k
  map_add' a b := by simp [mul_add]
  map_smul' t a := by simp; ring

def ξMap (d n : ℕ) (i : Fin n) : ((Fin d → ℚ) × (Fin n → ℚ)) →ₗ[ℚ] ℚ where
  toFun u := u.2 i
  map_add' a b := by simp
  map_smul' t a := by simp

/-- If only finitely many outputs compete, some rational weights minimise the regularised risk. -/
theorem exists_riskMin (P : Spec.Problem X Y) (samples : List (X × Y)) (hl : P.Labelled samples) (hf : FinitelyMany P samples)
    (C : ℚ) (hC : 0 < C) : ∃ u a, P.IsRiskMin C samples u a := by
  classical
  set n := samples.length with hn
  set d := P.dim with hd
  have hmem : ∀ i : Fin n, samples[i] ∈ samples := fun i => List.getElem_mem _
  have hhinge : ∀ w, ∃ ξ : Fin n → ℚ, ∀ i, P.IsHinge w samples[i].1 samples[i].2 (ξ i) :=
    fun w => Classical.axiom_of_choice (r := fun i v => P.IsHinge w samples[i].1 samples[i].2 v)
      fun i => finite_hinge hl hf w (hmem i)
  have hnn : ∀ w (i : Fin n) v, P.IsHinge w samples[i].1 samples[i].2 v → 0 ≤ v := by
    intro w i v h
    refine h.2 ⟨samples[i].2, (hl _ (hmem i)).1, ?_⟩
    unfold Spec.Problem.violation
    rw [(hl _ (hmem i)).2]
    ring
  choose L hL1 hL2 using fun i : Fin n => hf _ (hmem i)
  obtain ⟨ξ0, hξ0⟩ := hhinge fun _ => 0
  set B0 := C * ∑ i, ξ0 i with hB0
  have hB00 : 0 ≤ B0 := mul_nonneg hC.le (sum_nonneg fun i _ => hnn _ i _ (hξ0 i))
  set M := B0 / C + B0 + 1 with hM
  have hBC : 0 ≤ B0 / C := div_nonneg hB00 hC.le
  have hM1 : 1 ≤ M := by rw [hM]; linarith
  set G : Fin n → Y → ℕ → ℚ := fun i z k => P.feat samples[i].1 z samples[i].2 k - P.feat samples[i].1 samples[i].2 samples[i].2 k
    with hG
  set cuts : List (((Fin d → ℚ) × (Fin n → ℚ) →ₗ[ℚ] ℚ) × ℚ) :=
    (List.finRange n).flatMap fun i => (L i).map fun z => (cutMap d n i (G i z), -P.loss samples[i].2 z) with hcuts
  set ls : List (((Fin d → ℚ) × (Fin n → ℚ) →ₗ[ℚ] ℚ) × ℚ) := cuts ++
    ((List.finRange d).map (fun k => (wMap d n k 1, M)) ++ ((List.finRange d).map (fun k => (wMap d n k (-1), M)) ++
      (List.finRange n).map (fun i => (ξMap d n i, M)))) with hls
  have hviol : ∀ (w : Fin d → ℚ) (i : Fin n) (z : Y), P.violation (ext w) samples[i].1 samples[i].2 z =
      P.loss samples[i].2 z + ∑ k : Fin d, w k * G i z k := by
    intro w i z
    unfold Spec.Problem.violation Spec.Problem.value
    rw [← sum_ext w (G i z), hG]
    simp only [mul_sub, sum_sub_distrib]
    rw [← hd]
    ring
  have hsat : ∀ u : (Fin d → ℚ) × (Fin n → ℚ), Sat ls u ↔
      (∀ i, ∀ z ∈ L i, P.violation (ext u.1) samples[i].1 samples[i].2 z ≤ u.2 i) ∧ (∀ k, u.1 k ≤ M) ∧ (∀ k, -u.1 k ≤ M) ∧
        ∀ i, u.2 i ≤ M := by
    intro u
    unfold Sat
    constructor
    · intro h
      refine ⟨fun i z hz => ?_, fun k => ?_, fun k => ?_, fun i => ?_⟩
      · have := h (cutMap d n i (G i z), -P.loss samples[i].2 z) (by
          rw [hls, hcuts]
          exact List.mem_append_left _ (List.mem_flatMap.mpr ⟨i, List.mem_finRange _, List.mem_map.mpr ⟨z, hz, rfl⟩⟩))
        rw [hviol]
        simp only [cutMap, LinearMap.coe_mk, AddHom.coe_mk] at this
        linarith
      · have := h (wMap d n k 1, M) (by
          rw [hls]
          exact List.mem_append_right _ (List.mem_append_left _ (List.mem_map.mpr ⟨k, List.mem_finRange _, rfl⟩)))
        simpa [wMap] using this
      · have := h (wMap d n k (-1), M) (by
          rw [hls]
          exact List.mem_append_right _ (List.mem_append_right _ (List.mem_append_left _
            (List.mem_map.mpr ⟨k, List.mem_finRange _, rfl⟩))))
        simpa [wMap] using this
      · have := h (ξMap d n i, M) (by
          rw [hls]
          exact List.mem_append_right _ (List.mem_append_right _ (List.mem_append_right _
            (List.mem_map.mpr ⟨i, List.mem_finRange _, rfl⟩))))
        simpa [ξMap] using this
    · rintro ⟨h1, h2, h3, h4⟩ l hl'
      rw [hls, hcuts] at hl'
      rcases List.mem_append.mp hl' with hl' | hl'
      · obtain ⟨i, -, hl'⟩ := List.mem_flatMap.mp hl'
        obtain ⟨z, hz, rfl⟩ := List.mem_map.mp hl'
        have := h1 i z hz
        rw [hviol] at this
        simp only [cutMap, LinearMap.coe_mk, AddHom.coe_mk]
        linarith
      rcases List.mem_append.mp hl' with hl' | hl'
      · obtain ⟨k, -, rfl⟩ := List.mem_map.mp hl'
        simpa [wMap] using h2 k
      rcases List.mem_append.mp hl' with hl' | hl'
      · obtain ⟨k, -, rfl⟩ := List.mem_map.mp hl'
        simpa [wMap] using h3 k
      · obtain ⟨i, -, rfl⟩ := List.mem_map.mp hl'
        simpa [ξMap] using h4 i
  have hval : ∀ u : (Fin d → ℚ) × (Fin n → ℚ), quad (normForm d n) (slackSum d n C) u =
      (∑ k ∈ range d, ext u.1 k * ext u.1 k) / 2 + C * ∑ i, u.2 i := by
    intro u
    unfold quad
    rw [sum_ext u.1 (ext u.1)]
    simp only [normForm, LinearMap.mk₂_apply, slackSum, LinearMap.coe_mk, AddHom.coe_mk]
    congr 2
    exact sum_congr rfl fun k _ => by unfold ext; rw [dif_pos k.2]
  have hext0 : ext (fun _ : Fin d => (0 : ℚ)) = fun _ => 0 := by
    funext k
    unfold ext
    split <;> rfl
  have hx0 : Sat ls ((fun _ => 0, ξ0) : (Fin d → ℚ) × (Fin n → ℚ)) := by
    refine (hsat _).mpr ⟨fun i z hz => ?_, fun k => by simp only; linarith, fun k => by simp only; linarith, fun i => ?_⟩
    · simp only [hext0]
      exact (hξ0 i).2 ⟨z, hL1 i z hz, rfl⟩
    · have h1 : ξ0 i ≤ ∑ j, ξ0 j := single_le_sum (f := ξ0) (fun j _ => hnn _ j _ (hξ0 j)) (mem_univ i)
      have h2 : B0 / C = ∑ j, ξ0 j := by rw [hB0]; field_simp
      simp only
      rw [hM, h2]
      linarith
  obtain ⟨⟨u, ξ⟩, -, hu, hmin⟩ := quad_attained (normForm d n)
    (fun x y => by simp only [normForm, LinearMap.mk₂_apply]; exact sum_congr rfl fun k _ => mul_comm _ _)
    (fun x => by simp only [normForm, LinearMap.mk₂_apply]; exact sum_nonneg fun k _ => mul_self_nonneg _)
    (slackSum d n C) ls.length ls rfl ⊤ (fun _ => 0, ξ0) hx0 (by
      rintro ⟨v, η⟩ - h
      have hv : v = 0 := by
        funext k
        have h1 := h (wMap d n k 1, M) (by
          rw [hls]
          exact List.mem_append_right _ (List.mem_append_left _ (List.mem_map.mpr ⟨k, List.mem_finRange _, rfl⟩)))
        have h2 := h (wMap d n k (-1), M) (by
          rw [hls]
          exact List.mem_append_right _ (List.mem_append_right _ (List.mem_append_left _
            (List.mem_map.mpr ⟨k, List.mem_finRange _, rfl⟩))))
        simp only [wMap, LinearMap.coe_mk, AddHom.coe_mk, one_mul] at h1 h2
        simp only [Pi.zero_apply]
        linarith
      subst hv
      have hη : η = 0 := by
        funext i
        have h1 := h (ξMap d n i, M) (by
          rw [hls]
          exact List.mem_append_right _ (List.mem_append_right _ (List.mem_append_right _
            (List.mem_map.mpr ⟨i, List.mem_finRange _, rfl⟩))))
        obtain ⟨z, hz, -⟩ := hL2 i samples[i].2 (hl _ (hmem i)).1
        have h2 := h (cutMap d n i (G i z), -P.loss samples[i].2 z) (by
          rw [hls, hcuts]
          exact List.mem_append_left _ (List.mem_flatMap.mpr ⟨i, List.mem_finRange _, List.mem_map.mpr ⟨z, hz, rfl⟩⟩))
        simp only [ξMap, cutMap, LinearMap.coe_mk, AddHom.coe_mk, Pi.zero_apply, zero_mul, sum_const_zero, zero_sub] at h1 h2
        simp only [Pi.zero_apply]
        linarith
      rw [hη]
      rfl)
  obtain ⟨ξ', hξ'⟩ := hhinge (ext u)
  have hle : ∀ i, ξ' i ≤ ξ i := by
    intro i
    obtain ⟨ŷ, hy, he⟩ := (hξ' i).1
    obtain ⟨z, hz, e1, e2⟩ := hL2 i ŷ hy
    rw [he, violation_congr e1 e2]
    exact ((hsat _).mp hu).1 i z hz
  refine ⟨ext u, _, objective_iff.mpr ⟨ξ', hξ', rfl⟩, fun w b hb => ?_⟩
  obtain ⟨η, hη, rfl⟩ := objective_iff.mp hb
  have hu1 : (∑ k ∈ range d, ext u k * ext u k) / 2 + C * ∑ i, ξ' i ≤ (∑ k ∈ range d, ext u k * ext u k) / 2 + C * ∑ i, ξ i := by
    have := mul_le_mul_of_nonneg_left (sum_le_sum fun i (_ : i ∈ univ) => hle i) hC.le
    linarith
  have hη0 : ∀ i, 0 ≤ η i := fun i => hnn _ i _ (hη i)
  have hw0 : 0 ≤ ∑ k ∈ range d, w k * w k := sum_nonneg fun k _ => mul_self_nonneg _
  have hηs : 0 ≤ ∑ i, η i := sum_nonneg fun i _ => hη0 i
  have hopt0 : (∑ k ∈ range d, ext u k * ext u k) / 2 + C * ∑ i, ξ i ≤ B0 := by
    have := hmin (fun _ => 0, ξ0) (Submodule.mem_top) hx0
    rw [hval, hval] at this
    simp only [hext0, mul_zero, sum_const_zero, zero_div, zero_add] at this
    exact this
  refine hu1.trans ?_
  change _ ≤ (∑ k ∈ range d, w k * w k) / 2 + C * ∑ i, η i
  by_cases hbox : (∀ k < d, w k ≤ M ∧ -w k ≤ M) ∧ ∀ i, η i ≤ M
  · set v : Fin d → ℚ := fun k => w k with hv
    have hvw : ∀ k < d, ext v k = w k := fun k hk => by unfold ext; rw [dif_pos hk]
    have hval' : ∀ x y z, P.value (ext v) x y z = P.value w x y z := by
      intro x y z
      unfold Spec.Problem.value
      exact sum_congr rfl fun k hk => by rw [hvw k (mem_range.mp hk)]
    have := hmin (v, η) Submodule.mem_top ((hsat _).mpr ⟨fun i z hz => ?_, fun k => (hbox.1 k k.2).1, fun k => (hbox.1 k k.2).2,
      hbox.2⟩)
    · rw [hval, hval] at this
      refine this.trans (le_of_eq ?_)
      simp only
      congr 2
      exact sum_congr rfl fun k hk => by rw [hvw k (mem_range.mp hk)]
    · unfold Spec.Problem.violation
      rw [hval', hval']
      exact (hη i).2 ⟨z, hL1 i z hz, rfl⟩
  · refine hopt0.trans ?_
    rw [not_and_or] at hbox
    rcases hbox with h | h
    · push Not at h
      obtain ⟨k, hk, h⟩ := h
      have hsq : M * M ≤ w k * w k := by
        by_cases h1 : w k ≤ M
        · have := h h1
          nlinarith
        · push Not at h1
          nlinarith
      have h2 : w k * w k ≤ ∑ k ∈ range d, w k * w k :=
        single_le_sum (f := fun k => w k * w k) (fun k _ => mul_self_nonneg _) (mem_range.mpr hk)
      have h3 : 2 * B0 ≤ M * M := by
        have : B0 + 1 ≤ M := by rw [hM]; linarith
        nlinarith [sq_nonneg (B0 - 1)]
      have := mul_nonneg hC.le hηs
      linarith
    · push Not at h
      obtain ⟨i, h⟩ := h
      have h1 : η i ≤ ∑ j, η j := single_le_sum (f := η) (fun j _ => hη0 j) (mem_univ i)
      have h2 : B0 / C ≤ ∑ j, η j := by
        have : B0 / C ≤ M := by rw [hM]; linarith
        linarith
      rw [div_le_iff₀ hC] at h2
      linarith

end Verif.Lemmas
