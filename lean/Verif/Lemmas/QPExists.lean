import Verif.Lemmas.QP
import Mathlib.LinearAlgebra.Dual.Lemmas
import Mathlib.LinearAlgebra.BilinearMap
import Mathlib.Data.Finset.Max

/-!
# Convex quadratic programs over bounded polyhedra have optimal solutions, over the rationals
-/

namespace Verif.QP

open Finset

section Abstract

variable {V : Type*} [AddCommGroup V] [Module ℚ V] [FiniteDimensional ℚ V]

/-- A quadratic function. -/
def quad (B : V →ₗ[ℚ] V →ₗ[ℚ] ℚ) (q : V →ₗ[ℚ] ℚ) (x : V) : ℚ := B x x / 2 + q x

omit [FiniteDimensional ℚ V] in
theorem quad_add (B : V →ₗ[ℚ] V →ₗ[ℚ] ℚ) (hsym : ∀ x y, B x y = B y x) (q : V →ₗ[ℚ] ℚ) (x d : V) (t : ℚ) :
    quad B q (x + t • d) = quad B q x + t * (B x d + q d) + t ^ 2 * (B d d / 2) := by
  unfold quad
  simp only [map_add, map_smul, LinearMap.add_apply, LinearMap.smul_apply, smul_eq_mul]
  rw [hsym d x]
  ring

/-- On an affine space, a convex quadratic function has a minimum or decreases along a line. -/
theorem quad_dichotomy (B : V →ₗ[ℚ] V →ₗ[ℚ] ℚ) (hsym : ∀ x y, B x y = B y x) (q : V →ₗ[ℚ] ℚ) (W : Submodule ℚ V)
    (x0 : V) : (∃ v ∈ W, ∀ w ∈ W, B (x0 + v) w + q w = 0) ∨
      ∃ d ∈ W, (∀ w ∈ W, B d w = 0) ∧ B x0 d + q d < 0 := by
  let T : W →ₗ[ℚ] Module.Dual ℚ W := (W.subtype.dualMap.comp B).comp W.subtype
  have hT : ∀ v w : W, T v w = B v w := fun _ _ => rfl
  let g : Module.Dual ℚ W := (B x0 + q).comp W.subtype
  have hg : ∀ w : W, g w = B x0 w + q w := fun _ => rfl
  by_cases h : -g ∈ LinearMap.range T
  · left
    obtain ⟨v, hv⟩ := h
    refine ⟨v, v.2, fun w hw => ?_⟩
    have := congrArg (fun f => f ⟨w, hw⟩) hv
    simp only [LinearMap.neg_apply] at this
    rw [hT, hg] at this
    simp only [map_add, LinearMap.add_apply]
    simp only at this
    linarith
  · right
    obtain ⟨f, hf, hker⟩ := Submodule.exists_le_ker_of_notMem h
    obtain ⟨d, rfl⟩ := (Module.evalEquiv ℚ W).surjective f
    have hd : ∀ w : W, B w d = 0 := by
      intro w
      have : T w ∈ LinearMap.ker ((Module.evalEquiv ℚ W) d) := hker ⟨w, rfl⟩
      rw [LinearMap.mem_ker] at this
      exact this
    have hgd : g d ≠ 0 := by
      intro h0
      apply hf
      simpa using h0
    have hd' : ∀ w ∈ W, B d w = 0 := fun w hw => by rw [hsym]; exact hd ⟨w, hw⟩
    rcases lt_or_gt_of_ne hgd with h1 | h1
    · exact ⟨d, d.2, hd', h1⟩
    · refine ⟨-d, W.neg_mem d.2, fun w hw => ?_, ?_⟩
      · rw [map_neg, LinearMap.neg_apply, hd' w hw, neg_zero]
      · rw [hg] at h1
        rw [map_neg, map_neg]
        linarith

/-- Linear inequalities. -/
def Sat (ls : List ((V →ₗ[ℚ] ℚ) × ℚ)) (x : V) : Prop := ∀ l ∈ ls, l.1 x ≤ l.2

omit [FiniteDimensional ℚ V] in
/-- The first inequality that a ray from a feasible point hits. -/
theorem hit (ls : List ((V →ₗ[ℚ] ℚ) × ℚ)) (y e : V) (hy : Sat ls y) (he : ∃ l ∈ ls, 0 < l.1 e) :
    ∃ t, 0 ≤ t ∧ Sat ls (y + t • e) ∧ (∃ i, ∃ h : i < ls.length, ls[i].1 (y + t • e) = ls[i].2) ∧
      ∀ l ∈ ls, 0 < l.1 e → t ≤ (l.2 - l.1 y) / l.1 e := by
  obtain ⟨l, hl, hle⟩ := he
  obtain ⟨j, hj, rfl⟩ := List.mem_iff_getElem.mp hl
  classical
  let I : Finset (Fin ls.length) := univ.filter fun i => 0 < ls[i].1 e
  have hne : I.Nonempty := ⟨⟨j, hj⟩, by simp only [I, mem_filter, mem_univ, true_and]; exact hle⟩
  obtain ⟨i, hi, hmin⟩ := exists_min_image I (fun i => (ls[i].2 - ls[i].1 y) / ls[i].1 e) hne
  simp only [I, mem_filter, mem_univ, true_and] at hi hmin
  have hbound : ∀ l ∈ ls, 0 < l.1 e → (ls[i].2 - ls[i].1 y) / ls[i].1 e ≤ (l.2 - l.1 y) / l.1 e := by
    intro l hl hpos
    obtain ⟨k, hk, rfl⟩ := List.mem_iff_getElem.mp hl
    exact hmin ⟨k, hk⟩ hpos
  have ht0 : 0 ≤ (ls[i].2 - ls[i].1 y) / ls[i].1 e :=
    div_nonneg (by linarith [hy ls[i] (List.getElem_mem _)]) hi.le
  refine ⟨(ls[i].2 - ls[i].1 y) / ls[i].1 e, ht0, ?_, ⟨i, i.2, ?_⟩, hbound⟩
  · intro l hl
    rw [map_add, map_smul, smul_eq_mul]
    rcases lt_or_ge 0 (l.1 e) with hpos | hneg
    · have := hbound l hl hpos
      rw [le_div_iff₀ hpos] at this
      linarith
    · have := mul_nonpos_of_nonneg_of_nonpos ht0 hneg
      linarith [hy l hl]
  · rw [map_add, map_smul, smul_eq_mul]
    change ls[i].1 y + (ls[i].2 - ls[i].1 y) / ls[i].1 e * ls[i].1 e = ls[i].2
    rw [div_mul_cancel₀ _ hi.ne']
    ring

/-- A convex quadratic function attains its minimum on a nonempty bounded polyhedron. -/
theorem quad_attained (B : V →ₗ[ℚ] V →ₗ[ℚ] ℚ) (hsym : ∀ x y, B x y = B y x) (hpos : ∀ x, 0 ≤ B x x)
    (q : V →ₗ[ℚ] ℚ) : ∀ (k : ℕ) (ls : List ((V →ₗ[ℚ] ℚ) × ℚ)), ls.length = k → ∀ (W : Submodule ℚ V) (x0 : V),
    Sat ls x0 → (∀ d ∈ W, (∀ l ∈ ls, l.1 d ≤ 0) → d = 0) →
    ∃ x, x - x0 ∈ W ∧ Sat ls x ∧ ∀ y, y - x0 ∈ W → Sat ls y → quad B q x ≤ quad B q y := by
  intro k
  induction k with
  | zero =>
    intro ls hk W x0 hx0 hbdd
    have hnil : ls = [] := List.length_eq_zero_iff.mp hk
    subst hnil
    refine ⟨x0, by simp, hx0, fun y hy _ => ?_⟩
    have := hbdd (y - x0) hy (by simp)
    rw [sub_eq_zero.mp this]
  | succ k ih =>
    intro ls hk W x0 hx0 hbdd
    -- every feasible point is dominated by one on a facet, or there is an optimum
    have hdom : (∃ x, x - x0 ∈ W ∧ Sat ls x ∧ ∀ y, y - x0 ∈ W → Sat ls y → quad B q x ≤ quad B q y) ∨
        ∀ y, y - x0 ∈ W → Sat ls y → ∃ y', y' - x0 ∈ W ∧ Sat ls y' ∧ quad B q y' ≤ quad B q y ∧
          ∃ i, ∃ h : i < ls.length, ls[i].1 y' = ls[i].2 := by
      rcases quad_dichotomy B hsym q W x0 with ⟨v, hv, hgrad⟩ | ⟨d, hd, hzero, hdesc⟩
      · have hmin : ∀ y, y - x0 ∈ W → quad B q (x0 + v) ≤ quad B q y := by
          intro y hy
          have hw : y - x0 - v ∈ W := W.sub_mem hy hv
          have e : y = (x0 + v) + (1 : ℚ) • (y - x0 - v) := by rw [one_smul]; abel
          rw [e, quad_add B hsym, hgrad _ hw]
          have := hpos (y - x0 - v)
          linarith
        by_cases hs : Sat ls (x0 + v)
        · left
          exact ⟨x0 + v, by simpa using hv, hs, fun y hy _ => hmin y hy⟩
        · right
          intro y hy hsy
          unfold Sat at hs
          push Not at hs
          obtain ⟨l, hl, hviol⟩ := hs
          have hle : 0 < l.1 (x0 + v - y) := by
            rw [map_sub]; linarith [hsy l hl]
          obtain ⟨t, ht0, hsat, htight, hall⟩ := hit ls y (x0 + v - y) hsy ⟨l, hl, hle⟩
          have ht1 : t ≤ 1 := by
            refine (hall l hl hle).trans ?_
            rw [div_le_one hle, map_sub]
            linarith
          have hew : x0 + v - y ∈ W := by
            have : x0 + v - y = v - (y - x0) := by abel
            rw [this]
            exact W.sub_mem hv hy
          refine ⟨y + t • (x0 + v - y), ?_, hsat, ?_, htight⟩
          · have : y + t • (x0 + v - y) - x0 = (y - x0) + t • (x0 + v - y) := by abel
            rw [this]
            exact W.add_mem hy (W.smul_mem _ hew)
          · have h1 := hmin y hy
            have e : x0 + v = y + (1 : ℚ) • (x0 + v - y) := by rw [one_smul]; abel
            rw [e, quad_add B hsym] at h1
            rw [quad_add B hsym]
            have hB := hpos (x0 + v - y)
            nlinarith [mul_nonneg ht0 (sub_nonneg.mpr ht1), mul_nonneg (mul_nonneg ht0 (sub_nonneg.mpr ht1)) hB]
      · right
        intro y hy hsy
        have hne : ∃ l ∈ ls, 0 < l.1 d := by
          by_contra hno
          push Not at hno
          have h0 := hbdd d hd hno
          rw [h0] at hdesc
          simp at hdesc
        obtain ⟨t, ht0, hsat, htight, -⟩ := hit ls y d hsy hne
        refine ⟨y + t • d, ?_, hsat, ?_, htight⟩
        · have : y + t • d - x0 = (y - x0) + t • d := by abel
          rw [this]
          exact W.add_mem hy (W.smul_mem _ hd)
        · rw [quad_add B hsym, hzero d hd]
          have e : B y d = B x0 d := by
            have h1 := hzero (y - x0) hy
            rw [map_sub, hsym d y, hsym d x0] at h1
            linarith
          rw [e]
          have := mul_nonpos_of_nonneg_of_nonpos ht0 hdesc.le
          linarith
    rcases hdom with h | hdom
    · exact h
    -- the best point of every nonempty facet
    have hfacet : ∀ i (h : i < ls.length), (∃ y, y - x0 ∈ W ∧ Sat ls y ∧ ls[i].1 y = ls[i].2) →
        ∃ x, x - x0 ∈ W ∧ Sat ls x ∧ ∀ y, y - x0 ∈ W → Sat ls y → ls[i].1 y = ls[i].2 → quad B q x ≤ quad B q y := by
      rintro i hi ⟨z, hz, hsz, htz⟩
      have hmem : ∀ l ∈ ls, l ∈ ls.eraseIdx i ∨ l = ls[i] := by
        intro l hl
        obtain ⟨j, hj, rfl⟩ := List.mem_iff_getElem.mp hl
        by_cases hij : j = i
        · right; subst hij; rfl
        · left
          exact List.mem_eraseIdx_iff_getElem.mpr ⟨j, hj, hij, rfl⟩
      have hsub : ∀ l ∈ ls.eraseIdx i, l ∈ ls := fun l hl => List.mem_of_mem_eraseIdx hl
      obtain ⟨x, hx, hsx, hmin⟩ := ih (ls.eraseIdx i) (by rw [List.length_eraseIdx_of_lt hi]; omega)
        (W ⊓ LinearMap.ker ls[i].1) z (fun l hl => hsz l (hsub l hl)) (by
          intro d hd hl
          refine hbdd d hd.1 fun l hm => ?_
          rcases hmem l hm with h | rfl
          · exact hl l h
          · exact (LinearMap.mem_ker.mp hd.2).le)
      have htx : ls[i].1 x = ls[i].2 := by
        have := LinearMap.mem_ker.mp hx.2
        rw [map_sub] at this
        linarith
      refine ⟨x, ?_, ?_, ?_⟩
      · have : x - x0 = (x - z) + (z - x0) := by abel
        rw [this]
        exact W.add_mem hx.1 hz
      · intro l hl
        rcases hmem l hl with h | rfl
        · exact hsx l h
        · exact htx.le
      · intro y hy hsy hty
        refine hmin y ⟨?_, ?_⟩ fun l hl => hsy l (hsub l hl)
        · have : y - z = (y - x0) - (z - x0) := by abel
          rw [this]
          exact W.sub_mem hy hz
        · change y - z ∈ LinearMap.ker ls[i].1
          rw [LinearMap.mem_ker, map_sub, hty, htz, sub_self]
    classical
    let I : Finset (Fin ls.length) := univ.filter fun i => ∃ y, y - x0 ∈ W ∧ Sat ls y ∧ ls[i].1 y = ls[i].2
    have hI : ∀ i : Fin ls.length, i ∈ I ↔ ∃ y, y - x0 ∈ W ∧ Sat ls y ∧ ls[i].1 y = ls[i].2 := by
      intro i; simp [I]
    have hch : ∀ i : Fin ls.length, ∃ x, i ∈ I → (x - x0 ∈ W ∧ Sat ls x ∧
        ∀ y, y - x0 ∈ W → Sat ls y → ls[i].1 y = ls[i].2 → quad B q x ≤ quad B q y) := by
      intro i
      by_cases h : i ∈ I
      · obtain ⟨x, hx⟩ := hfacet i i.2 ((hI i).mp h)
        exact ⟨x, fun _ => hx⟩
      · exact ⟨0, fun h' => absurd h' h⟩
    choose best hbest using hch
    obtain ⟨y0, hy0, hs0, -, i0, hi0, ht0⟩ := hdom x0 (by simp) hx0
    obtain ⟨i, hi, hmin⟩ := exists_min_image I (fun i => quad B q (best i))
      ⟨⟨i0, hi0⟩, (hI _).mpr ⟨y0, hy0, hs0, ht0⟩⟩
    obtain ⟨h1, h2, -⟩ := hbest i hi
    refine ⟨best i, h1, h2, fun y hy hsy => ?_⟩
    obtain ⟨y', hy', hsy', hle, j, hj, htj⟩ := hdom y hy hsy
    have hjI : (⟨j, hj⟩ : Fin ls.length) ∈ I := (hI _).mpr ⟨y', hy', hsy', htj⟩
    exact (hmin _ hjI).trans (((hbest _ hjI).2.2 y' hy' hsy' htj).trans hle)

end Abstract

/-! ### programs given by lists -/

theorem rowDot_sum (r x : List ℚ) : rowDot r x = ∑ i ∈ range x.length, r.getD i 0 * x.getD i 0 := by
  unfold rowDot
  induction x generalizing r with
  | nil => simp
  | cons a x ih =>
    cases r with
    | nil => simp
    | cons b r =>
      rw [List.zipWith_cons_cons, List.sum_cons, ih, List.length_cons, sum_range_succ']
      simp [add_comm]

/-- Entry of the matrix `P`. -/
def Problem.entry (p : Problem) (i j : ℕ) : ℚ := (p.P.getD i []).getD j 0

/-- The matrix `P` is symmetric and positive semidefinite. -/
structure Problem.Convex (p : Problem) : Prop where
  symm : ∀ i < p.q.length, ∀ j < p.q.length, p.entry i j = p.entry j i
  psd : ∀ v : ℕ → ℚ, 0 ≤ ∑ i ∈ range p.q.length, ∑ j ∈ range p.q.length, v i * p.entry i j * v j

/-- The feasible points are bounded. -/
def Problem.Bounded (p : Problem) : Prop :=
  ∃ M : ℚ, ∀ x, p.Feasible x → ∀ i < p.q.length, |x.getD i 0| ≤ M

/-- `x` is an optimal solution. -/
def Problem.Optimal (p : Problem) (x : List ℚ) : Prop :=
  p.Feasible x ∧ ∀ x', p.Feasible x' → p.value x ≤ p.value x'

/-- The vector of a list. -/
def toVec (N : ℕ) (x : List ℚ) : Fin N → ℚ := fun i => x.getD i 0

theorem ofFn_getD {N : ℕ} (v : Fin N → ℚ) (i : Fin N) : (List.ofFn v).getD i 0 = v i := by
  simp [List.getD_eq_getElem?_getD]

theorem ofFn_toVec {N : ℕ} (x : List ℚ) (h : x.length = N) : List.ofFn (toVec N x) = x := by
  subst h
  apply List.ext_getElem (by simp)
  intro i h1 h2
  simp [toVec, List.getD_eq_getElem?_getD, h2]

/-- A row as a linear function. -/
def rowMap (N : ℕ) (r : List ℚ) : (Fin N → ℚ) →ₗ[ℚ] ℚ where
  toFun v := ∑ i : Fin N, r.getD i 0 * v i
  map_add' u v := by rw [← sum_add_distrib]; exact sum_congr rfl fun i _ => by rw [Pi.add_apply]; ring
  map_smul' c v := by
    rw [RingHom.id_apply, smul_eq_mul, mul_sum]
    exact sum_congr rfl fun i _ => by rw [Pi.smul_apply, smul_eq_mul]; ring

theorem rowMap_eq {N : ℕ} (r : List ℚ) (v : Fin N → ℚ) : rowMap N r v = rowDot r (List.ofFn v) := by
  rw [rowDot_sum, List.length_ofFn, ← Fin.sum_univ_eq_sum_range (fun i => r.getD i 0 * (List.ofFn v).getD i 0)]
  change ∑ i : Fin N, r.getD i 0 * v i = _
  refine sum_congr rfl fun i _ => ?_
  rw [ofFn_getD]

/-- The matrix `P` as a bilinear form. -/
def form (p : Problem) : (Fin p.q.length → ℚ) →ₗ[ℚ] (Fin p.q.length → ℚ) →ₗ[ℚ] ℚ :=
  LinearMap.mk₂ ℚ (fun u v => ∑ i : Fin p.q.length, ∑ j : Fin p.q.length, u i * p.entry i j * v j)
    (fun a b v => by
      simp only [← sum_add_distrib]
      exact sum_congr rfl fun i _ => sum_congr rfl fun j _ => by rw [Pi.add_apply]; ring)
    (fun c a v => by
      simp only [smul_eq_mul, mul_sum]
      exact sum_congr rfl fun i _ => sum_congr rfl fun j _ => by rw [Pi.smul_apply, smul_eq_mul]; ring)
    (fun a b v => by
      simp only [← sum_add_distrib]
      exact sum_congr rfl fun i _ => sum_congr rfl fun j _ => by rw [Pi.add_apply]; ring)
    (fun c a v => by
      simp only [smul_eq_mul, mul_sum]
      exact sum_congr rfl fun i _ => sum_congr rfl fun j _ => by rw [Pi.smul_apply, smul_eq_mul]; ring)

theorem form_apply (p : Problem) (u v : Fin p.q.length → ℚ) :
    form p u v = ∑ i : Fin p.q.length, ∑ j : Fin p.q.length, u i * p.entry i j * v j := rfl

theorem getD_map_rowDot (P : List (List ℚ)) (x : List ℚ) (i : ℕ) :
    (P.map fun r => rowDot r x).getD i 0 = rowDot (P.getD i []) x := by
  rw [List.getD_eq_getElem?_getD, List.getD_eq_getElem?_getD, List.getElem?_map]
  cases P[i]? with
  | none => simp [rowDot]
  | some r => rfl

theorem value_eq_quad (p : Problem) (v : Fin p.q.length → ℚ) :
    p.value (List.ofFn v) = quad (form p) (rowMap p.q.length p.q) v := by
  unfold Problem.value quad
  rw [rowMap_eq, form_apply]
  congr 2
  rw [rowDot_sum, List.length_ofFn, ← Fin.sum_univ_eq_sum_range
    (fun i => (p.P.map fun r => rowDot r (List.ofFn v)).getD i 0 * (List.ofFn v).getD i 0)]
  refine sum_congr rfl fun i _ => ?_
  rw [getD_map_rowDot, rowDot_sum, List.length_ofFn, ← Fin.sum_univ_eq_sum_range
    (fun j => (p.P.getD i []).getD j 0 * (List.ofFn v).getD j 0), sum_mul]
  refine sum_congr rfl fun j _ => ?_
  rw [ofFn_getD, ofFn_getD]
  unfold Problem.entry
  ring

/-- **Existence.** A convex program with a bounded nonempty set of feasible points has an optimal solution. -/
theorem exists_optimal (p : Problem) (hc : p.Convex) (hb : p.Bounded) (hne : ∃ x, p.Feasible x) : ∃ x, p.Optimal x := by
  set N := p.q.length with hN
  obtain ⟨x0, hx0⟩ := hne
  obtain ⟨M, hM⟩ := hb
  let ls : List (((Fin N → ℚ) →ₗ[ℚ] ℚ) × ℚ) :=
    (p.G.zip p.h).map (fun r => (rowMap N r.1, r.2)) ++ ((p.A.zip p.b).map (fun r => (rowMap N r.1, r.2)) ++
      (p.A.zip p.b).map fun r => (-rowMap N r.1, -r.2))
  have hG : p.G.length = p.h.length := hx0.2.1.length_eq
  have hA : p.A.length = p.b.length := hx0.2.2.length_eq
  have hfeas : ∀ v : Fin N → ℚ, p.Feasible (List.ofFn v) ↔ Sat ls v := by
    intro v
    unfold Problem.Feasible
    rw [List.forall₂_iff_zip, List.forall₂_iff_zip]
    constructor
    · rintro ⟨-, ⟨-, h1⟩, ⟨-, h2⟩⟩ l hl
      rcases List.mem_append.mp hl with hl | hl
      · obtain ⟨r, hr, rfl⟩ := List.mem_map.mp hl
        simp only [rowMap_eq]
        exact h1 hr
      · rcases List.mem_append.mp hl with hl | hl
        · obtain ⟨r, hr, rfl⟩ := List.mem_map.mp hl
          simp only [rowMap_eq]
          exact (h2 hr).le
        · obtain ⟨r, hr, rfl⟩ := List.mem_map.mp hl
          simp only [LinearMap.neg_apply, rowMap_eq]
          exact neg_le_neg (h2 hr).ge
    · intro h
      refine ⟨by rw [List.length_ofFn], ⟨hG, fun {a b} hr => ?_⟩, ⟨hA, fun {a b} hr => ?_⟩⟩
      · have := h (rowMap N a, b) (List.mem_append_left _ (List.mem_map.mpr ⟨(a, b), hr, rfl⟩))
        simpa only [rowMap_eq] using this
      · have h1 := h (rowMap N a, b) (List.mem_append_right _ (List.mem_append_left _ (List.mem_map.mpr ⟨(a, b), hr, rfl⟩)))
        have h2 := h (-rowMap N a, -b)
          (List.mem_append_right _ (List.mem_append_right _ (List.mem_map.mpr ⟨(a, b), hr, rfl⟩)))
        simp only [LinearMap.neg_apply, rowMap_eq] at h1 h2
        linarith
  have hx0v : Sat ls (toVec N x0) := (hfeas _).mp (by rw [ofFn_toVec x0 hx0.1]; exact hx0)
  have hrec : ∀ d ∈ (⊤ : Submodule ℚ (Fin N → ℚ)), (∀ l ∈ ls, l.1 d ≤ 0) → d = 0 := by
    intro d _ hd
    have hray : ∀ t : ℚ, 0 ≤ t → ∀ i : Fin N, |toVec N x0 i + t * d i| ≤ M := by
      intro t ht i
      have hs : Sat ls (toVec N x0 + t • d) := by
        intro l hl
        rw [map_add, map_smul, smul_eq_mul]
        have := mul_nonpos_of_nonneg_of_nonpos ht (hd l hl)
        linarith [hx0v l hl]
      have := hM _ ((hfeas _).mpr hs) i i.2
      rw [ofFn_getD] at this
      exact this
    funext i
    by_contra hne
    have hne : d i ≠ 0 := hne
    have habs : 0 < |d i| := abs_pos.mpr hne
    have h0 := hray 0 le_rfl i
    have hM0 : 0 ≤ M := (abs_nonneg _).trans h0
    have h1 := hray ((2 * M + 1) / |d i|) (div_nonneg (by linarith) habs.le) i
    have h2 : |(2 * M + 1) / |d i| * d i| = 2 * M + 1 := by
      rw [abs_mul, abs_div, abs_abs, abs_of_nonneg (by linarith : (0 : ℚ) ≤ 2 * M + 1), div_mul_cancel₀ _ habs.ne']
    have h3 := abs_sub_abs_le_abs_sub ((2 * M + 1) / |d i| * d i) (-toVec N x0 i)
    rw [abs_neg, sub_neg_eq_add, add_comm ((2 * M + 1) / |d i| * d i), h2] at h3
    rw [zero_mul, add_zero] at h0
    linarith
  have hsym : ∀ x y, form p x y = form p y x := by
    intro x y
    rw [form_apply, form_apply, sum_comm]
    exact sum_congr rfl fun i _ => sum_congr rfl fun j _ => by rw [hc.symm j j.2 i i.2]; ring
  have hpos : ∀ x, 0 ≤ form p x x := by
    intro x
    rw [form_apply]
    have := hc.psd fun i => (List.ofFn x).getD i 0
    rw [← Fin.sum_univ_eq_sum_range (fun i => ∑ j ∈ range p.q.length,
      (List.ofFn x).getD i 0 * p.entry i j * (List.ofFn x).getD j 0)] at this
    refine this.trans (le_of_eq (sum_congr rfl fun i _ => ?_))
    rw [← Fin.sum_univ_eq_sum_range (fun j => (List.ofFn x).getD i 0 * p.entry i j * (List.ofFn x).getD j 0)]
    exact sum_congr rfl fun j _ => by rw [ofFn_getD, ofFn_getD]
  obtain ⟨v, -, hv, hmin⟩ := quad_attained (form p) hsym hpos (rowMap N p.q) _ ls rfl ⊤ (toVec N x0) hx0v hrec
  refine ⟨List.ofFn v, (hfeas v).mpr hv, fun x' hx' => ?_⟩
  have e := ofFn_toVec x' hx'.1
  rw [← e] at hx'
  rw [← e, value_eq_quad, value_eq_quad]
  exact hmin _ trivial ((hfeas _).mp hx')

/-- A solver that finds an optimal solution whenever there is one. -/
def Complete (qp : Solver) : Prop := ∀ p, (∃ x, p.Optimal x) → (qp p).isSome

open Classical in
/-- Some optimal solution. -/
noncomputable def ideal : Solver := fun p =>
  if h : ∃ x, p.Optimal x then some ⟨h.choose, p.value h.choose⟩ else none

/-- **Exact and complete solvers exist.** -/
theorem ideal_exact : Exact ideal ∧ Complete ideal := by
  have key : ∀ p s, ideal p = some s → p.Optimal s.x ∧ s.primalObjective = p.value s.x := by
    intro p s h
    unfold ideal at h
    split_ifs at h with hp
    injection h with h
    subst h
    exact ⟨hp.choose_spec, rfl⟩
  refine ⟨⟨fun p s h => ⟨(key p s h).1.1, (key p s h).2⟩, fun p s h x hx => ?_⟩, fun p hp => ?_⟩
  · rw [(key p s h).2]
    exact (key p s h).1.2 x hx
  · unfold ideal
    rw [dif_pos hp]
    rfl

end Verif.QP
