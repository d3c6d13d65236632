import Verif.Model.Grid
import Verif.Spec.Graph
import Mathlib.Data.List.Nodup
import Mathlib.Data.List.ProdSigma

/-!
# C31: grid edges are exactly the grid neighbours
-/

namespace Verif.Props

open Verif.Common Verif.Grid

/-- Two different cells `(r, c)` and `(r', c')` of a grid are adjacent: horizontally or vertically
(4-neighbourhood), or also diagonally (8-neighbourhood). -/
def Adjacent (neighborhood r c r' c' : ℕ) : Prop :=
  if neighborhood = 8 then
    (r ≠ r' ∨ c ≠ c') ∧ r ≤ r' + 1 ∧ r' ≤ r + 1 ∧ c ≤ c' + 1 ∧ c' ≤ c + 1
  else (r = r' ∧ (c + 1 = c' ∨ c' + 1 = c)) ∨ (c = c' ∧ (r + 1 = r' ∨ r' + 1 = r))

theorem ravel_eq (a : NMat) :
    a.ravel = ((List.range a.rows).product (List.range a.cols)).map fun p => a.get p.1 p.2 := by
  unfold NMat.ravel List.product
  rw [List.map_flatMap]
  simp only [List.map_map]
  rfl

theorem columns_eq (r c : ℕ) (f g : ℕ → ℕ → ℕ) :
    columns (NMat.ravel ⟨r, c, f⟩) (NMat.ravel ⟨r, c, g⟩) =
      ((List.range r).product (List.range c)).map fun p => (f p.1 p.2, g p.1 p.2) := by
  unfold columns
  rw [ravel_eq, ravel_eq]
  exact List.zip_map' ..

theorem mem_columns (r c : ℕ) (f g : ℕ → ℕ → ℕ) (u v : ℕ) :
    (u, v) ∈ columns (NMat.ravel ⟨r, c, f⟩) (NMat.ravel ⟨r, c, g⟩) ↔
      ∃ i j, i < r ∧ j < c ∧ u = f i j ∧ v = g i j := by
  rw [columns_eq]
  simp only [List.mem_map, Prod.exists, List.pair_mem_product, List.mem_range, Prod.mk.injEq]
  constructor
  · rintro ⟨i, j, ⟨h1, h2⟩, h3, h4⟩; exact ⟨i, j, h1, h2, h3.symm, h4.symm⟩
  · rintro ⟨i, j, h1, h2, h3, h4⟩; exact ⟨i, j, ⟨h1, h2⟩, h3.symm, h4.symm⟩

theorem mem_right (h w u v : ℕ) :
    (u, v) ∈ right h w ↔ ∃ i j, i < h ∧ j + 1 < w ∧ u = i * w + j ∧ v = i * w + (j + 1) := by
  unfold right
  refine (mem_columns h (w - 1) (fun i j => i * w + j) (fun i j => i * w + (j + 1)) u v).trans ?_
  constructor
  · rintro ⟨i, j, h1, h2, h3⟩; exact ⟨i, j, h1, by omega, h3⟩
  · rintro ⟨i, j, h1, h2, h3⟩; exact ⟨i, j, h1, by omega, h3⟩

theorem mem_down (h w u v : ℕ) :
    (u, v) ∈ down h w ↔ ∃ i j, i + 1 < h ∧ j < w ∧ u = i * w + j ∧ v = (i + 1) * w + j := by
  unfold down
  refine (mem_columns (h - 1) w (fun i j => i * w + j) (fun i j => (i + 1) * w + j) u v).trans ?_
  constructor
  · rintro ⟨i, j, h1, h2, h3⟩; exact ⟨i, j, by omega, h2, h3⟩
  · rintro ⟨i, j, h1, h2, h3⟩; exact ⟨i, j, by omega, h2, h3⟩

theorem mem_upright (h w u v : ℕ) :
    (u, v) ∈ upright h w ↔
      ∃ i j, i + 1 < h ∧ j + 1 < w ∧ u = (i + 1) * w + j ∧ v = i * w + (j + 1) := by
  unfold upright
  refine (mem_columns (h - 1) (w - 1) (fun i j => (i + 1) * w + j)
    (fun i j => i * w + (j + 1)) u v).trans ?_
  constructor
  · rintro ⟨i, j, h1, h2, h3⟩; exact ⟨i, j, by omega, by omega, h3⟩
  · rintro ⟨i, j, h1, h2, h3⟩; exact ⟨i, j, by omega, by omega, h3⟩

theorem mem_downright (h w u v : ℕ) :
    (u, v) ∈ downright h w ↔
      ∃ i j, i + 1 < h ∧ j + 1 < w ∧ u = i * w + j ∧ v = (i + 1) * w + (j + 1) := by
  unfold downright
  refine (mem_columns (h - 1) (w - 1) (fun i j => i * w + j)
    (fun i j => (i + 1) * w + (j + 1)) u v).trans ?_
  constructor
  · rintro ⟨i, j, h1, h2, h3⟩; exact ⟨i, j, by omega, by omega, h3⟩
  · rintro ⟨i, j, h1, h2, h3⟩; exact ⟨i, j, by omega, by omega, h3⟩

/-- the coordinates of a cell are determined by its index. -/
theorem cell_inj {w r c r' c' : ℕ} (hc : c < w) (hc' : c' < w) (h : r * w + c = r' * w + c') :
    r = r' ∧ c = c' := by
  have h1 := flat_div (i := r) hc
  have h2 := flat_div (i := r') hc'
  have h3 := flat_mod (i := r) hc
  have h4 := flat_mod (i := r') hc'
  rw [h] at h1 h3
  exact ⟨h1.symm.trans h2, h3.symm.trans h4⟩

theorem nodup_columns (r c : ℕ) (f g : ℕ → ℕ → ℕ)
    (hinj : ∀ i j i' j', i < r → j < c → i' < r → j' < c → f i j = f i' j' → i = i' ∧ j = j') :
    (columns (NMat.ravel ⟨r, c, f⟩) (NMat.ravel ⟨r, c, g⟩)).Nodup := by
  rw [columns_eq]
  apply List.Nodup.map_on
  · rintro ⟨i, j⟩ hp ⟨i', j'⟩ hp' heq
    simp only [List.pair_mem_product, List.mem_range] at hp hp'
    simp only [Prod.mk.injEq] at heq
    have := hinj i j i' j' hp.1 hp.2 hp'.1 hp'.2 heq.1
    rw [this.1, this.2]
  · exact List.Nodup.product List.nodup_range List.nodup_range

theorem nodup_right (h w : ℕ) : (right h w).Nodup :=
  nodup_columns h (w - 1) (fun i j => i * w + j) (fun i j => i * w + (j + 1))
    (fun _ _ _ _ _ h2 _ h4 he => cell_inj (by omega) (by omega) he)

theorem nodup_down (h w : ℕ) : (down h w).Nodup :=
  nodup_columns (h - 1) w (fun i j => i * w + j) (fun i j => (i + 1) * w + j)
    (fun _ _ _ _ _ h2 _ h4 he => cell_inj (by omega) (by omega) he)

theorem nodup_upright (h w : ℕ) : (upright h w).Nodup :=
  nodup_columns (h - 1) (w - 1) (fun i j => (i + 1) * w + j) (fun i j => i * w + (j + 1))
    (fun i j i' j' _ h2 _ h4 he => by
      have := cell_inj (r := i + 1) (r' := i' + 1) (c := j) (c' := j') (by omega) (by omega) he
      omega)

theorem nodup_downright (h w : ℕ) : (downright h w).Nodup :=
  nodup_columns (h - 1) (w - 1) (fun i j => i * w + j) (fun i j => (i + 1) * w + (j + 1))
    (fun _ _ _ _ _ h2 _ h4 he => cell_inj (by omega) (by omega) he)

/-- The step of a listed edge, in coordinates: right, down, up-right, down-right. -/
def Step (nb r c r' c' : ℕ) : Prop :=
  (r' = r ∧ c' = c + 1) ∨ (r' = r + 1 ∧ c' = c) ∨
    (nb = 8 ∧ ((r = r' + 1 ∧ c' = c + 1) ∨ (r' = r + 1 ∧ c' = c + 1)))

theorem gridEdges_ok (h w nb : ℕ) (hnb : nb = 4 ∨ nb = 8) :
    ∃ E, gridEdges h w nb = .ok E ∧ E.Nodup ∧
      ∀ u v, (u, v) ∈ E ↔ ∃ r c r' c', r < h ∧ c < w ∧ r' < h ∧ c' < w ∧ u = r * w + c ∧
        v = r' * w + c' ∧ Step nb r c r' c' := by
  rcases hnb with rfl | rfl
  · refine ⟨right h w ++ down h w, ?_, ?_, ?_⟩
    · simp [gridEdges, gridEdgeLists]
    · rw [List.nodup_append']
      refine ⟨nodup_right h w, nodup_down h w, ?_⟩
      rintro ⟨u, v⟩ h1 h2
      rw [mem_right] at h1
      rw [mem_down] at h2
      obtain ⟨i, j, a1, a2, a3, a4⟩ := h1
      obtain ⟨i', j', b1, b2, b3, b4⟩ := h2
      have e1 := cell_inj (by omega) b2 (a3.symm.trans b3)
      have e2 := cell_inj (by omega) b2 (a4.symm.trans b4)
      omega
    · intro u v
      rw [List.mem_append, mem_right, mem_down]
      constructor
      · rintro (⟨i, j, a1, a2, a3, a4⟩ | ⟨i, j, a1, a2, a3, a4⟩)
        · exact ⟨i, j, i, j + 1, a1, by omega, a1, a2, a3, a4, Or.inl ⟨rfl, rfl⟩⟩
        · exact ⟨i, j, i + 1, j, by omega, a2, a1, a2, a3, a4, Or.inr (Or.inl ⟨rfl, rfl⟩)⟩
      · rintro ⟨r, c, r', c', h1, h2, h3, h4, h5, h6, hs⟩
        rcases hs with ⟨rfl, rfl⟩ | ⟨rfl, rfl⟩ | ⟨h8, _⟩
        · exact Or.inl ⟨r', c, h1, h4, h5, h6⟩
        · exact Or.inr ⟨r, c', h3, h4, h5, h6⟩
        · omega
  · refine ⟨right h w ++ (down h w ++ (upright h w ++ downright h w)), ?_, ?_, ?_⟩
    · simp [gridEdges, gridEdgeLists]
    · rw [List.nodup_append', List.nodup_append', List.nodup_append']
      refine ⟨nodup_right h w, ⟨nodup_down h w, ⟨nodup_upright h w, nodup_downright h w, ?_⟩, ?_⟩,
        ?_⟩
      · rintro ⟨u, v⟩ h1 h2
        rw [mem_upright] at h1
        rw [mem_downright] at h2
        obtain ⟨i, j, a1, a2, a3, a4⟩ := h1
        obtain ⟨i', j', b1, b2, b3, b4⟩ := h2
        have e1 := cell_inj (by omega) (by omega) (a3.symm.trans b3)
        have e2 := cell_inj (by omega) (by omega) (a4.symm.trans b4)
        omega
      · rintro ⟨u, v⟩ h1 h2
        rw [mem_down] at h1
        rw [List.mem_append, mem_upright, mem_downright] at h2
        obtain ⟨i, j, a1, a2, a3, a4⟩ := h1
        rcases h2 with ⟨i', j', b1, b2, b3, b4⟩ | ⟨i', j', b1, b2, b3, b4⟩ <;>
        · have e1 := cell_inj (by omega) (by omega) (a3.symm.trans b3)
          have e2 := cell_inj (by omega) (by omega) (a4.symm.trans b4)
          omega
      · rintro ⟨u, v⟩ h1 h2
        rw [mem_right] at h1
        rw [List.mem_append, List.mem_append, mem_down, mem_upright, mem_downright] at h2
        obtain ⟨i, j, a1, a2, a3, a4⟩ := h1
        rcases h2 with ⟨i', j', b1, b2, b3, b4⟩ | ⟨i', j', b1, b2, b3, b4⟩ |
          ⟨i', j', b1, b2, b3, b4⟩ <;>
        · have e1 := cell_inj (by omega) (by omega) (a3.symm.trans b3)
          have e2 := cell_inj (by omega) (by omega) (a4.symm.trans b4)
          omega
    · intro u v
      rw [List.mem_append, List.mem_append, List.mem_append, mem_right, mem_down, mem_upright,
        mem_downright]
      constructor
      · rintro (⟨i, j, a1, a2, a3, a4⟩ | ⟨i, j, a1, a2, a3, a4⟩ | ⟨i, j, a1, a2, a3, a4⟩ |
          ⟨i, j, a1, a2, a3, a4⟩)
        · exact ⟨i, j, i, j + 1, a1, by omega, a1, a2, a3, a4, Or.inl ⟨rfl, rfl⟩⟩
        · exact ⟨i, j, i + 1, j, by omega, a2, a1, a2, a3, a4, Or.inr (Or.inl ⟨rfl, rfl⟩)⟩
        · exact ⟨i + 1, j, i, j + 1, a1, by omega, by omega, a2, a3, a4,
            Or.inr (Or.inr ⟨rfl, Or.inl ⟨rfl, rfl⟩⟩)⟩
        · exact ⟨i, j, i + 1, j + 1, by omega, by omega, a1, a2, a3, a4,
            Or.inr (Or.inr ⟨rfl, Or.inr ⟨rfl, rfl⟩⟩)⟩
      · rintro ⟨r, c, r', c', h1, h2, h3, h4, h5, h6, hs⟩
        rcases hs with ⟨rfl, rfl⟩ | ⟨rfl, rfl⟩ | ⟨_, ⟨rfl, rfl⟩ | ⟨rfl, rfl⟩⟩
        · exact Or.inl ⟨r', c, h1, h4, h5, h6⟩
        · exact Or.inr (Or.inl ⟨r, c', h3, h4, h5, h6⟩)
        · exact Or.inr (Or.inr (Or.inl ⟨r', c, h1, h4, h5, h6⟩))
        · exact Or.inr (Or.inr (Or.inr ⟨r, c, h3, h4, h5, h6⟩))

theorem adjacent_iff_step {nb r c r' c' : ℕ} (hnb : nb = 4 ∨ nb = 8) :
    Adjacent nb r c r' c' ↔ Step nb r c r' c' ∨ Step nb r' c' r c := by
  unfold Adjacent Step
  rcases hnb with rfl | rfl
  · rw [if_neg (by decide)]; omega
  · rw [if_pos rfl]; omega

/-- **C31.** For a grid of any height and width and neighbourhood 4 or 8, `make_grid_edges` succeeds;
every listed pair consists of indices of cells of the grid; two indices are joined by a listed edge
exactly when they belong to two adjacent cells of the grid; and every pair of adjacent cells is
listed only once, in whatever direction. -/
theorem C31_grid_edges (h w nb : ℕ) (hnb : nb = 4 ∨ nb = 8) :
    ∃ E, gridEdges h w nb = .ok E ∧
      (∀ p ∈ E, p.1 < h * w ∧ p.2 < h * w) ∧
      (∀ u v, (∃ e < E.length, Spec.Joins E e u v) ↔
        ∃ r c r' c', r < h ∧ c < w ∧ r' < h ∧ c' < w ∧ u = r * w + c ∧ v = r' * w + c' ∧
          Adjacent nb r c r' c') ∧
      (∀ u v, ∀ e < E.length, ∀ e' < E.length,
        Spec.Joins E e u v → Spec.Joins E e' u v → e = e') := by
  obtain ⟨E, hE, hnd, hmem⟩ := gridEdges_ok h w nb hnb
  have getD_mem : ∀ e < E.length, E.getD e (0, 0) ∈ E := by
    intro e he
    rw [List.getD_eq_getElem _ _ he]; exact List.getElem_mem _
  refine ⟨E, hE, ?_, ?_, ?_⟩
  · rintro ⟨u, v⟩ hp
    obtain ⟨r, c, r', c', h1, h2, h3, h4, rfl, rfl, _⟩ := (hmem u v).mp hp
    exact ⟨flat_lt h1 h2, flat_lt h3 h4⟩
  · intro u v
    constructor
    · rintro ⟨e, he, hj⟩
      rcases hj with hj | hj
      · have hm := getD_mem e he
        rw [hj] at hm
        obtain ⟨r, c, r', c', h1, h2, h3, h4, h5, h6, hs⟩ := (hmem u v).mp hm
        exact ⟨r, c, r', c', h1, h2, h3, h4, h5, h6, (adjacent_iff_step hnb).mpr (Or.inl hs)⟩
      · have hm := getD_mem e he
        rw [hj] at hm
        obtain ⟨r, c, r', c', h1, h2, h3, h4, h5, h6, hs⟩ := (hmem v u).mp hm
        exact ⟨r', c', r, c, h3, h4, h1, h2, h6, h5, (adjacent_iff_step hnb).mpr (Or.inr hs)⟩
    · rintro ⟨r, c, r', c', h1, h2, h3, h4, h5, h6, ha⟩
      rcases (adjacent_iff_step hnb).mp ha with hs | hs
      · obtain ⟨e, he, hval⟩ := List.mem_iff_getElem.mp
          ((hmem u v).mpr ⟨r, c, r', c', h1, h2, h3, h4, h5, h6, hs⟩)
        exact ⟨e, he, Or.inl (by rw [List.getD_eq_getElem _ _ he, hval])⟩
      · obtain ⟨e, he, hval⟩ := List.mem_iff_getElem.mp
          ((hmem v u).mpr ⟨r', c', r, c, h3, h4, h1, h2, h6, h5, hs⟩)
        exact ⟨e, he, Or.inr (by rw [List.getD_eq_getElem _ _ he, hval])⟩
  · intro u v e he e' he' hj hj'
    have same : E.getD e (0, 0) = E.getD e' (0, 0) → e = e' := by
      intro heq
      rw [List.getD_eq_getElem _ _ he, List.getD_eq_getElem _ _ he'] at heq
      exact (List.Nodup.getElem_inj_iff hnd).mp heq
    have asym : (u, v) ∈ E → (v, u) ∈ E → False := by
      intro ha hb
      obtain ⟨r, c, r', c', h1, h2, h3, h4, h5, h6, hs⟩ := (hmem u v).mp ha
      obtain ⟨s, d, s', d', k1, k2, k3, k4, k5, k6, ks⟩ := (hmem v u).mp hb
      have e1 := cell_inj h2 k4 (h5.symm.trans k6)
      have e2 := cell_inj h4 k2 (h6.symm.trans k5)
      unfold Step at hs ks
      omega
    have m1 := getD_mem e he
    have m2 := getD_mem e' he'
    rcases hj with hj | hj <;> rcases hj' with hj' | hj'
    · exact same (hj.trans hj'.symm)
    · rw [hj] at m1; rw [hj'] at m2; exact (asym m1 m2).elim
    · rw [hj] at m1; rw [hj'] at m2; exact (asym m2 m1).elim
    · exact same (hj.trans hj'.symm)

/-- Any other neighbourhood is rejected. -/
theorem C31_bad_neighborhood (h w nb : ℕ) (h4 : nb ≠ 4) (h8 : nb ≠ 8) :
    gridEdges h w nb = .error .valueError := by
  simp [gridEdges, gridEdgeLists, h4, h8]

/-- With `return_lists=True` the edges are separated by direction: horizontal edges first, then vertical,
then the two diagonals. -/
theorem C31_direction_lists (h w nb : ℕ) (hnb : nb = 4 ∨ nb = 8) :
    ∃ R D rest, gridEdgeLists h w nb = .ok (R :: D :: rest) ∧
      gridEdges h w nb = .ok (R ++ D ++ rest.flatten) ∧
      rest.length = (if nb = 8 then 2 else 0) ∧
      (∀ u v, (u, v) ∈ R ↔ ∃ r c, r < h ∧ c + 1 < w ∧ u = r * w + c ∧ v = r * w + (c + 1)) ∧
      (∀ u v, (u, v) ∈ D ↔ ∃ r c, r + 1 < h ∧ c < w ∧ u = r * w + c ∧ v = (r + 1) * w + c) := by
  rcases hnb with rfl | rfl
  · exact ⟨right h w, down h w, [], by simp [gridEdgeLists], by simp [gridEdges, gridEdgeLists],
      by simp, mem_right h w, mem_down h w⟩
  · exact ⟨right h w, down h w, [upright h w, downright h w], by simp [gridEdgeLists],
      by simp [gridEdges, gridEdgeLists], by simp, mem_right h w, mem_down h w⟩

/-- concrete instance: a 2 × 3 grid with 8-neighbourhood. -/
example : gridEdges 2 3 8 = .ok [(0, 1), (1, 2), (3, 4), (4, 5), (0, 3), (1, 4), (2, 5),
    (3, 1), (4, 2), (0, 4), (1, 5)] := by decide +kernel

end Verif.Props
