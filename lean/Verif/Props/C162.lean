import Verif.Spec.SnakeWindow
import Verif.Props.C31
import Verif.Props.C111

/-!
# C162: the snake images
-/

namespace Verif.Props

open Verif.Common Verif.Spec Verif.Snakes Verif.Learner Verif.Lemmas
open Verif.EdgeFeature (edgeModel)

/-- every cell of the window occurs exactly once. -/
theorem C162_offsets (a b : ℤ) (ha : -1 ≤ a ∧ a ≤ 1) (hb : -1 ≤ b ∧ b ≤ 1) :
    ∃ k < 9, windowOffset k = (a, b) ∧ ∀ k' < 9, windowOffset k' = (a, b) → k' = k := by
  obtain ⟨h1, h2⟩ := ha
  obtain ⟨h3, h4⟩ := hb
  interval_cases a <;> interval_cases b <;> decide

/-- **C162, windows.** `neighborhood_feature` of an image with at least one pixel has one row per pixel and 45 columns; column
`9 c + k` is channel `c` of the `k`-th cell of the 3×3 window around the pixel, where cells outside of the image are background. -/
theorem C162_window (x : Pict) (hx : x.h * x.w ≠ 0) :
    ∃ M, neighborhoodFeature x = .ok M ∧ M.rows = x.h * x.w ∧ M.cols = 45 ∧
      ∀ i < x.h, ∀ j < x.w, ∀ c < 5, ∀ k < 9, M.get (i * x.w + j) (c * 9 + k) = windowValue x.h x.w x.get i j c k := by
  unfold neighborhoodFeature assign
  simp only [Slice.len, Slice.start, ne_eq, not_true_eq_false, or_self, if_false, bind, Except.bind, hx]
  refine ⟨_, rfl, rfl, rfl, fun i hi j hj c _ k hk => ?_⟩
  simp only [flat_div hj, flat_mod hj, flat_div hk, flat_mod hk]
  unfold windowValue padded
  interval_cases k <;> simp only [windowOffset, blankWindow] <;> norm_num <;> split_ifs <;> first | rfl | omega | skip
  all_goals congr 1 <;> omega

/-- **C162, empty images.** An image without pixels raises `ValueError`. -/
theorem C162_empty (x : Pict) (hx : x.h * x.w = 0) : neighborhoodFeature x = .error .valueError := by
  unfold neighborhoodFeature assign
  simp only [Slice.len, ne_eq, not_true_eq_false, or_self, if_false, bind, Except.bind, hx, if_true]

/-- **C162, colours.** `one_hot_colors` marks the colour of a pixel among the five; a pixel of another colour has no mark. -/
theorem C162_colours (x : Pict) (i j k : ℕ) (r : ℚ) (hr : ([1, 2, 3, 4, 6] : List ℚ)[k]? = some r) :
    (oneHotColors x).get i j k = if x.get i j 0 + 2 * x.get i j 1 + 4 * x.get i j 2 = 255 * r then 1 else 0 := by
  unfold oneHotColors colourNumber
  have hr' : colourClasses[k]? = some r := hr
  simp only [hr', Option.some.injEq]
  have : (r = x.get i j 0 / 255 * 1 + x.get i j 1 / 255 * 2 + x.get i j 2 / 255 * 4) ↔
      (x.get i j 0 + 2 * x.get i j 1 + 4 * x.get i j 2 = 255 * r) := by
    constructor
    · rintro rfl; ring
    · intro h; linarith
  simp only [this]

theorem snake_edges (h w : ℕ) : Grid.gridEdgeLists h w 4 = .ok [Grid.right h w, Grid.down h w] := by
  simp [Grid.gridEdgeLists]

theorem snake_edges_in (h w : ℕ) : EdgesIn (h * w) (Grid.right h w ++ Grid.down h w) := by
  obtain ⟨E, h1, h2, -⟩ := C31_grid_edges h w 4 (.inl rfl)
  have : Grid.gridEdges h w 4 = .ok (Grid.right h w ++ Grid.down h w) := by
    unfold Grid.gridEdges
    rw [snake_edges]
    simp
  rw [this] at h1
  cases h1
  exact h2

theorem snake_edges_ne {h w : ℕ} (hx : 2 ≤ h * w) : (Grid.right h w ++ Grid.down h w).length ≠ 0 := by
  rw [List.length_eq_zero_iff.ne]
  intro he
  obtain ⟨h1, h2⟩ := List.append_eq_nil_iff.mp he
  have h3 := (mem_right h w 0 1).not.mp (by rw [h1]; simp)
  have h4 := (mem_down h w 0 w).not.mp (by rw [h2]; simp)
  by_cases hw : 2 ≤ w
  · have : 0 < h := Nat.pos_of_ne_zero (by rintro rfl; omega)
    exact h3 ⟨0, 0, this, by omega, by simp, by simp⟩
  · have hw1 : w = 1 := by
      interval_cases w
      · omega
      · rfl
    subst hw1
    exact h4 ⟨0, 0, by omega, by omega, by simp, by simp⟩

/-- **C162, graphs.** `prepare_data` turns an image of at least two pixels into two instances of an `EdgeFeatureGraphCRF` on the grid
graph with the windows as features: one with the two directions as edge features, the other with the 180 features of the ends of
the edge, those of horizontal and vertical edges in different places. -/
theorem C162_prepare (x : Pict) (hx : 2 ≤ x.h * x.w) (S : ℕ) :
    ∃ M d e, neighborhoodFeature x = .ok M ∧ prepareOne x = .ok (d, e) ∧ EdgeFits ⟨S, 45, 2, [], []⟩ d ∧
      EdgeFits ⟨S, 45, 180, [], []⟩ e ∧ d.features = M ∧ e.features = M ∧ d.edges = e.edges ∧
      (∀ u v, (u, v) ∈ e.edges ↔ ∃ i j, i < x.h ∧ j < x.w ∧ u = i * x.w + j ∧
        ((j + 1 < x.w ∧ v = i * x.w + (j + 1)) ∨ (i + 1 < x.h ∧ v = (i + 1) * x.w + j))) ∧
      ∀ k < e.edges.length, ∀ u v, e.edges[k]? = some (u, v) → ∃ q, (q = 0 ∨ q = 1) ∧
        (q = 0 ↔ v = u + 1 ∧ u % x.w + 1 < x.w) ∧ (q = 1 → v = u + x.w) ∧
        (∀ c < 2, d.edgeFeatures.get k c = if c = q then 1 else 0) ∧
        ∀ f < 45, ∀ p < 4, e.edgeFeatures.get k (f * 4 + p) =
          if p = 2 * q then M.get u f else if p = 2 * q + 1 then M.get v f else 0 := by
  obtain ⟨M, h1, h2, h3, -⟩ := C162_window x (by omega)
  refine ⟨M, ⟨M, Grid.right x.h x.w ++ Grid.down x.h x.w, Grid.edgeListToFeatures [Grid.right x.h x.w, Grid.down x.h x.w]⟩,
    ⟨M, Grid.right x.h x.w ++ Grid.down x.h x.w,
      endFeatures M (Grid.right x.h x.w) (Grid.right x.h x.w ++ Grid.down x.h x.w)⟩, h1, ?_, ?_⟩
  · unfold prepareOne
    rw [snake_edges]
    simp only [bind, Except.bind, h1, List.flatten_cons, List.flatten_nil, List.append_nil]
    rw [if_neg (snake_edges_ne hx)]
    rfl
  have hE := snake_edges_in x.h x.w
  have hw : 0 < x.w := Nat.pos_of_ne_zero fun h => by rw [h] at hx; omega
  refine ⟨⟨by change 1 ≤ M.rows; omega, h3, by rw [h2]; exact hE, by simp [Grid.edgeListToFeatures], rfl⟩,
    ⟨by change 1 ≤ M.rows; omega, h3, by rw [h2]; exact hE, rfl, by simp [endFeatures, h3]⟩, rfl, rfl, rfl, ?_, ?_⟩
  · intro u v
    rw [List.mem_append, mem_right, mem_down]
    constructor
    · rintro (⟨i, j, a, b, c, d⟩ | ⟨i, j, a, b, c, d⟩)
      · exact ⟨i, j, a, by omega, c, .inl ⟨b, d⟩⟩
      · exact ⟨i, j, by omega, b, c, .inr ⟨a, d⟩⟩
    · rintro ⟨i, j, a, b, c, ⟨d, e⟩ | ⟨d, e⟩⟩
      · exact .inl ⟨i, j, a, d, c, e⟩
      · exact .inr ⟨i, j, d, b, c, e⟩
  · intro k hk u v hkv
    by_cases hr : k < (Grid.right x.h x.w).length
    · have hm : (u, v) ∈ Grid.right x.h x.w := by
        rw [List.getElem?_append_left hr] at hkv
        exact List.mem_of_getElem? hkv
      obtain ⟨i, j, a, b, c, d⟩ := (mem_right _ _ _ _).mp hm
      refine ⟨0, .inl rfl, ?_, by simp, ?_, ?_⟩
      · have : u % x.w = j := by rw [c]; exact flat_mod (by omega)
        exact ⟨fun _ => ⟨by omega, by omega⟩, fun _ => rfl⟩
      · intro c hc
        simp [Grid.edgeListToFeatures, hr]
      · intro f hf p hp
        simp only [endFeatures, List.getD_eq_getElem?_getD, hkv, Option.getD_some, hr, if_true, flat_div hp, flat_mod hp]
    · have hm : (u, v) ∈ Grid.down x.h x.w := by
        rw [List.getElem?_append_right (by omega)] at hkv
        exact List.mem_of_getElem? hkv
      obtain ⟨i, j, a, b, c, d⟩ := (mem_down _ _ _ _).mp hm
      refine ⟨1, .inr rfl, ?_, ?_, ?_, ?_⟩
      · refine ⟨fun h => absurd h (by omega), fun ⟨h, h'⟩ => ?_⟩
        have : u % x.w = j := by rw [c]; exact flat_mod (by omega)
        rw [d, c, Nat.succ_mul] at h
        omega
      · intro _
        rw [c, d, Nat.succ_mul]
        omega
      · intro c hc
        simp [Grid.edgeListToFeatures, hr]
      · intro f hf p hp
        simp only [endFeatures, List.getD_eq_getElem?_getD, hkv, Option.getD_some, hr, if_false, flat_div hp, flat_mod hp]

/-- **C162, one pixel.** `prepare_data` raises `ValueError` if an image has a single pixel. -/
theorem C162_single_pixel (x : Pict) (hh : x.h = 1) (hw : x.w = 1) : prepareOne x = .error .valueError := by
  obtain ⟨M, h1, -⟩ := C162_window x (by rw [hh, hw]; decide)
  unfold prepareOne
  rw [snake_edges, hh, hw]
  simp only [bind, Except.bind, h1, List.flatten_cons, List.flatten_nil, List.append_nil]
  rfl

/-- **C162, data sets.** `prepare_data` gives two instances for every image if all images have at least two pixels, and raises
`ValueError` otherwise. -/
theorem C162_data (X : List Pict) :
    ((∀ x ∈ X, 2 ≤ x.h * x.w) → ∃ D E, prepareData X = .ok (D, E) ∧ D.length = X.length ∧ E.length = X.length ∧
      ∀ (i : ℕ) (x : Pict), X[i]? = some x → ∃ d e, prepareOne x = .ok (d, e) ∧ D[i]? = some d ∧ E[i]? = some e) ∧
    ((∃ x ∈ X, ¬ 2 ≤ x.h * x.w) → prepareData X = .error .valueError) := by
  have hbad : ∀ x : Pict, ¬ 2 ≤ x.h * x.w → prepareOne x = .error .valueError := by
    intro x hx
    by_cases h0 : x.h * x.w = 0
    · unfold prepareOne
      rw [snake_edges]
      simp only [bind, Except.bind, C162_empty x h0]
    · have h1 : x.h * x.w = 1 := by omega
      exact C162_single_pixel x (Nat.eq_one_of_mul_eq_one_right h1) (Nat.eq_one_of_mul_eq_one_left h1)
  induction X with
  | nil => exact ⟨fun _ => ⟨[], [], rfl, rfl, rfl, by simp⟩, by simp⟩
  | cons x r ih =>
    by_cases hx : 2 ≤ x.h * x.w
    · obtain ⟨-, d, e, -, h2, -⟩ := C162_prepare x hx 0
      constructor
      · intro h
        obtain ⟨D, E, h3, h4, h5, h6⟩ := ih.1 fun y hy => h y (List.mem_cons_of_mem _ hy)
        refine ⟨d :: D, e :: E, ?_, by simp [h4], by simp [h5], ?_⟩
        · unfold prepareData at h3 ⊢
          rw [List.mapM_cons, h2]
          cases hr : r.mapM prepareOne with
          | error err => rw [hr] at h3; simp [bind, Except.bind] at h3
          | ok l =>
            rw [hr] at h3
            simp only [bind, Except.bind, Except.ok.injEq, Prod.mk.injEq] at h3
            simp only [bind, Except.bind, pure, Except.pure, List.map_cons, h3.1, h3.2]
        · intro i y hy
          cases i with
          | zero =>
            simp only [List.getElem?_cons_zero, Option.some.injEq] at hy
            subst hy
            exact ⟨d, e, h2, by simp, by simp⟩
          | succ i =>
            simp only [List.getElem?_cons_succ] at hy ⊢
            exact h6 i y hy
      · rintro ⟨y, hy, hy2⟩
        have := ih.2 (by
          rcases List.mem_cons.mp hy with rfl | h
          · exact absurd hx hy2
          · exact ⟨y, h, hy2⟩)
        unfold prepareData at this ⊢
        rw [List.mapM_cons, h2]
        cases hr : r.mapM prepareOne with
        | error err => rw [hr] at this; simpa [bind, Except.bind] using this
        | ok l => rw [hr] at this; simp [bind, Except.bind] at this
    · refine ⟨fun h => absurd (h x List.mem_cons_self) hx, fun _ => ?_⟩
      unfold prepareData
      rw [List.mapM_cons, hbad x hx]
      rfl

/-- **C162, training.** What C111 says about training holds for prepared images with one label per pixel: with relaxed inference the
one-slack learner and the Frank-Wolfe learner minimise the risk. -/
theorem C162_trains (P : Dispatch.Packages) (method : Dispatch.Method) (S : ℕ) (hS : 2 ≤ S) (hP : Relaxes S P method)
    (data : List (Pict × Labels)) (hne : data ≠ [])
    (hd : ∀ d ∈ data, 2 ≤ d.1.h * d.1.w ∧ d.2.size = d.1.h * d.1.w ∧ Valid (d.1.h * d.1.w) S d.2.get) :
    ∃ R, ∃ prepared : List (EdgeFeature.X × Labels),
      List.Forall₂ (fun d p => ∃ q, prepareOne d.1 = .ok (q, p.1) ∧ p.2 = d.2) data prepared ∧
      OneSlackTrains (edgeModel (Dispatch.backend P method) ⟨S, fun _ => 1⟩ ⟨S, 45, 180, [], []⟩)
        (edgeOutputs ⟨S, 45, 180, [], []⟩ (relaxedOutputs S)) (labelled prepared) R (totalWeight ⟨S, fun _ => 1⟩ prepared) ∧
      FrankWolfeTrains (edgeModel (Dispatch.backend P method) ⟨S, fun _ => 1⟩ ⟨S, 45, 180, [], []⟩)
        (edgeOutputs ⟨S, 45, 180, [], []⟩ (relaxedOutputs S)) (labelled prepared) R (totalWeight ⟨S, fun _ => 1⟩ prepared) := by
  have key : ∃ prepared : List (EdgeFeature.X × Labels),
      List.Forall₂ (fun d p => ∃ q, prepareOne d.1 = .ok (q, p.1) ∧ p.2 = d.2) data prepared ∧
      EdgeData ⟨S, 45, 180, [], []⟩ prepared := by
    clear hne
    induction data with
    | nil => exact ⟨[], .nil, by intro d hd; simp at hd⟩
    | cons d r ih =>
      obtain ⟨l, h1, h2⟩ := ih fun t ht => hd t (List.mem_cons_of_mem _ ht)
      obtain ⟨g1, g2, g3⟩ := hd d List.mem_cons_self
      obtain ⟨M, q, e, hM, hp, -, hf, -, he, -⟩ := C162_prepare d.1 g1 S
      obtain ⟨M', hM', hr, -⟩ := C162_window d.1 (by omega)
      rw [hM] at hM'
      cases hM'
      refine ⟨(e, d.2) :: l, .cons ⟨q, hp, rfl⟩ h1, ?_⟩
      intro t ht
      rcases List.mem_cons.mp ht with rfl | ht
      · refine ⟨hf, ?_, ?_⟩
        · change d.2.size = e.features.rows
          rw [he, hr, g2]
        · change Valid e.features.rows S d.2.get
          rw [he, hr]
          exact g3
      · exact h2 t ht
  obtain ⟨prepared, h1, h2⟩ := key
  have hne' : prepared ≠ [] := by
    rintro rfl
    cases h1
    exact hne rfl
  have hR : ∃ R, ∀ d ∈ prepared, edgeBound ⟨S, 45, 180, [], []⟩ d.1 ≤ R := by
    clear h1 h2 hne'
    induction prepared with
    | nil => exact ⟨0, by simp⟩
    | cons d r ih =>
      obtain ⟨R, hR⟩ := ih
      refine ⟨max R (edgeBound ⟨S, 45, 180, [], []⟩ d.1), fun t ht => ?_⟩
      rcases List.mem_cons.mp ht with rfl | ht
      · exact le_max_right _ _
      · exact (hR t ht).trans (le_max_left _ _)
  obtain ⟨R, hR⟩ := hR
  exact ⟨R, prepared, h1, C111_relaxed P method ⟨S, fun _ => 1⟩ ⟨S, 45, 180, [], []⟩ rfl rfl (by norm_num) hS rfl
    (fun _ _ => by norm_num) hP prepared hne' h2 R hR⟩

/-! ### the hypotheses can be met -/

/-- an image of two rows and three columns: a snake of two cells heading right, on background. -/
def tinySnake : Pict := ⟨2, 3, fun i j c => if i = 0 ∧ j < 2 then (if c = 2 then 1 else 0) else (if c = 3 then 1 else 0)⟩

example : 2 ≤ tinySnake.h * tinySnake.w := by decide

/-- cell 7 of the window of the first pixel is the second cell of the snake, cell 1 lies outside. -/
example : (neighborhoodFeature tinySnake).toOption.map (fun M => (M.get 0 (2 * 9 + 7), M.get 0 (3 * 9 + 7), M.get 0 (3 * 9 + 1))) =
    some (1, 0, 1) := by decide +kernel

example : (prepareOne tinySnake).toOption.map (fun p => (p.1.edges.length, p.2.edgeFeatures.cols, p.2.edgeFeatures.get 0 (26 * 4 + 1))) =
    some (7, 180, 1) := by decide +kernel

/-- yellow is heading right. -/
example : (oneHotColors ⟨1, 1, fun _ _ c => if c = 2 then 0 else 255⟩).get 0 0 2 = 1 := by decide +kernel

example : ∃ R, ∃ prepared : List (EdgeFeature.X × Labels), prepared.length = 1 ∧
    OneSlackTrains (edgeModel (Dispatch.backend idealPackages (.name "lp")) ⟨3, fun _ => 1⟩ ⟨3, 45, 180, [], []⟩)
      (edgeOutputs ⟨3, 45, 180, [], []⟩ (relaxedOutputs 3)) (labelled prepared) R (totalWeight ⟨3, fun _ => 1⟩ prepared) := by
  obtain ⟨R, p, h1, h2, -⟩ := C162_trains idealPackages (.name "lp") 3 (by decide) (idealPackages_relaxes _ (by decide))
    [(tinySnake, ⟨6, fun i => if i = 0 then 1 else if i = 1 then 2 else 0⟩)] (by simp) (by
      intro d hd
      rw [List.mem_singleton] at hd
      subst hd
      exact ⟨by decide, rfl, by unfold Valid; decide⟩)
  exact ⟨R, p, h1.length_eq.symm, h2⟩

end Verif.Props
