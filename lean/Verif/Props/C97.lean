import Verif.Props.C96

/-!
# C97: synthetic images: the shapes drawn; `generate_bars` can fail

Every image of `generate_square_with_hole` has exactly eight labelled pixels; every image of `generate_crosses` is a union
of crosses of which successive ones do not overlap. `generate_bars` counts the labels that were drawn to get the number of
channels, which fails when the draws contain label 2 but not label 1.
-/

namespace Verif.Props

open Verif.Datasets Verif.Spec

/-- the eight pixels around the hole. -/
def ringCells (t l : ℕ) : List (ℕ × ℕ) :=
  [(t, l), (t, l + 1), (t, l + 2), (t + 1, l), (t + 1, l + 2), (t + 2, l), (t + 2, l + 1), (t + 2, l + 2)]

/-- `generate_square_with_hole`: the labelled pixels are a ring inside of the image. -/
theorem C97_hole (n noise totalSize : ℕ) : Post (generateSquareWithHole n noise totalSize) fun r =>
    ∀ y ∈ r.2, ∃ t l, 1 ≤ t ∧ t + 3 < totalSize ∧ 1 ≤ l ∧ l + 3 < totalSize ∧
      ∀ i j, y i j = if (i, j) ∈ ringCells t l then 1 else 0 := by
  have himg : Post (holeImage totalSize) fun y => ∃ t l, 1 ≤ t ∧ t + 3 < totalSize ∧ 1 ≤ l ∧ l + 3 < totalSize ∧
      ∀ i j, y i j = if (i, j) ∈ ringCells t l then 1 else 0 := by
    refine Post.bind (pair_post 1 _) fun q hq => Post.pure ⟨q.1, q.2, by omega, by omega, by omega, by omega, ?_⟩
    intro i j
    unfold box blank ringCells
    simp only [List.mem_cons, Prod.mk.injEq, List.not_mem_nil, or_false]
    split_ifs <;> omega
  refine Post.bind (collect_post himg n) fun ys hys => ?_
  exact (render_oneHot 2 totalSize 0 totalSize noise 2 ys).mono fun r hr => by rw [hr.1]; exact hys.2

theorem ringCells_nodup (t l : ℕ) : (ringCells t l).Nodup ∧ (ringCells t l).length = 8 := by
  constructor
  · simp [ringCells]
  · rfl

/-- successive positions are more than two rows or columns apart. -/
def FarChain : ℤ × ℤ → List (ℕ × ℕ) → Prop
  | _, [] => True
  | old, p :: ps => far 2 old p = true ∧ FarChain (toOld p) ps

theorem cross_eq (p : ℕ × ℕ) (y : Img) (i j : ℕ) :
    cross p 1 1 y i j = if (i, j) ∈ crossCells p.1 p.2 then 1 else y i j := by
  unfold cross box crossCells
  simp only [List.mem_cons, Prod.mk.injEq, List.not_mem_nil, or_false]
  split_ifs <;> first | rfl | omega

theorem times_cross (fuel hi : ℕ) : ∀ m (s : (ℤ × ℤ) × Img), Post (times (crossStep fuel hi 1) m s) fun s' =>
    ∃ ps : List (ℕ × ℕ), ps.length = m ∧ (∀ p ∈ ps, (1 ≤ p.1 ∧ p.1 < hi) ∧ 1 ≤ p.2 ∧ p.2 < hi) ∧ FarChain s.1 ps ∧
      ∀ i j, s'.2 i j = if ∃ p ∈ ps, (i, j) ∈ crossCells p.1 p.2 then 1 else s.2 i j
  | 0, s => Post.pure ⟨[], rfl, by simp, True.intro, by simp⟩
  | m + 1, s => by
    have hstep : Post (crossStep fuel hi 1 s) fun s' => ∃ p : ℕ × ℕ, ((1 ≤ p.1 ∧ p.1 < hi) ∧ 1 ≤ p.2 ∧ p.2 < hi) ∧
        far 2 s.1 p = true ∧ s' = (toOld p, cross p 1 1 s.2) :=
      Post.bind (until_post (pair_post 1 hi) fuel) fun p hp => Post.pure ⟨p, hp.1, hp.2, rfl⟩
    refine Post.bind hstep fun s1 hs1 => ?_
    obtain ⟨p, hp, hfar, rfl⟩ := hs1
    refine (times_cross fuel hi m _).mono fun s' hs' => ?_
    obtain ⟨ps, h1, h2, h3, h4⟩ := hs'
    refine ⟨p :: ps, by simp [h1], ?_, ⟨hfar, h3⟩, fun i j => ?_⟩
    · intro q hq
      rcases List.mem_cons.1 hq with rfl | hq
      · exact hp
      · exact h2 q hq
    · rw [h4 i j]
      simp only [cross_eq, List.mem_cons, exists_eq_or_imp]
      by_cases ha : ∃ p ∈ ps, (i, j) ∈ crossCells p.1 p.2
      · simp [ha]
      · simp [ha]

theorem crossCells_disjoint {p q : ℕ × ℕ} (h : far 2 (toOld p) q = true) :
    List.Disjoint (crossCells p.1 p.2) (crossCells q.1 q.2) := by
  unfold far toOld at h
  simp only [Bool.or_eq_true, decide_eq_true_eq, lt_abs] at h
  intro x hx hy
  obtain ⟨a, b⟩ := x
  simp only [crossCells, List.mem_cons, Prod.mk.injEq, List.not_mem_nil, or_false] at hx hy
  omega

/-- successive crosses share no pixel. -/
def SuccessiveDisjoint : List (ℕ × ℕ) → Prop
  | p :: q :: ps => List.Disjoint (crossCells p.1 p.2) (crossCells q.1 q.2) ∧ SuccessiveDisjoint (q :: ps)
  | _ => True

theorem farChain_disjoint : ∀ (ps : List (ℕ × ℕ)) (o : ℤ × ℤ), FarChain o ps → SuccessiveDisjoint ps
  | [], _, _ => True.intro
  | [_], _, _ => True.intro
  | p :: q :: ps, _, ⟨_, h2⟩ => ⟨crossCells_disjoint h2.1, farChain_disjoint (q :: ps) (toOld p) h2⟩

/-- `generate_crosses`: every image is the union of `n_crosses` whole crosses away from the border, of which successive ones
do not overlap. -/
theorem C97_crosses (fuel n noise totalSize nCrosses : ℕ) :
    Post (generateCrosses fuel n noise totalSize nCrosses) fun r => ∀ y ∈ r.2, ∃ ps : List (ℕ × ℕ),
      ps.length = nCrosses ∧ (∀ p ∈ ps, 1 ≤ p.1 ∧ p.1 + 3 < totalSize ∧ 1 ≤ p.2 ∧ p.2 + 3 < totalSize) ∧
      SuccessiveDisjoint ps ∧ ∀ i j, y i j = if ∃ p ∈ ps, (i, j) ∈ crossCells p.1 p.2 then 1 else 0 := by
  refine Post.bind (collect_post (times_cross fuel (totalSize - 3) nCrosses ((-3, -3), blank)) n) fun ss hss => ?_
  refine (render_oneHot 2 totalSize 1 (totalSize - 1) noise 2 (ss.map Prod.snd)).mono fun r hr => ?_
  rw [hr.1]
  intro y hy
  obtain ⟨a, ha, rfl⟩ := List.mem_map.1 hy
  obtain ⟨ps, h1, h2, h3, h4⟩ := hss.2 a ha
  refine ⟨ps, h1, fun p hp => ?_, farChain_disjoint ps _ h3, h4⟩
  have := h2 p hp
  omega

/-- With two crosses exactly ten pixels are labelled. -/
theorem C97_two_crosses (fuel n noise totalSize : ℕ) :
    Post (generateCrosses fuel n noise totalSize 2) fun r => ∀ y ∈ r.2, ∃ L : List (ℕ × ℕ),
      L.Nodup ∧ L.length = 10 ∧ (∀ c ∈ L, c.1 < totalSize ∧ c.2 < totalSize) ∧
      ∀ i j, y i j = if (i, j) ∈ L then 1 else 0 := by
  refine (C97_crosses fuel n noise totalSize 2).mono fun r hr y hy => ?_
  obtain ⟨ps, h1, h2, h3, h4⟩ := hr y hy
  match ps, h1 with
  | [p, q], _ =>
    refine ⟨crossCells p.1 p.2 ++ crossCells q.1 q.2, ?_, rfl, ?_, ?_⟩
    · refine List.Nodup.append ?_ ?_ h3.1 <;> simp [crossCells]
    · have hp := h2 p (by simp)
      have hq := h2 q (by simp)
      intro c hc
      obtain ⟨a, b⟩ := c
      simp only [crossCells, List.mem_append, List.mem_cons, Prod.mk.injEq, List.not_mem_nil, or_false] at hc
      dsimp only
      omega
    · intro i j
      rw [h4 i j]
      simp

/-! ### bars -/

theorem countLabels_ge {size : ℕ} {ys : List Img} {S : List ℕ} (hnd : S.Nodup)
    (h : ∀ v ∈ S, ∃ y ∈ ys, ∃ i < size, ∃ j < size, y i j = v) : S.length ≤ countLabels size ys := by
  unfold countLabels
  refine (hnd.subperm fun v hv => ?_).length_le
  obtain ⟨y, hy, i, hi, j, hj, rfl⟩ := h v hv
  rw [List.mem_dedup]
  simp only [List.mem_flatMap, List.mem_map, List.mem_range]
  exact ⟨y, hy, i, hi, j, hj, rfl⟩

theorem countLabels_le {size : ℕ} {ys : List Img} {T : List ℕ}
    (h : ∀ y ∈ ys, ∀ i < size, ∀ j < size, y i j ∈ T) : countLabels size ys ≤ T.length := by
  unfold countLabels
  refine ((List.nodup_dedup _).subperm fun v hv => ?_).length_le
  rw [List.mem_dedup] at hv
  simp only [List.mem_flatMap, List.mem_map, List.mem_range] at hv
  obtain ⟨y, hy, i, hi, j, hj, rfl⟩ := hv
  exact h y hy i hi j hj

theorem barsStep_total {barsSize totalSize : ℕ} (hfit : barsSize + 1 < totalSize) (separate : Bool)
    (s : (ℤ × ℤ) × Img) (hs : s.2 0 0 = 0 ∧ ∀ i j, s.2 i j ∈ (if separate then [0, 1, 2] else [0, 1])) :
    Total (barsStep barsSize totalSize separate s) fun s' =>
      s'.2 0 0 = 0 ∧ ∀ i j, s'.2 i j ∈ (if separate then [0, 1, 2] else [0, 1]) := by
  refine Total.bind (pair_total (by omega)) fun p hp => ?_
  have h0 : ∀ h w v, box p.1 p.2 h w v s.2 0 0 = 0 := by
    intro h w v
    unfold box
    rw [if_neg (by omega)]
    exact hs.1
  by_cases hfar : far 3 s.1 p = true
  · rw [if_pos hfar]
    refine Total.bind (fun tape q => ⟨_, _, rfl, True.intro⟩ : Total coin fun _ => True) fun c _ => ?_
    cases c
    · exact Total.pure ⟨h0 _ _ _, box_labels (by cases separate <;> simp) hs.2 _ _ _ _⟩
    · exact Total.pure ⟨h0 _ _ _, box_labels (by cases separate <;> simp) hs.2 _ _ _ _⟩
  · rw [if_neg hfar]
    exact Total.pure hs

/-- the label images `generate_bars` draws, before noise. -/
def barImages (n barsSize totalSize : ℕ) (separate : Bool) : Gen (List Img) := do
  let ss ← collect (times (barsStep barsSize totalSize separate) 2 ((-10, -10), blank)) n
  return ss.map Prod.snd

theorem barImages_total {barsSize totalSize : ℕ} (hfit : barsSize + 1 < totalSize) (n : ℕ) (separate : Bool) :
    Total (barImages n barsSize totalSize separate) fun ys => ys.length = n ∧ ∀ y ∈ ys,
      y 0 0 = 0 ∧ ∀ i j, y i j ∈ (if separate then [0, 1, 2] else [0, 1]) := by
  refine Total.bind (collect_total (times_total (barsStep_total hfit separate) 2 ((-10, -10), blank)
    ⟨rfl, blank_labels (by cases separate <;> simp)⟩) n) fun ss hss => Total.pure ?_
  exact snd_list (P := fun y => y 0 0 = 0 ∧ ∀ i j, y i j ∈ (if separate then [0, 1, 2] else [0, 1])) hss

theorem generateBars_run {n noise barsSize totalSize : ℕ} {separate : Bool} {tape : ℕ → ℕ} {p q : ℕ} {ys : List Img}
    (h : barImages n barsSize totalSize separate tape p = .done (ys, q)) :
    generateBars n noise barsSize totalSize separate tape p = (do
      let fl ← forAll (flip 0 totalSize noise (countLabels totalSize ys)) ys
      let xs ← encode (countLabels totalSize ys) totalSize [1] fl
      return (xs, ys, countLabels totalSize ys) : Gen _) tape q := by
  obtain ⟨ss, r, h1, h2⟩ := bind_done.1 h
  rw [pure_run] at h2
  cases h2
  exact bind_of_done _ h1

/-- With one label for both kinds of bars, `generate_bars` returns whenever a bar fits. -/
theorem C97_bars_same (n noise barsSize totalSize : ℕ) (hfit : barsSize + 1 < totalSize) (tape : ℕ → ℕ) (p : ℕ) :
    ∃ r, generateBars n noise barsSize totalSize false tape p = .done r := by
  obtain ⟨ys, q, h1, h2, h3⟩ := barImages_total hfit n false tape p
  simp only [Bool.false_eq_true, if_false] at h3
  rw [generateBars_run h1]
  cases ys with
  | nil => exact ⟨_, rfl⟩
  | cons y0 ys =>
    have hpos : 0 < totalSize := by omega
    have h0 : ∃ y ∈ y0 :: ys, ∃ i < totalSize, ∃ j < totalSize, y i j = 0 :=
      ⟨y0, by simp, 0, hpos, 0, hpos, (h3 y0 (by simp)).1⟩
    have hk1 : 1 ≤ countLabels totalSize (y0 :: ys) :=
      countLabels_ge (S := [0]) (by simp) (by simpa using h0)
    have hlt : ∀ y ∈ y0 :: ys, ∀ i < totalSize, ∀ j < totalSize, y i j < countLabels totalSize (y0 :: ys) := by
      intro y hy i hi j hj
      have := (h3 y hy).2 i j
      simp only [List.mem_cons, List.not_mem_nil, or_false] at this
      rcases this with h | h
      · omega
      · have : 2 ≤ countLabels totalSize (y0 :: ys) :=
          countLabels_ge (S := [0, 1]) (by simp) (by
            intro v hv
            simp only [List.mem_cons, List.not_mem_nil, or_false] at hv
            rcases hv with rfl | rfl
            · exact h0
            · exact ⟨y, hy, i, hi, j, hj, h⟩)
        omega
    generalize countLabels totalSize (y0 :: ys) = k at hk1 hlt ⊢
    have : Total (do
        let fl ← forAll (flip 0 totalSize noise k) (y0 :: ys)
        let xs ← encode k totalSize [1] fl
        return (xs, y0 :: ys, k) : Gen _) fun _ => True := by
      refine Total.bind ((forAll_total (fun y => flip_total hpos hk1 y) (y0 :: ys)).and_post
        (forAll_post (fun y => flip_post 0 totalSize noise k y) (y0 :: ys))) fun fl hfl =>
          Total.bind (encode_total ?_) fun _ _ => Total.pure True.intro
      intro z hz i hi j hj f hf
      obtain ⟨y, hy, h⟩ := forall₂_right_mem hfl.2 z hz
      simp only [List.mem_singleton] at hf
      subst hf
      rw [one_mul]
      rcases h.2 i j with h' | h'
      · exact h'
      · rw [h']; exact hlt y hy i hi j hj
    obtain ⟨a, r, h5, _⟩ := this tape q
    exact ⟨_, h5⟩

theorem forAll_flip_zero (hi k : ℕ) (tape : ℕ → ℕ) (p : ℕ) : ∀ ys : List Img,
    forAll (flip 0 hi 0 k) ys tape p = .done (ys, p)
  | [] => rfl
  | y :: ys => by
    have h1 : flip 0 hi 0 k y tape p = .done (y, p) := rfl
    refine (bind_of_done _ h1).trans ((bind_of_done _ (forAll_flip_zero hi k tape p ys)).trans rfl)

/-- **Without noise, `generate_bars` fails exactly if some bar is vertical and none is horizontal**: label 2 occurs, label 1
does not, there are two channels, and channel 2 does not exist. -/
theorem C97_bars_partial (n barsSize totalSize : ℕ) (hfit : barsSize + 1 < totalSize) (tape : ℕ → ℕ) (p : ℕ) :
    ∃ ys q, barImages n barsSize totalSize true tape p = .done (ys, q) ∧
      let uses := fun v => ∃ y ∈ ys, ∃ i < totalSize, ∃ j < totalSize, y i j = v
      ((uses 2 ∧ ¬ uses 1) → generateBars n 0 barsSize totalSize true tape p = .raised .indexError) ∧
      (¬ (uses 2 ∧ ¬ uses 1) → ∃ xs, generateBars n 0 barsSize totalSize true tape p =
        .done ((xs, ys, countLabels totalSize ys), q)) := by
  obtain ⟨ys, q, h1, h2, h3⟩ := barImages_total hfit n true tape p
  simp only [if_true] at h3
  refine ⟨ys, q, h1, ?_⟩
  dsimp only
  have hpos : 0 < totalSize := by omega
  rw [generateBars_run h1]
  have hrun : ∀ k : ℕ, (do
      let fl ← forAll (flip 0 totalSize 0 k) ys
      let xs ← encode k totalSize [1] fl
      return (xs, ys, k) : Gen _) tape q = (do
      let xs ← encode k totalSize [1] ys
      return (xs, ys, k) : Gen _) tape q := fun k => bind_of_done _ (forAll_flip_zero _ _ _ _ _)
  rw [hrun]
  constructor
  · rintro ⟨⟨y, hy, i, hi, j, hj, hv⟩, hno⟩
    have hle : countLabels totalSize ys ≤ 2 := countLabels_le (T := [0, 2]) (by
      intro y hy i hi j hj
      have := (h3 y hy).2 i j
      simp only [List.mem_cons, List.not_mem_nil, or_false] at this ⊢
      rcases this with h | h | h
      · exact .inl h
      · exact absurd ⟨y, hy, i, hi, j, hj, h⟩ hno
      · exact .inr h)
    refine bind_of_raised _ ?_
    unfold encode
    rw [if_pos]
    · rfl
    · simp only [List.any_eq_true, List.mem_range, decide_eq_true_eq]
      exact ⟨y, hy, i, hi, j, hj, 1, by simp, by omega⟩
  · intro hok
    have hlt : ∀ y ∈ ys, ∀ i < totalSize, ∀ j < totalSize, ∀ f ∈ [1], f * y i j < countLabels totalSize ys := by
      intro y hy i hi j hj f hf
      simp only [List.mem_singleton] at hf
      subst hf
      rw [one_mul]
      have h0 : ∃ y ∈ ys, ∃ i < totalSize, ∃ j < totalSize, y i j = 0 :=
        ⟨y, hy, 0, hpos, 0, hpos, (h3 y hy).1⟩
      have := (h3 y hy).2 i j
      simp only [List.mem_cons, List.not_mem_nil, or_false] at this
      rcases this with h | h | h
      · have : 1 ≤ countLabels totalSize ys := countLabels_ge (S := [0]) (by simp) (by simpa using h0)
        omega
      · have : 2 ≤ countLabels totalSize ys := countLabels_ge (S := [0, 1]) (by simp) (by
          intro v hv
          simp only [List.mem_cons, List.not_mem_nil, or_false] at hv
          rcases hv with rfl | rfl
          · exact h0
          · exact ⟨y, hy, i, hi, j, hj, h⟩)
        omega
      · have h1' : ∃ y ∈ ys, ∃ i < totalSize, ∃ j < totalSize, y i j = 1 := by
          by_contra hno
          exact hok ⟨⟨y, hy, i, hi, j, hj, h⟩, hno⟩
        have : 3 ≤ countLabels totalSize ys := countLabels_ge (S := [0, 1, 2]) (by simp) (by
          intro v hv
          simp only [List.mem_cons, List.not_mem_nil, or_false] at hv
          rcases hv with rfl | rfl | rfl
          · exact h0
          · exact h1'
          · exact ⟨y, hy, i, hi, j, hj, h⟩)
        omega
    have := encode_total hlt
    unfold encode at this ⊢
    split_ifs at this ⊢ with hbad
    · obtain ⟨_, _, h5, _⟩ := this tape q
      exact nomatch h5
    · exact ⟨_, rfl⟩

/-- The failure happens for one sample with the default sizes and noise: the only bar drawn is vertical (the second
position is too close to the first). -/
theorem C97_violated_bars : generateBars 1 5 3 8 true (fun _ => 1) 0 = .raised .indexError := by
  rfl

end Verif.Props
