import Verif.Lemmas.Gen
import Mathlib.Tactic.IntervalCases

/-!
# C95: synthetic images: what the features and the labels are

Whatever the random numbers, when one of the generators of image data returns, it returns one feature image and one label
image per sample, the labels are those announced, and the features are the code of the label image with at most `noise`
pixels changed.
-/

namespace Verif.Props

open Verif.Datasets Verif.Spec

theorem forall₂_compose {α β γ : Type} {R : α → β → Prop} {S : β → γ → Prop} {T : γ → α → Prop}
    (h : ∀ a b c, R a b → S b c → T c a) : ∀ {l : List α} {m : List β} {n : List γ}, List.Forall₂ R l m →
    List.Forall₂ S m n → List.Forall₂ T n l
  | [], _, _, .nil, .nil => .nil
  | _ :: _, _, _, .cons h1 t1, .cons h2 t2 => .cons (h _ _ _ h1 h2) (forall₂_compose h t1 t2)

theorem render_oneHot (channels size lo hi noise k : ℕ) (ys : List Img) :
    Post (do
      let fl ← forAll (flip lo hi noise k) ys
      let xs ← encode channels size [1] fl
      return (xs, ys)) fun r => r.2 = ys ∧ List.Forall₂ (NoisyOneHot channels size lo hi noise) r.1 ys := by
  refine Post.bind (forAll_post (fun y => flip_post lo hi noise k y) ys) fun fl hfl =>
    Post.bind (encode_post channels size [1] fl) fun xs hxs => Post.pure ⟨rfl, ?_⟩
  refine forall₂_compose (fun y z x h1 h2 => ⟨z, h1.1, fun i hi j hj => ?_⟩) hfl hxs
  obtain ⟨h3, h4⟩ := h2 i hi j hj
  refine ⟨by simpa using h3 1 (by simp), fun c _ => ?_⟩
  rw [h4 c]; simp

theorem nonzero_eq (y : Img) : nonzero y = fun i j => if y i j = 0 then 0 else 1 := by
  funext i j; unfold nonzero; by_cases h : y i j = 0 <;> simp [h]

theorem render_foreground (channels size lo hi noise : ℕ) (factors : List ℕ) (ys : List Img)
    (hf : ∀ c < channels, c ∈ factors ↔ c ≠ 0) (hne : factors ≠ []) :
    Post (do
      let fl ← forAll (fun y => flip lo hi noise 2 (nonzero y)) ys
      let xs ← encode channels size factors fl
      return (xs, ys)) fun r => r.2 = ys ∧ List.Forall₂ (NoisyForeground channels size lo hi noise) r.1 ys := by
  refine Post.bind (forAll_post (fun y => flip_post lo hi noise 2 (nonzero y)) ys) fun fl hfl =>
    Post.bind (encode_post channels size factors fl) fun xs hxs => Post.pure ⟨rfl, ?_⟩
  refine forall₂_compose (fun y z x h1 h2 => ⟨z, ?_, fun i hi j hj c hc => ?_⟩) hfl hxs
  · have := h1.1; rw [nonzero_eq] at this; exact this
  · have hz : z i j = 0 ∨ z i j = 1 := by
      have h5 := h1.2 i j
      rw [nonzero_eq] at h5
      rcases h5 with h5 | h5
      · omega
      · rw [h5]; by_cases h6 : y i j = 0 <;> simp [h6]
    rw [(h2 i hi j hj).2 c]
    obtain ⟨f0, hf0⟩ := List.exists_mem_of_ne_nil _ hne
    rcases hz with hz | hz
    · have : (∃ f ∈ factors, c = f * z i j) ↔ (c = 0 ↔ z i j = 0) := by
        rw [hz]; simp only [mul_zero, iff_true]
        exact ⟨fun ⟨_, _, h⟩ => h, fun h => ⟨f0, hf0, h⟩⟩
      simp only [this]
    · have : (∃ f ∈ factors, c = f * z i j) ↔ (c = 0 ↔ z i j = 0) := by
        rw [hz]; simp only [mul_one, exists_eq_right', one_ne_zero, iff_false]
        exact hf c hc
      simp only [this]

theorem box_labels {s : List ℕ} {v : ℕ} (hv : v ∈ s) {y : Img} (hy : ∀ i j, y i j ∈ s) (t l h w : ℕ) :
    ∀ i j, box t l h w v y i j ∈ s := by
  intro i j
  unfold box
  split_ifs
  · exact hv
  · exact hy i j

theorem blank_labels {s : List ℕ} (h : 0 ∈ s) : ∀ i j, blank i j ∈ s := fun _ _ => h

theorem cross_labels {s : List ℕ} {v c : ℕ} (hv : v ∈ s) (hc : c ∈ s) {y : Img} (hy : ∀ i j, y i j ∈ s) (p : ℕ × ℕ) :
    ∀ i j, cross p v c y i j ∈ s :=
  box_labels hc (box_labels hv (box_labels hv hy _ _ _ _) _ _ _ _) _ _ _ _

/-- What a generator of one-hot coded images returns. -/
def ImagesOk (n channels size lo hi noise : ℕ) (s : List ℕ) (r : List Feat × List Img) : Prop :=
  r.2.length = n ∧ (∀ y ∈ r.2, LabelsIn size s y) ∧ List.Forall₂ (NoisyOneHot channels size lo hi noise) r.1 r.2

/-- What a generator of foreground coded images returns. -/
def ForegroundOk (n channels size lo hi noise : ℕ) (s : List ℕ) (r : List Feat × List Img) : Prop :=
  r.2.length = n ∧ (∀ y ∈ r.2, LabelsIn size s y) ∧ List.Forall₂ (NoisyForeground channels size lo hi noise) r.1 r.2

theorem imagesOk_of {n channels size lo hi noise k : ℕ} {s : List ℕ} {ys : List Img} (hn : ys.length = n)
    (hs : ∀ y ∈ ys, ∀ i j, y i j ∈ s) :
    Post (do
      let fl ← forAll (flip lo hi noise k) ys
      let xs ← encode channels size [1] fl
      return (xs, ys)) (ImagesOk n channels size lo hi noise s) :=
  (render_oneHot channels size lo hi noise k ys).mono fun r h =>
    ⟨by rw [h.1]; exact hn, by rw [h.1]; exact fun y hy i _ j _ => hs y hy i j, by rw [h.1]; exact h.2⟩

theorem foregroundOk_of {n channels size lo hi noise : ℕ} {factors s : List ℕ} {ys : List Img} (hn : ys.length = n)
    (hs : ∀ y ∈ ys, ∀ i j, y i j ∈ s) (hf : ∀ c < channels, c ∈ factors ↔ c ≠ 0) (hne : factors ≠ []) :
    Post (do
      let fl ← forAll (fun y => flip lo hi noise 2 (nonzero y)) ys
      let xs ← encode channels size factors fl
      return (xs, ys)) (ForegroundOk n channels size lo hi noise s) :=
  (render_foreground channels size lo hi noise factors ys hf hne).mono fun r h =>
    ⟨by rw [h.1]; exact hn, by rw [h.1]; exact fun y hy i _ j _ => hs y hy i j, by rw [h.1]; exact h.2⟩

theorem snd_list {σ : Type} {n : ℕ} {P : Img → Prop} {ss : List (σ × Img)}
    (h : ss.length = n ∧ ∀ a ∈ ss, P a.2) : (ss.map Prod.snd).length = n ∧ ∀ y ∈ ss.map Prod.snd, P y := by
  refine ⟨by simpa using h.1, fun y hy => ?_⟩
  obtain ⟨a, ha, rfl⟩ := List.mem_map.1 hy
  exact h.2 a ha

theorem easyStep_labels (boxSize totalSize : ℕ) (s : (ℤ × ℤ) × Img) (hs : ∀ i j, s.2 i j ∈ [0, 1]) :
    Post (easyStep boxSize totalSize s) fun s' => ∀ i j, s'.2 i j ∈ [0, 1] := by
  refine Post.bind (Post.trivial _) fun p _ => ?_
  split_ifs
  · exact Post.pure (box_labels (by simp) hs _ _ _ _)
  · exact Post.pure hs

theorem crossStep_labels (fuel hi c : ℕ) {l : List ℕ} (h1 : 1 ∈ l) (hc : c ∈ l) (s : (ℤ × ℤ) × Img)
    (hs : ∀ i j, s.2 i j ∈ l) : Post (crossStep fuel hi c s) fun s' => ∀ i j, s'.2 i j ∈ l :=
  Post.bind (Post.trivial _) fun p _ => Post.pure (cross_labels h1 hc hs p)

/-- `generate_easy` -/
theorem C95_easy (n noise boxSize totalSize : ℕ) :
    Post (generateEasy n noise boxSize totalSize) (ImagesOk n 2 totalSize 0 totalSize noise [0, 1]) := by
  refine Post.bind (collect_post (times_post (easyStep_labels boxSize totalSize) 2 _ (blank_labels (by simp))) n)
    fun ss hss => ?_
  have := snd_list (P := fun y => ∀ i j, y i j ∈ [0, 1]) hss
  exact imagesOk_of this.1 this.2

/-- `generate_square_with_hole` -/
theorem C95_hole (n noise totalSize : ℕ) :
    Post (generateSquareWithHole n noise totalSize) (ImagesOk n 2 totalSize 0 totalSize noise [0, 1]) := by
  have h : Post (holeImage totalSize) fun y => ∀ i j, y i j ∈ [0, 1] :=
    Post.bind (Post.trivial _) fun p _ => Post.pure
      (box_labels (by simp) (box_labels (by simp) (blank_labels (by simp)) _ _ _ _) _ _ _ _)
  exact Post.bind (collect_post h n) fun ys hys => imagesOk_of hys.1 hys.2

/-- `generate_crosses`; the border is free of noise. -/
theorem C95_crosses (fuel n noise totalSize nCrosses : ℕ) :
    Post (generateCrosses fuel n noise totalSize nCrosses)
      (ImagesOk n 2 totalSize 1 (totalSize - 1) noise [0, 1]) := by
  refine Post.bind (collect_post (times_post (crossStep_labels fuel (totalSize - 3) 1 (l := [0, 1]) (by simp) (by simp))
    nCrosses _ (blank_labels (by simp))) n) fun ss hss => ?_
  have := snd_list (P := fun y => ∀ i j, y i j ∈ [0, 1]) hss
  exact imagesOk_of this.1 this.2

/-- `generate_xs` -/
theorem C95_xs (fuel n noise : ℕ) : Post (generateXs fuel n noise) (ImagesOk n 2 8 1 7 noise [0, 1]) := by
  have h : Post (xsImage fuel) fun y => ∀ i j, y i j ∈ [0, 1] :=
    Post.bind (Post.trivial _) fun p _ => Post.pure
      (box_labels (by simp) (box_labels (by simp) (box_labels (by simp) (box_labels (by simp) (box_labels (by simp)
        (blank_labels (by simp)) _ _ _ _) _ _ _ _) _ _ _ _) _ _ _ _) _ _ _ _)
  exact Post.bind (collect_post h n) fun ys hys => imagesOk_of hys.1 hys.2

/-- `generate_easy_explicit`: four labels, but the features only tell foreground from background. -/
theorem C95_easy_explicit (n noise : ℕ) :
    Post (generateEasyExplicit n noise) (ForegroundOk n 4 9 0 9 noise [0, 1, 2, 3]) := by
  have h : Post easyExplicitImage fun y => ∀ i j, y i j ∈ [0, 1, 2, 3] := by
    refine Post.bind (Post.trivial _) fun p _ => ?_
    split_ifs
    · exact Post.pure (box_labels (by simp) (box_labels (by simp) (box_labels (by simp) (box_labels (by simp)
        (blank_labels (by simp)) _ _ _ _) _ _ _ _) _ _ _ _) _ _ _ _)
    · exact Post.pure (blank_labels (by simp))
  exact Post.bind (collect_post h n) fun ys hys => foregroundOk_of hys.1 hys.2
    (channels := 4) (factors := [1, 2, 3])
    (by intro c hc; interval_cases c <;> simp) (by simp)

/-- `generate_crosses_explicit`: three labels, features tell foreground from background. -/
theorem C95_crosses_explicit (fuel n noise size nCrosses : ℕ) :
    Post (generateCrossesExplicit fuel n noise size nCrosses)
      (ForegroundOk n 3 size 1 (size - 1) noise [0, 1, 2]) := by
  refine Post.bind (collect_post (times_post (crossStep_labels fuel (size - 1) 2 (l := [0, 1, 2]) (by simp) (by simp))
    nCrosses _ (blank_labels (by simp))) n) fun ss hss => ?_
  have := snd_list (P := fun y => ∀ i j, y i j ∈ [0, 1, 2]) hss
  exact foregroundOk_of this.1 this.2 (channels := 3) (factors := [1, 2])
    (by intro c hc; interval_cases c <;> simp) (by simp)

/-- `generate_crosses_latent`: the comment announces four states of `Y`, but label 1 never occurs. -/
theorem C95_crosses_latent (n noise : ℕ) :
    Post (generateCrossesLatent n noise) (ForegroundOk n 2 8 0 8 noise [0, 2, 3]) := by
  have h : ∀ y : Img, (∀ i j, y i j ∈ [0, 2, 3]) → Post (latentStep y) fun y => ∀ i j, y i j ∈ [0, 2, 3] :=
    fun y hy => Post.bind (Post.trivial _) fun p _ => Post.pure (cross_labels (by simp) (by simp) hy p)
  refine Post.bind (collect_post (times_post h 2 _ (blank_labels (by simp))) n) fun ys hys => ?_
  exact foregroundOk_of hys.1 hys.2 (channels := 2) (factors := [1])
    (by intro c hc; interval_cases c <;> simp) (by simp)

/-- One sample of `make_simple_2x2`: one of four quadrants is labelled 1; the features are ±1, and agree with the labels
except at `n_flips` pixels of the image. -/
theorem C95_simple (nFlips n : ℕ) : Post (makeSimple2x2 nFlips n) fun r => r.length = n ∧ ∀ xy ∈ r,
    (∃ a < 2, ∃ b < 2, ∀ i < 4, ∀ j < 4, xy.2 i j = if i / 2 = a ∧ j / 2 = b then 1 else 0) ∧
    (∀ i j, xy.1 i j = 1 ∨ xy.1 i j = -1) ∧
    ∃ L : List (ℕ × ℕ), L.length ≤ nFlips ∧ (∀ q ∈ L, q.1 < 4 ∧ q.2 < 4) ∧
      ∀ i j, (i, j) ∉ L → xy.1 i j = if xy.2 i j = 1 then 1 else -1 := by
  refine collect_post ?_ n
  refine Post.bind (pair_post 0 2) fun p hp => ?_
  have key : ∀ (y : Img) m, (∀ i j, y i j < 2) → Post (times simpleFlip m y) fun x => (∀ i j, x i j < 2) ∧
      ∃ L : List (ℕ × ℕ), L.length ≤ m ∧ (∀ q ∈ L, q.1 < 4 ∧ q.2 < 4) ∧ ∀ i j, (i, j) ∉ L → x i j = y i j := by
    intro y m
    induction m generalizing y with
    | zero => exact fun hy => Post.pure ⟨hy, [], by simp, by simp, fun _ _ _ => rfl⟩
    | succ m ih =>
      intro hy
      have hstep : Post (simpleFlip y) fun x => (∀ i j, x i j < 2) ∧ ∃ q : ℕ × ℕ,
          (q.1 < 4 ∧ q.2 < 4) ∧ ∀ i j, (i, j) ≠ q → x i j = y i j := by
        refine Post.bind (pair_post 0 4) fun q hq => Post.bind (randint_post 0 2) fun v hv =>
          Post.pure ⟨?_, q, ⟨hq.1.2, hq.2.2⟩, ?_⟩
        · intro i j; dsimp only; split_ifs
          · exact hv.2
          · exact hy i j
        · intro i j hij
          dsimp only
          rw [if_neg]
          rintro ⟨rfl, rfl⟩
          exact hij rfl
      refine Post.bind hstep fun x hx => (ih x hx.1).mono fun x' hx' => ⟨hx'.1, ?_⟩
      obtain ⟨q, hq4, hq⟩ := hx.2
      obtain ⟨L, hL, hL4, hL'⟩ := hx'.2
      refine ⟨q :: L, by simpa using hL, List.forall_mem_cons.2 ⟨hq4, hL4⟩, fun i j hij => ?_⟩
      simp only [List.mem_cons, not_or] at hij
      rw [hL' i j hij.2, hq i j hij.1]
  have hbox : ∀ i j, box (2 * p.1) (2 * p.2) 2 2 1 blank i j < 2 := by
    intro i j; unfold box blank; split_ifs <;> omega
  refine Post.bind (key _ nFlips hbox) fun x hx => Post.pure ⟨?_, ?_, ?_⟩
  · refine ⟨p.1, hp.1.2, p.2, hp.2.2, fun i _ j _ => ?_⟩
    dsimp only
    unfold box blank
    by_cases h : i / 2 = p.1 ∧ j / 2 = p.2
    · rw [if_pos h, if_pos (by omega)]
    · rw [if_neg h, if_neg (by omega)]
  · intro i j
    dsimp only
    have := hx.1 i j
    split_ifs with h0
    · exact .inr rfl
    · left; have : x i j = 1 := by omega
      rw [this]; rfl
  · obtain ⟨L, hL, hL4, hL'⟩ := hx.2
    refine ⟨L, hL, hL4, fun i j hij => ?_⟩
    dsimp only
    rw [hL' i j hij]
    have := hbox i j
    by_cases h0 : box (2 * p.1) (2 * p.2) 2 2 1 blank i j = 0
    · rw [if_pos h0, if_neg (by omega)]
    · have h1 : box (2 * p.1) (2 * p.2) 2 2 1 blank i j = 1 := by omega
      simp [h1]

/-- a list of flips `(row, column, value)` as random numbers -/
def flipTape (F : List (ℕ × ℕ × ℕ)) : List ℕ := F.flatMap fun f => [f.1, f.2.1, f.2.2]

theorem simpleFlips_reach (F : List (ℕ × ℕ × ℕ)) : ∀ (y : Img) (tape : ℕ → ℕ) (p : ℕ),
    (∀ f ∈ F, f.1 < 4 ∧ f.2.1 < 4 ∧ f.2.2 < 2) → (∀ k, tape (p + k) = (flipTape F).getD k 0) →
    ∃ q, times simpleFlip F.length y tape p =
      .done (F.foldl (fun x f i j => if i = f.1 ∧ j = f.2.1 then f.2.2 else x i j) y, q) := by
  induction F with
  | nil => exact fun y tape p _ _ => ⟨p, rfl⟩
  | cons f F ih =>
    intro y tape p hF ht
    obtain ⟨hf, hF⟩ := List.forall_mem_cons.1 hF
    have h0 : tape p = f.1 := ht 0
    have h1 : tape (p + 1) = f.2.1 := ht 1
    have h2 : tape (p + 1 + 1) = f.2.2 := ht 2
    have hstep : simpleFlip y tape p = .done (fun i j => if i = f.1 ∧ j = f.2.1 then f.2.2 else y i j, p + 1 + 1 + 1) := by
      change Run.done _ = Run.done _
      simp only [h0, h1, h2, Nat.sub_zero, Nat.zero_add, Nat.mod_eq_of_lt hf.1, Nat.mod_eq_of_lt hf.2.1,
        Nat.mod_eq_of_lt hf.2.2]
    obtain ⟨q, hq⟩ := ih (fun i j => if i = f.1 ∧ j = f.2.1 then f.2.2 else y i j) tape (p + 1 + 1 + 1) hF fun k => by
      have := ht (k + 3)
      rw [show p + 1 + 1 + 1 + k = p + (k + 3) by omega, this]
      rfl
    exact ⟨q, (bind_of_done _ hstep).trans hq⟩

/-- All samples are possible: for every quadrant and every list of flips of pixels of the image there are random numbers
for which `make_simple_2x2` labels that quadrant and sets those pixels to those values, in order. -/
theorem C95_simple_reach (a b : ℕ) (ha : a < 2) (hb : b < 2) (F : List (ℕ × ℕ × ℕ))
    (hF : ∀ f ∈ F, f.1 < 4 ∧ f.2.1 < 4 ∧ f.2.2 < 2) :
    ∃ tape q x y, makeSimple2x2 F.length 1 tape 0 = .done ([(x, y)], q) ∧
      (∀ i < 4, ∀ j < 4, y i j = if i / 2 = a ∧ j / 2 = b then 1 else 0) ∧
      ∀ i j, x i j = if F.foldl (fun x f i j => if i = f.1 ∧ j = f.2.1 then f.2.2 else x i j) y i j = 0 then -1 else 1 := by
  obtain ⟨q, hq⟩ := simpleFlips_reach F (box (2 * a) (2 * b) 2 2 1 blank)
    (fun k => (a :: b :: flipTape F).getD k 0) 2 hF fun k => by rw [Nat.add_comm 2 k]; rfl
  have hlt : ∀ (y : Img) i j, (∀ i j, y i j < 2) →
      F.foldl (fun x f i j => if i = f.1 ∧ j = f.2.1 then f.2.2 else x i j) y i j < 2 := by
    clear hq
    induction F with
    | nil => exact fun y i j h => h i j
    | cons f F ih =>
      obtain ⟨hf, hF⟩ := List.forall_mem_cons.1 hF
      intro y i j h
      refine ih hF _ i j fun i j => ?_
      dsimp only
      split_ifs
      · exact hf.2.2
      · exact h i j
  refine ⟨fun k => (a :: b :: flipTape F).getD k 0, q, fun i j => if F.foldl (fun x f i j =>
      if i = f.1 ∧ j = f.2.1 then f.2.2 else x i j) (box (2 * a) (2 * b) 2 2 1 blank) i j = 0 then -1 else
      (F.foldl (fun x f i j => if i = f.1 ∧ j = f.2.1 then f.2.2 else x i j) (box (2 * a) (2 * b) 2 2 1 blank) i j : ℕ),
    box (2 * a) (2 * b) 2 2 1 blank, ?_, ?_, ?_⟩
  · have hp : pair 0 2 (fun k => (a :: b :: flipTape F).getD k 0) 0 = .done ((a, b), 2) := by
      change Run.done _ = Run.done _
      have h0 : (a :: b :: flipTape F).getD 0 0 = a := rfl
      have h1 : (a :: b :: flipTape F).getD (0 + 1) 0 = b := rfl
      simp only [h0, h1, Nat.sub_zero, Nat.zero_add, Nat.mod_eq_of_lt ha, Nat.mod_eq_of_lt hb]
    have hs : simpleSample F.length (fun k => (a :: b :: flipTape F).getD k 0) 0 = _ :=
      (bind_of_done _ hp).trans (bind_of_done _ hq)
    exact bind_of_done _ hs
  · intro i _ j _
    unfold box blank
    by_cases h : i / 2 = a ∧ j / 2 = b
    · rw [if_pos h, if_pos (by omega)]
    · rw [if_neg h, if_neg (by omega)]
  · intro i j
    dsimp only
    have := hlt (box (2 * a) (2 * b) 2 2 1 blank) i j fun i j => by unfold box blank; split_ifs <;> omega
    split_ifs with h0
    · rfl
    · have h1 : F.foldl (fun x f i j => if i = f.1 ∧ j = f.2.1 then f.2.2 else x i j)
        (box (2 * a) (2 * b) 2 2 1 blank) i j = 1 := by omega
      rw [h1]; rfl

/-- two flips, one of them in the last row and column -/
example : ∀ f ∈ [(3, 3, 1), (0, 2, 0)], f.1 < 4 ∧ f.2.1 < 4 ∧ f.2.2 < 2 := by decide

/-- the hypotheses of `Post` are met: a run that returns. -/
example : ∃ r q, generateEasy 2 5 3 8 (fun n => n * n) 0 = .done (r, q) :=
  ⟨_, _, rfl⟩

end Verif.Props
