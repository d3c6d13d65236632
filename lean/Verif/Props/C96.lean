import Verif.Props.C95
import Mathlib.Data.Nat.Pairing

/-!
# C96: synthetic images: when the generators return

`generate_easy`, `generate_square_with_hole`, `generate_xs`, `generate_easy_explicit`, `generate_crosses_latent` return
whatever the random numbers are, given room for the shapes, and raise `ValueError` otherwise. `generate_crosses` and
`generate_crosses_explicit` redraw until a cross is far from the last one: in large images this ends, in small ones it
cannot, and in between a bad draw makes it impossible.
-/

namespace Verif.Props

open Verif.Datasets Verif.Spec

theorem collect_succ_raised {α : Type} {body : Gen α} {n : ℕ} {tape : ℕ → ℕ} {p : ℕ} {e : PyErr} (hn : n ≠ 0)
    (h : body tape p = .raised e) : collect body n tape p = .raised e := by
  obtain ⟨m, rfl⟩ := Nat.exists_eq_succ_of_ne_zero hn
  exact bind_of_raised _ h

theorem collect_succ_diverged {α : Type} {body : Gen α} {n : ℕ} {tape : ℕ → ℕ} {p : ℕ} (hn : n ≠ 0)
    (h : body tape p = .diverged) : collect body n tape p = .diverged := by
  obtain ⟨m, rfl⟩ := Nat.exists_eq_succ_of_ne_zero hn
  exact bind_of_diverged _ h

theorem forall₂_right_mem {α β : Type} {R : α → β → Prop} : ∀ {l : List α} {m : List β}, List.Forall₂ R l m →
    ∀ b ∈ m, ∃ a ∈ l, R a b
  | _, _, .nil, _, hb => nomatch hb
  | _, _, .cons h t, b, hb => by
    rcases List.mem_cons.1 hb with rfl | hb
    · exact ⟨_, List.mem_cons_self, h⟩
    · obtain ⟨a, ha, hab⟩ := forall₂_right_mem t b hb
      exact ⟨a, List.mem_cons_of_mem _ ha, hab⟩

theorem render_total {channels size lo hi noise k : ℕ} {ys : List Img} (hlo : lo < hi) (hk : 0 < k) (hkc : k ≤ channels)
    (hy : ∀ y ∈ ys, ∀ i j, y i j < channels) :
    Total (do
      let fl ← forAll (flip lo hi noise k) ys
      let xs ← encode channels size [1] fl
      return (xs, ys)) fun _ => True := by
  refine Total.bind ((forAll_total (fun y => flip_total hlo hk y) ys).and_post
    (forAll_post (fun y => flip_post lo hi noise k y) ys)) fun fl hfl => Total.bind (encode_total ?_) fun _ _ =>
      Total.pure True.intro
  intro z hz i _ j _ f hf
  obtain ⟨y, hy', h⟩ := forall₂_right_mem hfl.2 z hz
  simp only [List.mem_singleton] at hf
  subst hf
  rw [one_mul]
  rcases h.2 i j with h' | h'
  · omega
  · rw [h']; exact hy y hy' i j

theorem render_foreground_total {channels size lo hi noise : ℕ} {factors : List ℕ} {ys : List Img} (hlo : lo < hi)
    (hf : ∀ f ∈ factors, f < channels) (hc : 0 < channels) :
    Total (do
      let fl ← forAll (fun y => flip lo hi noise 2 (nonzero y)) ys
      let xs ← encode channels size factors fl
      return (xs, ys)) fun _ => True := by
  refine Total.bind ((forAll_total (fun y => flip_total hlo (by omega) (nonzero y)) ys).and_post
    (forAll_post (fun y => (flip_post lo hi noise 2 (nonzero y)).mono (Q := fun z => ∀ i j, z i j < 2) ?_) ys))
    fun fl hfl => Total.bind (encode_total ?_) fun _ _ => Total.pure True.intro
  · intro z hz i j
    rcases hz.2 i j with h | h
    · exact h
    · rw [h]; unfold nonzero; split_ifs <;> omega
  · intro z hz i _ j _ f hf'
    have h2 : z i j < 2 := by
      obtain ⟨y, _, h⟩ := forall₂_right_mem hfl.2 z hz
      exact h i j
    have := hf f hf'
    have h01 : z i j = 0 ∨ z i j = 1 := by omega
    rcases h01 with h | h <;> rw [h] <;> omega

/-- `generate_easy` returns if and only if there is nothing to do or a box fits, and otherwise raises `ValueError`. -/
theorem C96_easy (n noise boxSize totalSize : ℕ) (tape : ℕ → ℕ) (p : ℕ) :
    ((∃ r, generateEasy n noise boxSize totalSize tape p = .done r) ↔ n = 0 ∨ boxSize + 1 < totalSize) ∧
    (¬ (n = 0 ∨ boxSize + 1 < totalSize) →
      generateEasy n noise boxSize totalSize tape p = .raised .valueError) := by
  have hbad : ¬ (n = 0 ∨ boxSize + 1 < totalSize) →
      generateEasy n noise boxSize totalSize tape p = .raised .valueError := by
    intro h
    rw [not_or] at h
    refine bind_of_raised _ (collect_succ_raised h.1 (bind_of_raised _ (bind_of_raised _ (pair_raised ?_ tape p))))
    omega
  refine ⟨⟨fun ⟨r, hr⟩ => ?_, fun h => ?_⟩, hbad⟩
  · by_contra hc
    rw [hbad hc] at hr
    exact nomatch hr
  · rcases h with rfl | h
    · exact ⟨_, rfl⟩
    · have hstep : ∀ s : (ℤ × ℤ) × Img, (∀ i j, s.2 i j ∈ [0, 1]) →
          Total (easyStep boxSize totalSize s) fun s' => ∀ i j, s'.2 i j ∈ [0, 1] := by
        intro s hs
        refine ((Total.bind (pair_total (by omega)) fun q _ => ?_ :
          Total (easyStep boxSize totalSize s) fun _ => True).and_post (easyStep_labels _ _ s hs)).mono fun _ h => h.2
        split_ifs <;> exact Total.pure True.intro
      have : Total (generateEasy n noise boxSize totalSize) fun _ => True := by
        refine Total.bind (collect_total (times_total hstep 2 _ (blank_labels (by simp))) n) fun ss hss => ?_
        have := snd_list (P := fun y => ∀ i j, y i j ∈ [0, 1]) hss
        refine render_total (by omega) (by omega) le_rfl fun y hy i j => ?_
        have := this.2 y hy i j
        simp at this; omega
      obtain ⟨a, q, h1, _⟩ := this tape p
      exact ⟨_, h1⟩

/-- `generate_square_with_hole` returns if and only if there is nothing to do or the square fits. -/
theorem C96_hole (n noise totalSize : ℕ) (tape : ℕ → ℕ) (p : ℕ) :
    ((∃ r, generateSquareWithHole n noise totalSize tape p = .done r) ↔ n = 0 ∨ 4 < totalSize) ∧
    (¬ (n = 0 ∨ 4 < totalSize) → generateSquareWithHole n noise totalSize tape p = .raised .valueError) := by
  have hbad : ¬ (n = 0 ∨ 4 < totalSize) →
      generateSquareWithHole n noise totalSize tape p = .raised .valueError := by
    intro h
    rw [not_or] at h
    refine bind_of_raised _ (collect_succ_raised h.1 (bind_of_raised _ (pair_raised ?_ tape p)))
    omega
  refine ⟨⟨fun ⟨r, hr⟩ => ?_, fun h => ?_⟩, hbad⟩
  · by_contra hc
    rw [hbad hc] at hr
    exact nomatch hr
  · rcases h with rfl | h
    · exact ⟨_, rfl⟩
    · have himg : Total (holeImage totalSize) fun y => ∀ i j, y i j ∈ [0, 1] :=
        Total.bind (pair_total (by omega)) fun q _ => Total.pure
          (box_labels (by simp) (box_labels (by simp) (blank_labels (by simp)) _ _ _ _) _ _ _ _)
      have : Total (generateSquareWithHole n noise totalSize) fun _ => True := by
        refine Total.bind (collect_total himg n) fun ys hys => ?_
        refine render_total (by omega) (by omega) le_rfl fun y hy i j => ?_
        have := hys.2 y hy i j
        simp at this; omega
      obtain ⟨a, q, h1, _⟩ := this tape p
      exact ⟨_, h1⟩

/-- In `generate_xs` the first draw is always accepted: one pass of the loop is enough. Every label image is a diagonal
cross of five pixels, inside the image and off its border. -/
theorem C96_xs (fuel n noise : ℕ) (tape : ℕ → ℕ) (p : ℕ) :
    ∃ r q, generateXs (fuel + 1) n noise tape p = .done (r, q) ∧
      ∀ y ∈ r.2, ∃ t l, 3 ≤ t ∧ t < 7 ∧ 3 ≤ l ∧ l < 7 ∧ ∀ i j, y i j =
        if (i = t ∧ j = l) ∨ ((i = t + 1 ∨ i + 1 = t) ∧ (j = l + 1 ∨ j + 1 = l)) then 1 else 0 := by
  have hu : Total (until_ (pair 1 5) (farXs (-3, -3)) (fuel + 1))
      fun q => 1 ≤ q.1 ∧ q.1 < 5 ∧ 1 ≤ q.2 ∧ q.2 < 5 := by
    refine Total.bind (pair_total (by omega)) fun q hq => ?_
    have : farXs (-3, -3) q = true := by
      unfold farXs
      simp only [Bool.and_eq_true, decide_eq_true_eq]
      rw [abs_of_nonneg (by omega), abs_of_nonneg (by omega)]
      omega
    rw [if_pos this]
    exact Total.pure ⟨hq.1.1, hq.1.2, hq.2.1, hq.2.2⟩
  have himg : Total (xsImage (fuel + 1)) fun y => ∃ t l, 3 ≤ t ∧ t < 7 ∧ 3 ≤ l ∧ l < 7 ∧ ∀ i j, y i j =
        if (i = t ∧ j = l) ∨ ((i = t + 1 ∨ i + 1 = t) ∧ (j = l + 1 ∨ j + 1 = l)) then 1 else 0 := by
    refine Total.bind hu fun q hq => Total.pure ⟨q.1 + 2, q.2 + 2, by omega, by omega, by omega, by omega, fun i j => ?_⟩
    unfold box blank
    split_ifs <;> omega
  have : Total (generateXs (fuel + 1) n noise) fun r => ∀ y ∈ r.2, ∃ t l, 3 ≤ t ∧ t < 7 ∧ 3 ≤ l ∧ l < 7 ∧
      ∀ i j, y i j =
        if (i = t ∧ j = l) ∨ ((i = t + 1 ∨ i + 1 = t) ∧ (j = l + 1 ∨ j + 1 = l)) then 1 else 0 := by
    refine Total.bind (collect_total himg n) fun ys hys => ?_
    refine ((render_total (channels := 2) (size := 8) (lo := 1) (hi := 7) (k := 2) (by omega) (by omega) le_rfl
      fun y hy i j => ?_).and_post (render_oneHot 2 8 1 7 noise 2 ys)).mono fun r hr => ?_
    · obtain ⟨t, l, _, _, _, _, h⟩ := hys.2 y hy
      rw [h]; split_ifs <;> omega
    · rw [hr.2.1]; exact hys.2
  exact this tape p

/-- `generate_easy_explicit` returns, and no image stays blank: the test on the position always succeeds. -/
theorem C96_easy_explicit (n noise : ℕ) (tape : ℕ → ℕ) (p : ℕ) :
    ∃ r q, generateEasyExplicit n noise tape p = .done (r, q) ∧
      ∀ y ∈ r.2, ∃ t l, 1 ≤ t ∧ t < 6 ∧ 1 ≤ l ∧ l < 6 ∧ ∀ i j, y i j =
        if i = t + 1 ∧ j = l + 1 then 3
        else if (i = t + 1 ∧ l ≤ j ∧ j < l + 3) ∨ (j = l + 1 ∧ t ≤ i ∧ i < t + 3) then 2
        else if t ≤ i ∧ i < t + 3 ∧ l ≤ j ∧ j < l + 3 then 1 else 0 := by
  have himg : Total easyExplicitImage fun y => ∃ t l, 1 ≤ t ∧ t < 6 ∧ 1 ≤ l ∧ l < 6 ∧ ∀ i j, y i j =
        if i = t + 1 ∧ j = l + 1 then 3
        else if (i = t + 1 ∧ l ≤ j ∧ j < l + 3) ∨ (j = l + 1 ∧ t ≤ i ∧ i < t + 3) then 2
        else if t ≤ i ∧ i < t + 3 ∧ l ≤ j ∧ j < l + 3 then 1 else 0 := by
    refine Total.bind (pair_total (by omega)) fun q hq => ?_
    have : far 3 (-4, -4) q = true := by
      unfold far
      simp only [Bool.or_eq_true, decide_eq_true_eq]
      left
      rw [abs_of_nonneg (by omega)]
      omega
    rw [if_pos this]
    refine Total.pure ⟨q.1, q.2, hq.1.1, hq.1.2, hq.2.1, hq.2.2, fun i j => ?_⟩
    unfold box blank
    split_ifs <;> omega
  have : Total (generateEasyExplicit n noise) fun r => ∀ y ∈ r.2, ∃ t l, 1 ≤ t ∧ t < 6 ∧ 1 ≤ l ∧ l < 6 ∧ ∀ i j, y i j =
        if i = t + 1 ∧ j = l + 1 then 3
        else if (i = t + 1 ∧ l ≤ j ∧ j < l + 3) ∨ (j = l + 1 ∧ t ≤ i ∧ i < t + 3) then 2
        else if t ≤ i ∧ i < t + 3 ∧ l ≤ j ∧ j < l + 3 then 1 else 0 := by
    refine Total.bind (collect_total himg n) fun ys hys => ?_
    refine ((render_foreground_total (channels := 4) (size := 9) (factors := [1, 2, 3]) (lo := 0) (hi := 9) (by omega)
      (by simp) (by omega)).and_post (render_foreground 4 9 0 9 noise [1, 2, 3] ys
        (by intro c hc; interval_cases c <;> simp) (by simp))).mono fun r hr => ?_
    rw [hr.2.1]; exact hys.2
  exact this tape p

/-- `generate_crosses_latent` returns. -/
theorem C96_crosses_latent (n noise : ℕ) (tape : ℕ → ℕ) (p : ℕ) :
    ∃ r, generateCrossesLatent n noise tape p = .done r := by
  have hstep : ∀ y : Img, True → Total (latentStep y) fun _ => True := fun y _ =>
    Total.bind (pair_total (by omega)) fun _ _ => Total.pure True.intro
  have : Total (generateCrossesLatent n noise) fun _ => True :=
    Total.bind (collect_total (times_total hstep 2 _ True.intro) n) fun ys _ =>
      render_foreground_total (by omega) (by simp) (by omega)
  obtain ⟨a, q, h1, _⟩ := this tape p
  exact ⟨_, h1⟩

/-! ### crosses -/

/-- the loop never ends if no position is accepted. -/
theorem until_diverged {hi : ℕ} (hhi : 1 < hi) {ok : ℕ × ℕ → Bool}
    (h : ∀ q : ℕ × ℕ, (1 ≤ q.1 ∧ q.1 < hi) ∧ 1 ≤ q.2 ∧ q.2 < hi → ok q = false) :
    ∀ fuel tape p, until_ (pair 1 hi) ok fuel tape p = .diverged
  | 0, _, _ => rfl
  | fuel + 1, tape, p => by
    obtain ⟨a, q, h1, h2⟩ := pair_total hhi tape p
    refine (bind_of_done _ h1).trans ?_
    rw [if_neg (by rw [h a h2]; exact Bool.false_ne_true)]
    exact until_diverged hhi h fuel tape q

/-- the position `(t, l)` is within reach of every other one: no cross can follow. -/
def Blocked (hi t l : ℕ) : Prop := t ≤ 3 ∧ l ≤ 3 ∧ hi ≤ t + 3 ∧ hi ≤ l + 3

theorem far_blocked {hi t l : ℕ} (h : Blocked hi t l) (q : ℕ × ℕ)
    (hq : (1 ≤ q.1 ∧ q.1 < hi) ∧ 1 ≤ q.2 ∧ q.2 < hi) : far 2 (toOld (t, l)) q = false := by
  obtain ⟨h1, h2, h3, h4⟩ := h
  unfold far toOld
  simp only [Bool.or_eq_false_iff, decide_eq_false_iff_not, not_lt, abs_le]
  omega

/-- after a cross at a blocked position, drawing the next one does not end. -/
theorem times_blocked {hi c m : ℕ} (fuel : ℕ) {tape : ℕ → ℕ} {p : ℕ} (hhi : 1 < hi)
    (hb : Blocked hi (1 + tape p % (hi - 1)) (1 + tape (p + 1) % (hi - 1))) (hm : 2 ≤ m) :
    times (crossStep fuel hi c) m ((-3, -3), blank) tape p = .diverged := by
  obtain ⟨m, rfl⟩ := Nat.exists_eq_add_of_le' hm
  cases fuel with
  | zero => exact bind_of_diverged _ (bind_of_diverged _ rfl)
  | succ fuel =>
    have hok : far 2 ((-3 : ℤ), (-3 : ℤ)) (1 + tape p % (hi - 1), 1 + tape (p + 1) % (hi - 1)) = true := by
      generalize tape p % (hi - 1) = a
      unfold far
      simp only [Bool.or_eq_true, decide_eq_true_eq]
      left
      rw [abs_of_nonneg (by omega)]
      omega
    have hu : until_ (pair 1 hi) (far 2 ((-3 : ℤ), (-3 : ℤ))) (fuel + 1) tape p =
        .done ((1 + tape p % (hi - 1), 1 + tape (p + 1) % (hi - 1)), p + 2) := by
      refine (bind_of_done _ (pair_run hhi tape p)).trans ?_
      rw [if_pos hok]
      rfl
    refine (bind_of_done _ (bind_of_done _ hu)).trans ?_
    exact bind_of_diverged _ (bind_of_diverged _ (until_diverged hhi (far_blocked hb) _ _ _))

/-- **Small images.** `generate_crosses` with two or more crosses and `total_size` 5, 6 or 7 never returns. -/
theorem C96_violated_crosses_small (fuel n noise totalSize nCrosses : ℕ) (tape : ℕ → ℕ) (p : ℕ) (hn : n ≠ 0)
    (hc : 2 ≤ nCrosses) (h5 : 5 ≤ totalSize) (h7 : totalSize ≤ 7) :
    generateCrosses fuel n noise totalSize nCrosses tape p = .diverged := by
  refine bind_of_diverged _ (collect_succ_diverged hn (times_blocked fuel (by omega) ?_ hc))
  have h1 := Nat.mod_lt (tape p) (show 0 < totalSize - 3 - 1 by omega)
  have h2 := Nat.mod_lt (tape (p + 1)) (show 0 < totalSize - 3 - 1 by omega)
  exact ⟨by omega, by omega, by omega, by omega⟩

/-- **Medium images.** With `total_size` 8 or 9, `generate_crosses` never returns if the first cross is drawn in the
middle, whatever is drawn afterwards. -/
theorem C96_violated_crosses_medium (fuel n noise totalSize nCrosses : ℕ) (tape : ℕ → ℕ) (p : ℕ) (hn : n ≠ 0)
    (hc : 2 ≤ nCrosses) (h5 : 5 ≤ totalSize)
    (hb : Blocked (totalSize - 3) (1 + tape p % (totalSize - 4)) (1 + tape (p + 1) % (totalSize - 4))) :
    generateCrosses fuel n noise totalSize nCrosses tape p = .diverged := by
  refine bind_of_diverged _ (collect_succ_diverged hn (times_blocked fuel (by omega) ?_ hc))
  have : totalSize - 3 - 1 = totalSize - 4 := by omega
  rw [this]; exact hb

/-- With `total_size` at most 4 there is no position for a cross. -/
theorem C96_crosses_error (fuel n noise totalSize nCrosses : ℕ) (tape : ℕ → ℕ) (p : ℕ) (hn : n ≠ 0)
    (hc : nCrosses ≠ 0) (h4 : totalSize ≤ 4) :
    generateCrosses (fuel + 1) n noise totalSize nCrosses tape p = .raised .valueError := by
  obtain ⟨m, rfl⟩ := Nat.exists_eq_succ_of_ne_zero hc
  exact bind_of_raised _ (collect_succ_raised hn (bind_of_raised _ (bind_of_raised _ (bind_of_raised _
    (pair_raised (by omega) tape p)))))

/-- `generate_crosses_explicit` with two or more crosses and `size` 3, 4 or 5 never returns. -/
theorem C96_violated_explicit_small (fuel n noise size nCrosses : ℕ) (tape : ℕ → ℕ) (p : ℕ) (hn : n ≠ 0)
    (hc : 2 ≤ nCrosses) (h3 : 3 ≤ size) (h5 : size ≤ 5) :
    generateCrossesExplicit fuel n noise size nCrosses tape p = .diverged := by
  refine bind_of_diverged _ (collect_succ_diverged hn (times_blocked fuel (by omega) ?_ hc))
  have h1 := Nat.mod_lt (tape p) (show 0 < size - 1 - 1 by omega)
  have h2 := Nat.mod_lt (tape (p + 1)) (show 0 < size - 1 - 1 by omega)
  exact ⟨by omega, by omega, by omega, by omega⟩

/-- `generate_crosses_explicit` with `size` 6 or 7 never returns if the first cross is drawn in the middle. -/
theorem C96_violated_explicit_medium (fuel n noise size nCrosses : ℕ) (tape : ℕ → ℕ) (p : ℕ) (hn : n ≠ 0)
    (hc : 2 ≤ nCrosses) (h3 : 3 ≤ size)
    (hb : Blocked (size - 1) (1 + tape p % (size - 2)) (1 + tape (p + 1) % (size - 2))) :
    generateCrossesExplicit fuel n noise size nCrosses tape p = .diverged := by
  refine bind_of_diverged _ (collect_succ_diverged hn (times_blocked fuel (by omega) ?_ hc))
  have : size - 1 - 1 = size - 2 := by omega
  rw [this]; exact hb

/-- from some number of passes on, the program returns, always the same. -/
def Eventually {α : Type} (g : ℕ → Gen α) (tape : ℕ → ℕ) (p : ℕ) (P : α → Prop) : Prop :=
  ∃ F a q, P a ∧ ∀ f ≥ F, g f tape p = .done (a, q)

theorem Eventually.bind {α β : Type} {g : ℕ → Gen α} {k : ℕ → α → Gen β} {tape : ℕ → ℕ} {p : ℕ} {P : α → Prop}
    {Q : β → Prop} (hg : Eventually g tape p P) (hk : ∀ a q, P a → Eventually (fun f => k f a) tape q Q) :
    Eventually (fun f => g f >>= k f) tape p Q := by
  obtain ⟨F, a, q, ha, hF⟩ := hg
  obtain ⟨F', b, r, hb, hF'⟩ := hk a q ha
  refine ⟨max F F', b, r, hb, fun f hf => ?_⟩
  exact (bind_of_done _ (hF f (le_trans (le_max_left _ _) hf))).trans (hF' f (le_trans (le_max_right _ _) hf))

theorem Eventually.of_total {α : Type} {x : Gen α} {P : α → Prop} (h : Total x P) (tape : ℕ → ℕ) (p : ℕ) :
    Eventually (fun _ => x) tape p P := by
  obtain ⟨a, q, h1, h2⟩ := h tape p
  exact ⟨0, a, q, h2, fun _ _ => h1⟩

theorem times_eventually {σ : Type} {body : ℕ → σ → Gen σ} {tape : ℕ → ℕ} {I : σ → Prop}
    (h : ∀ s p, I s → Eventually (fun f => body f s) tape p I) :
    ∀ n s p, I s → Eventually (fun f => times (body f) n s) tape p I
  | 0, s, p, hs => ⟨0, s, p, hs, fun _ _ => rfl⟩
  | n + 1, s, p, hs => Eventually.bind (k := fun f s' => times (body f) n s') (h s p hs)
      fun s' q hs' => times_eventually h n s' q hs'

theorem collect_eventually {α : Type} {body : ℕ → Gen α} {tape : ℕ → ℕ} {P : α → Prop}
    (h : ∀ p, Eventually body tape p P) :
    ∀ n p, Eventually (fun f => collect (body f) n) tape p fun l => l.length = n ∧ ∀ a ∈ l, P a
  | 0, p => ⟨0, [], p, ⟨rfl, by simp⟩, fun _ _ => rfl⟩
  | n + 1, p => by
    refine Eventually.bind (k := fun f a => collect (body f) n >>= fun l => pure (a :: l)) (h p) fun a q ha => ?_
    refine Eventually.bind (k := fun _ l => pure (a :: l)) (collect_eventually h n q) fun l r hl => ?_
    refine ⟨0, a :: l, r, ⟨by simp [hl.1], ?_⟩, fun _ _ => rfl⟩
    intro b hb
    rcases List.mem_cons.1 hb with rfl | hb
    · exact ha
    · exact hl.2 b hb

/-- Every pair of residues turns up again and again, in steps of two from any place. -/
def Fair (tape : ℕ → ℕ) : Prop :=
  ∀ p m a b, a < m → b < m → ∃ k, tape (p + 2 * k) % m = a ∧ tape (p + 2 * k + 1) % m = b

theorem until_eventually {hi : ℕ} (hhi : 1 < hi) {ok : ℕ × ℕ → Bool} {tape : ℕ → ℕ} : ∀ k p,
    ok (1 + tape (p + 2 * k) % (hi - 1), 1 + tape (p + 2 * k + 1) % (hi - 1)) = true →
    Eventually (fun f => until_ (pair 1 hi) ok f) tape p
      fun q => ((1 ≤ q.1 ∧ q.1 < hi) ∧ 1 ≤ q.2 ∧ q.2 < hi) ∧ ok q = true := by
  intro k
  induction k with
  | zero =>
    intro p h
    refine ⟨1, _, p + 2, ⟨?_, h⟩, fun f hf => ?_⟩
    · have h1 := Nat.mod_lt (tape p) (show 0 < hi - 1 by omega)
      have h2 := Nat.mod_lt (tape (p + 1)) (show 0 < hi - 1 by omega)
      simp only [mul_zero, add_zero]
      omega
    · obtain ⟨f, rfl⟩ := Nat.exists_eq_add_of_le' hf
      refine (bind_of_done _ (pair_run hhi tape p)).trans ?_
      simp only [mul_zero, add_zero] at h
      rw [if_pos h]
      rfl
  | succ k ih =>
    intro p h
    by_cases hnow : ok (1 + tape p % (hi - 1), 1 + tape (p + 1) % (hi - 1)) = true
    · refine ⟨1, _, p + 2, ⟨?_, hnow⟩, fun f hf => ?_⟩
      · have h1 := Nat.mod_lt (tape p) (show 0 < hi - 1 by omega)
        have h2 := Nat.mod_lt (tape (p + 1)) (show 0 < hi - 1 by omega)
        dsimp only
        omega
      · obtain ⟨f, rfl⟩ := Nat.exists_eq_add_of_le' hf
        refine (bind_of_done _ (pair_run hhi tape p)).trans ?_
        rw [if_pos hnow]
        rfl
    · obtain ⟨F, a, q, ha, hF⟩ := ih (p + 2) (by
        rw [show p + 2 + 2 * k = p + 2 * (k + 1) by ring]; exact h)
      refine ⟨F + 1, a, q, ha, fun f hf => ?_⟩
      obtain ⟨f, rfl⟩ : ∃ g, f = g + 1 := ⟨f - 1, by omega⟩
      refine (bind_of_done _ (pair_run hhi tape p)).trans ?_
      rw [if_neg hnow]
      exact hF f (by omega)

/-- with six or more rows of positions some position is always far from the last one. -/
theorem exists_far {hi : ℕ} (h7 : 7 ≤ hi) (old : ℤ × ℤ) : ∃ a < hi - 1, ∀ b, far 2 old (1 + a, b) = true := by
  by_cases h : old.1 ≤ 3
  · refine ⟨5, by omega, fun b => ?_⟩
    unfold far
    simp only [Bool.or_eq_true, decide_eq_true_eq]
    left
    rw [lt_abs]
    left; push_cast; omega
  · refine ⟨0, by omega, fun b => ?_⟩
    unfold far
    simp only [Bool.or_eq_true, decide_eq_true_eq]
    left
    rw [lt_abs]
    right; push_cast; omega

theorem crossStep_eventually {hi c : ℕ} (h7 : 7 ≤ hi) {l : List ℕ} (h1 : 1 ∈ l) (hc : c ∈ l) {tape : ℕ → ℕ}
    (hfair : Fair tape) (s : (ℤ × ℤ) × Img) (p : ℕ) (hs : ∀ i j, s.2 i j ∈ l) :
    Eventually (fun f => crossStep f hi c s) tape p fun s' => ∀ i j, s'.2 i j ∈ l := by
  obtain ⟨a, ha, hfar⟩ := exists_far h7 s.1
  obtain ⟨k, hk1, hk2⟩ := hfair p (hi - 1) a 0 ha (by omega)
  refine Eventually.bind (k := fun _ q => pure (toOld q, cross q 1 c s.2))
    (until_eventually (by omega) k p (by rw [hk1]; exact hfar _)) fun q r _ => ?_
  exact ⟨0, _, r, cross_labels h1 hc hs q, fun _ _ => rfl⟩

/-- **Large images.** With `total_size` at least 10 (the default) `generate_crosses` returns, if the random numbers do not
avoid any position forever. -/
theorem C96_crosses (n noise totalSize nCrosses : ℕ) (tape : ℕ → ℕ) (p : ℕ) (hfair : Fair tape)
    (h10 : 10 ≤ totalSize) :
    ∃ F r, ∀ fuel ≥ F, generateCrosses fuel n noise totalSize nCrosses tape p = .done r := by
  have hi : ∀ p, Eventually (fun f => times (crossStep f (totalSize - 3) 1) nCrosses ((-3, -3), blank)) tape p
      fun s => ∀ i j, s.2 i j ∈ [0, 1] := fun p =>
    times_eventually (body := fun f => crossStep f (totalSize - 3) 1)
      (fun s p hs => crossStep_eventually (by omega) (by simp) (by simp) hfair s p hs) nCrosses _ p
      (blank_labels (by simp))
  obtain ⟨F, a, q, -, hF⟩ : Eventually (fun f => generateCrosses f n noise totalSize nCrosses) tape p fun _ => True := by
    refine Eventually.bind (collect_eventually hi n p) fun ss q hss => ?_
    have := snd_list (P := fun y => ∀ i j, y i j ∈ [0, 1]) hss
    refine Eventually.of_total (render_total (by omega) (by omega) le_rfl fun y hy i j => ?_) tape q
    have := this.2 y hy i j
    simp at this; omega
  exact ⟨F, _, hF⟩

/-- With `size` at least 8 (the default is 9) `generate_crosses_explicit` returns, if the random numbers do not avoid any
position forever. -/
theorem C96_explicit (n noise size nCrosses : ℕ) (tape : ℕ → ℕ) (p : ℕ) (hfair : Fair tape) (h8 : 8 ≤ size) :
    ∃ F r, ∀ fuel ≥ F, generateCrossesExplicit fuel n noise size nCrosses tape p = .done r := by
  have hi : ∀ p, Eventually (fun f => times (crossStep f (size - 1) 2) nCrosses ((-3, -3), blank)) tape p
      fun s => ∀ i j, s.2 i j ∈ [0, 1, 2] := fun p =>
    times_eventually (body := fun f => crossStep f (size - 1) 2)
      (fun s p hs => crossStep_eventually (by omega) (by simp) (by simp) hfair s p hs) nCrosses _ p
      (blank_labels (by simp))
  obtain ⟨F, a, q, -, hF⟩ : Eventually (fun f => generateCrossesExplicit f n noise size nCrosses) tape p
      fun _ => True := by
    refine Eventually.bind (collect_eventually hi n p) fun ss q _ => ?_
    exact Eventually.of_total (render_foreground_total (by omega) (by simp) (by omega)) tape q
  exact ⟨F, _, hF⟩

/-- A fair sequence: blocks of three, the first two entries of which run through all pairs. -/
def fairTape (n : ℕ) : ℕ :=
  let c := (n / 3 / 2).unpair.2.unpair
  if n % 3 = 0 then c.1 else c.2

theorem fairTape_fair : Fair fairTape := by
  intro p m a b ha hb
  -- block number `2 * c + parity`, so that the block starts at the parity of `p`
  have hc : p ≤ Nat.pair p (Nat.pair a b) := Nat.left_le_pair _ _
  generalize hcdef : Nat.pair p (Nat.pair a b) = c at hc
  have hun : c.unpair.2.unpair = (a, b) := by rw [← hcdef]; simp
  refine ⟨(3 * (2 * c + p % 2) - p) / 2, ?_⟩
  have hidx : p + 2 * ((3 * (2 * c + p % 2) - p) / 2) = 3 * (2 * c + p % 2) := by omega
  rw [hidx]
  have e1 : 3 * (2 * c + p % 2) / 3 / 2 = c := by omega
  have e2 : (3 * (2 * c + p % 2) + 1) / 3 / 2 = c := by omega
  have e3 : 3 * (2 * c + p % 2) % 3 = 0 := by omega
  have e4 : (3 * (2 * c + p % 2) + 1) % 3 ≠ 0 := by omega
  unfold fairTape
  simp only [e1, e2, e3, if_true, if_neg e4, hun]
  exact ⟨Nat.mod_eq_of_lt ha, Nat.mod_eq_of_lt hb⟩

/-- `C96_crosses` applies to the defaults. -/
example : ∃ F r, ∀ fuel ≥ F, generateCrosses fuel 5 30 10 2 fairTape 0 = .done r :=
  C96_crosses 5 30 10 2 fairTape 0 fairTape_fair (by omega)

/-- the middle of an image of size 9 is blocked, and so are four positions for size 8; nothing is for size 10. -/
example : Blocked (9 - 3) 3 3 ∧ Blocked (8 - 3) 2 3 ∧ ∀ t l, ¬ Blocked (10 - 3) t l := by
  refine ⟨⟨by omega, by omega, by omega, by omega⟩, ⟨by omega, by omega, by omega, by omega⟩, ?_⟩
  rintro t l ⟨h1, h2, h3, h4⟩
  omega

example (fuel : ℕ) : generateCrosses fuel 5 30 9 2 (fun _ => 2) 0 = .diverged :=
  C96_violated_crosses_medium fuel 5 30 9 2 _ 0 (by omega) le_rfl (by omega) ⟨by omega, by omega, by omega, by omega⟩

end Verif.Props
