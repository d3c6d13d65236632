import Verif.Model.PlotSnakes
import Verif.Props.C176

/-!
# C178: overviews of snake images
-/

namespace Verif.Props

open Verif.Common Verif.Spec Verif.Snakes Verif.Lemmas

/-- the pixel belongs to the image in a tile. -/
def InTile (N nh k : ℕ) (img : Pict) (i j : ℕ) : Prop :=
  N * (k / nh) ≤ i ∧ i < N * (k / nh) + img.h ∧ N * (k % nh) ≤ j ∧ j < N * (k % nh) + img.w

theorem tile_unique {N nh k k' i j : ℕ} {a b : Pict} (ha : a.h ≤ N ∧ a.w ≤ N) (hb : b.h ≤ N ∧ b.w ≤ N)
    (h : InTile N nh k a i j) (h' : InTile N nh k' b i j) : k = k' := by
  have key : ∀ q q' x s s', N * q ≤ x → x < N * q + s → s ≤ N → N * q' ≤ x → x < N * q' + s' → s' ≤ N → q = q' := by
    intro q q' x s s' h1 h2 h3 h4 h5 h6
    have hN : 0 < N := by omega
    have e1 : x / N = q := by
      rw [Nat.div_eq_iff hN]
      constructor
      · rw [Nat.mul_comm]; omega
      · rw [Nat.mul_comm]; omega
    have e2 : x / N = q' := by
      rw [Nat.div_eq_iff hN]
      constructor
      · rw [Nat.mul_comm]; omega
      · rw [Nat.mul_comm]; omega
    omega
  have h1 := key _ _ _ _ _ h.1 h.2.1 ha.1 h'.1 h'.2.1 hb.1
  have h2 := key _ _ _ _ _ h.2.2.1 h.2.2.2 ha.2 h'.2.2.1 h'.2.2.2 hb.2
  rw [← Nat.div_add_mod k nh, ← Nat.div_add_mod k' nh, h1, h2]

theorem next_tile {nh k : ℕ} (hnh : 1 ≤ nh) :
    (k % nh = nh - 1 → (k + 1) / nh = k / nh + 1 ∧ (k + 1) % nh = 0) ∧
    (k % nh ≠ nh - 1 → (k + 1) / nh = k / nh ∧ (k + 1) % nh = k % nh + 1) := by
  have h1 := Nat.div_add_mod k nh
  have h2 := Nat.mod_lt k (show 0 < nh by omega)
  constructor
  · intro h
    have e : k + 1 = nh * (k / nh + 1) := by rw [Nat.mul_add]; omega
    rw [e, Nat.mul_div_cancel_left _ (by omega), Nat.mul_mod_right]
    exact ⟨rfl, rfl⟩
  · intro h
    have e : k + 1 = (k % nh + 1) + nh * (k / nh) := by omega
    have hlt : k % nh + 1 < nh := by omega
    constructor
    · conv_lhs => rw [e]
      rw [Nat.add_mul_div_left _ _ (by omega), Nat.div_eq_of_lt hlt, Nat.zero_add]
    · conv_lhs => rw [e]
      rw [Nat.add_mul_mod_self_left, Nat.mod_eq_of_lt hlt]

theorem slice_fits {len a n : ℕ} (h : a + n ≤ len) : sliceLength len a n = n := by
  unfold sliceLength
  omega

/-- the loop over the images of a page. -/
theorem page_spec {N nv nh : ℕ} (hnh : 1 ≤ nh) : ∀ (imgs : List Pict) (k : ℕ) (page : Pict), k + imgs.length ≤ nv * nh →
    (∀ x ∈ imgs, x.h ≤ N ∧ x.w ≤ N) → page.h = N * nv → page.w = N * nh →
    ∃ page', pageLoop N nh imgs k (N * (k / nh)) (N * (k % nh)) page = .ok page' ∧ page'.h = page.h ∧ page'.w = page.w ∧
      (∀ r, (hr : r < imgs.length) → ∀ i j c, InTile N nh (k + r) imgs[r] i j →
        page'.get i j c = (imgs[r]).get (i - N * ((k + r) / nh)) (j - N * ((k + r) % nh)) c) ∧
      ∀ i j c, (∀ r, (hr : r < imgs.length) → ¬ InTile N nh (k + r) imgs[r] i j) → page'.get i j c = page.get i j c := by
  intro imgs
  induction imgs with
  | nil => intro k page _ _ _ _; exact ⟨page, rfl, rfl, rfl, fun r hr => absurd hr (by simp), fun _ _ _ _ => rfl⟩
  | cons img rest ih =>
    intro k page hk hx hh hw
    rw [List.length_cons] at hk
    have hs := hx img (List.mem_cons_self ..)
    have hq : k / nh < nv := by rw [Nat.div_lt_iff_lt_mul (by omega)]; omega
    have hm : k % nh < nh := Nat.mod_lt _ (by omega)
    have f1 : sliceLength page.h (N * (k / nh)) img.h = img.h := by
      refine slice_fits ?_
      rw [hh]
      calc N * (k / nh) + img.h ≤ N * (k / nh) + N := by omega
        _ = N * (k / nh + 1) := by ring
        _ ≤ N * nv := Nat.mul_le_mul_left _ hq
    have f2 : sliceLength page.w (N * (k % nh)) img.w = img.w := by
      refine slice_fits ?_
      rw [hw]
      calc N * (k % nh) + img.w ≤ N * (k % nh) + N := by omega
        _ = N * (k % nh + 1) := by ring
        _ ≤ N * nh := Nat.mul_le_mul_left _ hm
    let page1 : Pict := ⟨page.h, page.w, fun i j c =>
      if N * (k / nh) ≤ i ∧ i < N * (k / nh) + img.h ∧ N * (k % nh) ≤ j ∧ j < N * (k % nh) + img.w then
        img.get (i - N * (k / nh)) (j - N * (k % nh)) c else page.get i j c⟩
    have hp : pasteImage page img (N * (k / nh)) (N * (k % nh)) = .ok page1 := by
      unfold pasteImage
      rw [f1, f2, if_neg (by simp)]
    obtain ⟨page', g1, g2, g3, g4, g5⟩ := ih (k + 1) page1 (by omega) (fun x h => hx x (List.mem_cons_of_mem _ h)) hh hw
    refine ⟨page', ?_, g2, g3, ?_, ?_⟩
    · unfold pageLoop
      rw [hp]
      simp only [bind, Except.bind]
      obtain ⟨t1, t2⟩ := next_tile (k := k) hnh
      by_cases h : k % nh = nh - 1
      · rw [if_pos h]
        obtain ⟨e1, e2⟩ := t1 h
        rw [e1, e2, Nat.mul_zero, Nat.mul_add, Nat.mul_one] at g1
        exact g1
      · rw [if_neg h]
        obtain ⟨e1, e2⟩ := t2 h
        rw [e1, e2, Nat.mul_add, Nat.mul_one] at g1
        exact g1
    · intro r hr i j c hin
      cases r with
      | zero =>
        rw [g5 i j c]
        · exact if_pos hin
        · intro r' hr' hin'
          have := tile_unique hs (hx _ (List.mem_cons_of_mem _ (List.getElem_mem hr'))) hin hin'
          omega
      | succ r =>
        have := g4 r (by simpa using hr) i j c
        rw [show k + 1 + r = k + (r + 1) by omega] at this
        exact this hin
    · intro i j c hout
      rw [g5 i j c]
      · exact if_neg (hout 0 (by simp))
      · intro r hr
        have := hout (r + 1) (by simpa using hr)
        rw [show k + (r + 1) = k + 1 + r by omega] at this
        exact this

theorem pages_spec {N nv nh : ℕ} (hnv : 1 ≤ nv) (hnh : 1 ≤ nh) : ∀ (n : ℕ) (imgs : List Pict), imgs.length ≤ n →
    (∀ x ∈ imgs, x.h ≤ N ∧ x.w ≤ N) →
    ∃ pages, pagesLoop N nv nh n imgs = .ok (some pages) ∧ pages.length = (imgs.length + nv * nh - 1) / (nv * nh) ∧
      (∀ p ∈ pages, p.h = N * nv ∧ p.w = N * nh) ∧
      (∀ s, (hs : s < imgs.length) → ∃ p, pages[s / (nv * nh)]? = some p ∧ ∀ i j c, InTile N nh (s % (nv * nh)) imgs[s] i j →
        p.get i j c = (imgs[s]).get (i - N * (s % (nv * nh) / nh)) (j - N * (s % (nv * nh) % nh)) c) ∧
      ∀ q p, pages[q]? = some p → ∀ i j c, (∀ s, (hs : s < imgs.length) → s / (nv * nh) = q → ¬ InTile N nh (s % (nv * nh)) imgs[s] i j) →
        p.get i j c = 0 := by
  have hK : 0 < nv * nh := Nat.mul_pos hnv hnh
  generalize hKe : nv * nh = K at *
  intro n
  induction n with
  | zero =>
    intro imgs hl _
    have : imgs = [] := List.length_eq_zero_iff.mp (by omega)
    subst this
    refine ⟨[], rfl, ?_, by simp, fun s hs => absurd hs (by simp), fun q p h => absurd h (by simp)⟩
    rw [List.length_nil, Nat.zero_add, Nat.div_eq_of_lt (by omega)]
  | succ n ih =>
    intro imgs hl hx
    cases imgs with
    | nil =>
      refine ⟨[], rfl, ?_, by simp, fun s hs => absurd hs (by simp), fun q p h => absurd h (by simp)⟩
      rw [List.length_nil, Nat.zero_add, Nat.div_eq_of_lt (by omega)]
    | cons img rest =>
      generalize hL : img :: rest = L at *
      have hLpos : 0 < L.length := by rw [← hL]; simp
      obtain ⟨page, a1, a2, a3, a4, a5⟩ := page_spec (N := N) (nv := nv) hnh (L.take K) 0 ⟨N * nv, N * nh, fun _ _ _ => 0⟩
        (by rw [hKe, List.length_take]; omega) (fun x h => hx x (List.mem_of_mem_take h)) rfl rfl
      obtain ⟨pages, b1, b2, b3, b4, b5⟩ := ih (L.drop K) (by rw [List.length_drop]; omega) fun x h => hx x (List.mem_of_mem_drop h)
      rw [Nat.zero_div, Nat.zero_mod, Nat.mul_zero] at a1
      have htake : ∀ s, (h : s < (L.take K).length) → (L.take K)[s] = L[s]'(by rw [List.length_take] at h; omega) :=
        fun s h => List.getElem_take
      have hdrop : ∀ s, (h : s < (L.drop K).length) → (L.drop K)[s] = L[K + s]'(by rw [List.length_drop] at h; omega) :=
        fun s h => List.getElem_drop
      refine ⟨page :: pages, ?_, ?_, ?_, ?_, ?_⟩
      · rw [← hL]
        unfold pagesLoop
        rw [hL, hKe, a1]
        simp only [bind, Except.bind]
        rw [b1]
        rfl
      · rw [List.length_cons, b2, List.length_drop]
        by_cases h : L.length ≤ K
        · rw [Nat.sub_eq_zero_of_le h, Nat.zero_add, Nat.div_eq_of_lt (by omega), Nat.zero_add]
          symm
          rw [Nat.div_eq_iff hK]
          omega
        · rw [← Nat.add_div_right _ hK]
          congr 1
          omega
      · intro p hp
        rcases List.mem_cons.mp hp with rfl | hp
        · exact ⟨a2, a3⟩
        · exact b3 p hp
      · intro s hs
        by_cases h : s < K
        · rw [Nat.div_eq_of_lt h, Nat.mod_eq_of_lt h]
          refine ⟨page, rfl, fun i j c hin => ?_⟩
          have hs' : s < (L.take K).length := by rw [List.length_take]; omega
          have := a4 s hs' i j c
          rw [htake s hs', Nat.zero_add] at this
          exact this hin
        · have hs' : s - K < (L.drop K).length := by rw [List.length_drop]; omega
          obtain ⟨p, p1, p2⟩ := b4 (s - K) hs'
          have e1 : s / K = (s - K) / K + 1 := by
            rw [← Nat.add_div_right _ hK]
            congr 1
            omega
          have e2 : s % K = (s - K) % K := by
            conv_lhs => rw [show s = s - K + K by omega]
            rw [Nat.add_mod_right]
          have e3 : (L.drop K)[s - K] = L[s] := by
            rw [hdrop]
            congr 1
            omega
          rw [e3] at p2
          rw [e1, e2]
          exact ⟨p, by simpa using p1, p2⟩
      · intro q p hp i j c hout
        cases q with
        | zero =>
          have hp : page = p := by simpa using hp
          subst hp
          rw [a5 i j c]
          intro s hs
          have h2 : s < K := by rw [List.length_take] at hs; omega
          have := hout s (by rw [List.length_take] at hs; omega) (Nat.div_eq_of_lt h2)
          rw [Nat.mod_eq_of_lt h2] at this
          rw [htake s hs, Nat.zero_add]
          exact this
        | succ q =>
          refine b5 q p (by simpa using hp) i j c fun s hs he => ?_
          have h3 : K + s < L.length := by rw [List.length_drop] at hs; omega
          have := hout (K + s) h3 (by rw [Nat.add_div_left _ hK, he])
          rw [Nat.add_mod_left] at this
          rw [hdrop s hs]
          exact this

/-- **C178, overviews.** If no image is higher or wider than `ncell + 1`, the images are shown in pages of `nv` rows and `nh` columns, row
by row: every image, unchanged, in its own tile; everything else is black. -/
theorem C178_pages (lX : List Pict) (nv nh ncell : ℕ) (hnv : 1 ≤ nv) (hnh : 1 ≤ nh) (hx : ∀ x ∈ lX, x.h ≤ ncell + 1 ∧ x.w ≤ ncell + 1) :
    ∃ pages, plotManySnakes lX nv nh ncell = .ok (some pages) ∧ pages.length = (lX.length + nv * nh - 1) / (nv * nh) ∧
      (∀ p ∈ pages, p.h = (ncell + 1) * nv ∧ p.w = (ncell + 1) * nh) ∧
      (∀ s, (hs : s < lX.length) → ∃ p, pages[s / (nv * nh)]? = some p ∧ ∀ a < (lX[s]).h, ∀ b < (lX[s]).w, ∀ c,
        p.get ((ncell + 1) * (s / nh % nv) + a) ((ncell + 1) * (s % nh) + b) c = (lX[s]).get a b c) ∧
      ∀ q p, pages[q]? = some p → ∀ i j c,
        (∀ s, (hs : s < lX.length) → s / (nv * nh) = q → ∀ a < (lX[s]).h, ∀ b < (lX[s]).w,
          ¬ (i = (ncell + 1) * (s / nh % nv) + a ∧ j = (ncell + 1) * (s % nh) + b)) → p.get i j c = 0 := by
  obtain ⟨pages, h1, h2, h3, h4, h5⟩ := pages_spec (N := ncell + 1) hnv hnh lX.length lX le_rfl hx
  have m1 : ∀ s, s % (nv * nh) / nh = s / nh % nv := fun s => by rw [Nat.mul_comm, Nat.mod_mul_right_div_self]
  have m2 : ∀ s, s % (nv * nh) % nh = s % nh := fun s => Nat.mod_mul_left_mod s nv nh
  refine ⟨pages, h1, h2, h3, fun s hs => ?_, fun q p hp i j c hout => ?_⟩
  · obtain ⟨p, p1, p2⟩ := h4 s hs
    refine ⟨p, p1, fun a ha b hb c => ?_⟩
    have := p2 ((ncell + 1) * (s / nh % nv) + a) ((ncell + 1) * (s % nh) + b) c
    unfold InTile at this
    rw [m1, m2] at this
    rw [this ⟨by omega, by omega, by omega, by omega⟩, Nat.add_sub_cancel_left, Nat.add_sub_cancel_left]
  · refine h5 q p hp i j c fun s hs he hin => ?_
    unfold InTile at hin
    rw [m1, m2] at hin
    exact hout s hs he (i - (ncell + 1) * (s / nh % nv)) (by omega) (j - (ncell + 1) * (s % nh)) (by omega) ⟨by omega, by omega⟩

/-- **C178, no tiles.** Without rows or columns the overview of at least one image never ends. -/
theorem C178_endless (img : Pict) (rest : List Pict) (nv nh ncell : ℕ) (h : nv * nh = 0) :
    plotManySnakes (img :: rest) nv nh ncell = .ok none := by
  unfold plotManySnakes
  generalize (img :: rest).length = n
  induction n with
  | zero => rfl
  | succ n ih =>
    unfold pagesLoop
    rw [h]
    simp only [List.take_zero, List.drop_zero, bind, Except.bind, pageLoop]
    rw [ih]
    rfl

theorem paste_error {page img : Pict} {ih iw : ℕ} {e : PyErr} (h : pasteImage page img ih iw = .error e) : e = .valueError := by
  unfold pasteImage at h
  split at h
  · cases h; rfl
  · cases h

theorem paste_size {page img page' : Pict} {ih iw : ℕ} (h : pasteImage page img ih iw = .ok page') : page'.h = page.h ∧ page'.w = page.w := by
  unfold pasteImage at h
  split at h
  · cases h
  · cases h; exact ⟨rfl, rfl⟩

/-- an image that is too wide for the last column. -/
theorem page_wide {N nh : ℕ} (hnh : 1 ≤ nh) : ∀ (imgs : List Pict) (k ih : ℕ) (page : Pict), page.w = N * nh →
    ((∃ r, ∃ hr : r < imgs.length, (k + r) % nh = nh - 1 ∧ N < (imgs[r]).w ∧ 1 < (imgs[r]).w) →
      pageLoop N nh imgs k ih (N * (k % nh)) page = .error .valueError) ∧
    ∀ e, pageLoop N nh imgs k ih (N * (k % nh)) page = .error e → e = .valueError := by
  intro imgs
  induction imgs with
  | nil =>
    intro k ih page _
    refine ⟨?_, fun e h => ?_⟩
    · rintro ⟨r, hr, -⟩
      exact absurd hr (by simp)
    · unfold pageLoop at h
      cases h
  | cons img rest ihh =>
    intro k ih page hw
    unfold pageLoop
    cases hp : pasteImage page img ih (N * (k % nh)) with
    | error e =>
      have he := paste_error hp
      subst he
      refine ⟨fun _ => rfl, fun e h => ?_⟩
      simp only [bind, Except.bind] at h
      cases h
      rfl
    | ok page1 =>
      simp only [bind, Except.bind]
      have hw1 : page1.w = N * nh := by rw [(paste_size hp).2, hw]
      obtain ⟨t1, t2⟩ := next_tile (k := k) hnh
      have hrest : ∃ ih', (if k % nh = nh - 1 then pageLoop N nh rest (k + 1) (ih + N) 0 page1
          else pageLoop N nh rest (k + 1) ih (N * (k % nh) + N) page1) = pageLoop N nh rest (k + 1) ih' (N * ((k + 1) % nh)) page1 := by
        by_cases h : k % nh = nh - 1
        · rw [if_pos h, (t1 h).2, Nat.mul_zero]
          exact ⟨_, rfl⟩
        · rw [if_neg h, (t2 h).2, Nat.mul_add, Nat.mul_one]
          exact ⟨_, rfl⟩
      obtain ⟨ih', hr'⟩ := hrest
      rw [hr']
      obtain ⟨i1, i2⟩ := ihh (k + 1) ih' page1 hw1
      refine ⟨?_, i2⟩
      rintro ⟨r, hr, hl, hwide, h1⟩
      cases r with
      | zero =>
        exfalso
        rw [Nat.add_zero] at hl
        rw [List.getElem_cons_zero] at hwide h1
        unfold pasteImage at hp
        rw [if_pos] at hp
        · cases hp
        · right
          refine ⟨?_, by omega⟩
          rw [hl, hw]
          unfold sliceLength
          have : N * nh = N * (nh - 1) + N := by
            conv_lhs => rw [show nh = nh - 1 + 1 by omega]
            rw [Nat.mul_add, Nat.mul_one]
          omega
      | succ r =>
        refine i1 ⟨r, by simpa using hr, ?_, ?_, ?_⟩
        · rw [show k + 1 + r = k + (r + 1) by omega]; exact hl
        · simpa using hwide
        · simpa using h1

theorem pages_wide {N nv nh : ℕ} (hnv : 1 ≤ nv) (hnh : 1 ≤ nh) : ∀ (n : ℕ) (imgs : List Pict), imgs.length ≤ n →
    ((∃ s, ∃ hs : s < imgs.length, s % nh = nh - 1 ∧ N < (imgs[s]).w ∧ 1 < (imgs[s]).w) → pagesLoop N nv nh n imgs = .error .valueError) := by
  have hK : 0 < nv * nh := Nat.mul_pos hnv hnh
  intro n
  induction n with
  | zero => rintro imgs hl ⟨s, hs, -⟩; omega
  | succ n ih =>
    intro imgs hl
    cases imgs with
    | nil => rintro ⟨s, hs, -⟩; exact absurd hs (by simp)
    | cons img rest =>
      generalize hL : img :: rest = L at *
      have hLpos : 0 < L.length := by rw [← hL]; simp
      rintro ⟨s, hs, h1, h2, h3⟩
      rw [← hL]
      unfold pagesLoop
      rw [hL]
      obtain ⟨p1, p2⟩ := page_wide (N := N) hnh (L.take (nv * nh)) 0 0 ⟨N * nv, N * nh, fun _ _ _ => 0⟩ rfl
      rw [Nat.zero_mod, Nat.mul_zero] at p1 p2
      cases hp : pageLoop N nh (L.take (nv * nh)) 0 0 0 ⟨N * nv, N * nh, fun _ _ _ => 0⟩ with
      | error e => rw [p2 e hp]; rfl
      | ok page =>
        simp only [bind, Except.bind]
        by_cases h : s < nv * nh
        · exfalso
          rw [p1 ⟨s, by rw [List.length_take]; omega, by rw [Nat.zero_add]; exact h1, by rw [List.getElem_take]; exact h2,
            by rw [List.getElem_take]; exact h3⟩] at hp
          cases hp
        · have e3 : ∀ hh, (L.drop (nv * nh))[s - nv * nh]'hh = L[s] := by
            intro hh
            rw [List.getElem_drop]
            congr 1
            omega
          have hh : s - nv * nh < (L.drop (nv * nh)).length := by rw [List.length_drop]; omega
          rw [ih (L.drop (nv * nh)) (by rw [List.length_drop]; omega) ⟨s - nv * nh, hh, ?_, by rw [e3]; exact h2, by rw [e3]; exact h3⟩]
          rw [← h1]
          conv_rhs => rw [show s = s - nv * nh + nv * nh by omega]
          rw [Nat.add_mul_mod_self_right]

/-- **C178, too wide.** An image wider than `ncell + 1` in the last column raises `ValueError`. -/
theorem C178_violated_wide (lX : List Pict) (nv nh ncell : ℕ) (hnv : 1 ≤ nv) (hnh : 1 ≤ nh) (s : ℕ) (hs : s < lX.length)
    (hlast : s % nh = nh - 1) (hw : max (ncell + 1) 1 < (lX[s]).w) : plotManySnakes lX nv nh ncell = .error .valueError :=
  pages_wide hnv hnh lX.length lX le_rfl ⟨s, hs, hlast, by omega, by omega⟩

theorem straight_walk (c : ℤ) : ∀ n k : ℕ, Walk (c, c + k) ((List.range n).map fun (i : ℕ) => ((c, c + k + i), 1)) (c, c + k + n) := by
  intro n
  induction n with
  | zero => intro k; exact Prod.ext rfl (by simp)
  | succ n ih =>
    intro k
    rw [List.range_succ_eq_map, List.map_cons, List.map_map]
    refine ⟨Prod.ext rfl (by simp), by simp, ?_⟩
    have h := ih (k + 1)
    have e1 : ((c, c + (k : ℤ)) : ℤ × ℤ) + [((-1 : ℤ), (0 : ℤ)), (0, 1), (1, 0), (0, -1)].getD 1 0 = (c, c + ((k + 1 : ℕ) : ℤ)) :=
      Prod.ext (by simp) (by simp; ring)
    have e2 : (List.range n).map ((fun (i : ℕ) => (((c, c + (k : ℤ) + (i : ℤ)) : ℤ × ℤ), 1)) ∘ Nat.succ) =
        (List.range n).map fun (i : ℕ) => (((c, c + ((k + 1 : ℕ) : ℤ) + (i : ℤ)) : ℤ × ℤ), 1) := by
      refine List.map_congr_left fun i _ => ?_
      simp only [Function.comp_apply, Nat.succ_eq_add_one]
      push_cast
      rw [show c + (k : ℤ) + ((i : ℤ) + 1) = c + ((k : ℤ) + 1) + i by ring]
    have e3 : (c, c + (k : ℤ) + ((n + 1 : ℕ) : ℤ)) = ((c, c + ((k + 1 : ℕ) : ℤ) + (n : ℤ)) : ℤ × ℤ) :=
      Prod.ext rfl (by push_cast; ring)
    change Walk (((c, c + (k : ℤ)) : ℤ × ℤ) + [((-1 : ℤ), (0 : ℤ)), (0, 1), (1, 0), (0, -1)].getD 1 0) _ _
    rw [e1, e2, e3]
    exact h

/-- **C178, straight snakes.** `genSnakes` can return images that are too wide: a straight snake has the width `ncell + 2`. -/
theorem C178_violated_straight (ncell : ℕ) (hn : 1 ≤ ncell) :
    ∃ order : ℕ → List ℕ, (∀ k, (order k).Perm [0, 1, 2, 3]) ∧ ∃ img known,
      genSnakes ncell [[order]] [] = .ok (some ([img], known)) ∧ img.1.w = ncell + 2 ∧
      ∀ nv, 1 ≤ nv → plotManySnakes [img.1] nv 1 ncell = .error .valueError := by
  have hw := straight_walk (1 + ncell) ncell 0
  simp only [Nat.cast_zero, add_zero] at hw
  have hmap : ((List.range ncell).map fun (i : ℕ) => (((1 + (ncell : ℤ), 1 + (ncell : ℤ) + (i : ℤ)) : ℤ × ℤ), 1)).map Prod.fst =
      (List.range ncell).map fun (i : ℕ) => ((1 + (ncell : ℤ), 1 + (ncell : ℤ) + (i : ℤ)) : ℤ × ℤ) := by
    rw [List.map_map]
    rfl
  have hs : SelfAvoiding ((List.range ncell).map fun (i : ℕ) => (((1 + (ncell : ℤ), 1 + (ncell : ℤ) + (i : ℤ)) : ℤ × ℤ), 1))
      (1 + (ncell : ℤ), 1 + (ncell : ℤ) + (ncell : ℤ)) := by
    unfold SelfAvoiding
    rw [hmap]
    have : ((List.range ncell).map fun (i : ℕ) => ((1 + (ncell : ℤ), 1 + (ncell : ℤ) + (i : ℤ)) : ℤ × ℤ)) ++
        [(1 + (ncell : ℤ), 1 + (ncell : ℤ) + (ncell : ℤ))] =
        (List.range (ncell + 1)).map fun (i : ℕ) => ((1 + (ncell : ℤ), 1 + (ncell : ℤ) + (i : ℤ)) : ℤ × ℤ) := by
      rw [List.range_succ, List.map_append]
      rfl
    rw [this]
    refine List.Nodup.map ?_ List.nodup_range
    intro a b h
    have := congrArg Prod.snd h
    simp only at this
    omega
  obtain ⟨order, ho, hall⟩ := C176_every ncell hn _ _ (by simp) hw hs [] (by simp)
  obtain ⟨img, o, h1, h2⟩ := hall []
  rw [hmap] at h1 h2
  have hp : ∀ k < ncell, ((List.range ncell).map fun (i : ℕ) => ((1 + (ncell : ℤ), 1 + (ncell : ℤ) + (i : ℤ)) : ℤ × ℤ)).getD k 0 - o =
      (1 + (ncell : ℤ) - o.1, 1 + (ncell : ℤ) + (k : ℤ) - o.2) := by
    intro k hk
    rw [List.getD_eq_getElem _ _ (by simpa using hk), List.getElem_map, List.getElem_range]
    rfl
  have hwid : img.1.w = ncell + 2 := by
    obtain ⟨k0, hk0, e0⟩ := h2.left
    obtain ⟨k1, hk1, e1⟩ := h2.right
    simp only [hp k0 hk0] at e0
    simp only [hp k1 hk1] at e1
    obtain ⟨c, hc, ⟨c1, c2, c3, c4, c5, c6⟩, -⟩ := h2.snake.1 0 hn
    obtain ⟨d, hd, ⟨d1, d2, d3, d4, d5, d6⟩, -⟩ := h2.snake.1 (ncell - 1) (by omega)
    simp only [hp 0 hn] at c1 c2 c3 c4 c6
    simp only [hp (ncell - 1) (by omega)] at d1 d2 d3 d4 d6
    have hedge : ∀ (i j : ℕ) (c : ℕ), i < img.1.h → j < img.1.w → c < 5 → c ≠ 3 → (asHot false img.1).get i j c = 1 →
        j ≠ 0 ∧ j + 1 ≠ img.1.w := by
      intro i j c hi hj hc5 hc3 h1
      obtain ⟨c', -, hu⟩ := h2.one i hi j hj
      have e1 := (hu c hc5).mp h1
      constructor
      · intro h
        have := (hu 3 (by omega)).mp (h2.border i hi j hj (by omega))
        omega
      · intro h
        have := (hu 3 (by omega)).mp (h2.border i hi j hj (by omega))
        omega
    have z0 := hedge _ _ c (by omega) (by omega) c5 hc c6
    have z1 := hedge _ _ d (by omega) (by omega) d5 hd d6
    push_cast [Nat.cast_sub hn] at *
    omega
  refine ⟨order, ho, img, [(List.range ncell).map fun (i : ℕ) => ((1 + (ncell : ℤ), 1 + (ncell : ℤ) + (i : ℤ)) : ℤ × ℤ)], ?_, hwid,
    fun nv hnv => ?_⟩
  · unfold genSnakes
    rw [h1]
    rfl
  · exact C178_violated_wide [img.1] nv 1 ncell hnv le_rfl 0 (by simp) (by simp) (by simp [hwid])

/-- a sample of which `plot_mistakes` makes no complaint. -/
def MistakeOk (ncell : ℕ) (s : List ℤ × List ℤ × Pict) : Prop :=
  s.1.length = s.2.1.length ∧ s.1.length = s.2.2.h * s.2.2.w + 1 ∧ (s.1.getLast? = some (ncell + 1 : ℤ) ∨ s.1.getLast? = some (ncell + 2 : ℤ))

theorem mistakes_loop (ncell : ℕ) : ∀ (l : List (List ℤ × List ℤ × Pict)) (no yes : List Pict), (∀ s ∈ l, MistakeOk ncell s) →
    mistakesLoop ncell (l.map fun s => s.1) (l.map fun s => s.2.1) (l.map fun s => s.2.2) no yes =
      .ok (no ++ (l.filter fun s => s.1.getLast? = some (ncell + 1 : ℤ) ∧ s.2.1.getLast? ≠ s.1.getLast?).map (fun s => s.2.2),
        yes ++ (l.filter fun s => s.1.getLast? = some (ncell + 2 : ℤ) ∧ s.2.1.getLast? ≠ s.1.getLast?).map (fun s => s.2.2)) := by
  intro l
  induction l with
  | nil => intro no yes _; simp [mistakesLoop]
  | cons s l ih =>
    intro no yes hl
    obtain ⟨h1, h2, h3⟩ := hl s (List.mem_cons_self ..)
    have ih := fun no yes => ih no yes fun t ht => hl t (List.mem_cons_of_mem _ ht)
    have hp : ∃ b, s.2.1.getLast? = some b := by
      cases h : s.2.1.getLast? with
      | none => rw [List.getLast?_eq_none_iff] at h; rw [h, List.length_nil] at h1; omega
      | some b => exact ⟨b, rfl⟩
    obtain ⟨b, hb⟩ := hp
    simp only [List.map_cons]
    unfold mistakesLoop
    rw [if_neg (by simpa using h1), if_neg (by rw [Nat.mul_div_cancel _ (by omega)]; simpa using h2)]
    unfold lastLabel
    simp only [bind, Except.bind, hb]
    rcases h3 with h3 | h3
    · simp only [h3]
      rw [if_neg (by simp)]
      by_cases hab : (ncell + 1 : ℤ) = b
      · rw [if_pos hab, ih]
        simp [h3, hb, hab]
      · have hab' : ¬ b = (ncell + 1 : ℤ) := fun h => hab h.symm
        rw [if_neg hab, if_pos (by omega), ih]
        simp [h3, hb, hab', List.append_assoc]
    · simp only [h3]
      rw [if_neg (by simp)]
      by_cases hab : (ncell + 2 : ℤ) = b
      · rw [if_pos hab, ih]
        simp [h3, hb, hab]
      · have hab' : ¬ b = (ncell + 2 : ℤ) := fun h => hab h.symm
        rw [if_neg hab, if_neg (by omega), ih]
        simp [h3, hb, hab', List.append_assoc]

/-- **C178, mistakes.** `plot_mistakes` shows the images without snake whose last label is predicted wrongly, and then those with a snake,
each in the order of the samples, in overviews for snakes of ten cells. -/
theorem C178_mistakes (ncell : ℕ) (l : List (List ℤ × List ℤ × Pict))
    (hl : ∀ s ∈ l, s.1.length = s.2.1.length ∧ s.1.length = s.2.2.h * s.2.2.w + 1 ∧
      (s.1.getLast? = some (ncell + 1 : ℤ) ∨ s.1.getLast? = some (ncell + 2 : ℤ)))
    (hx : ∀ s ∈ l, s.2.2.h ≤ 11 ∧ s.2.2.w ≤ 11) :
    ∃ a b, plotMistakes (l.map fun s => s.1) (l.map fun s => s.2.1) (l.map fun s => s.2.2) ncell = .ok (some a, some b) ∧
      plotManySnakes ((l.filter fun s => s.1.getLast? = some (ncell + 1 : ℤ) ∧ s.2.1.getLast? ≠ s.1.getLast?).map fun s => s.2.2) 10 20 10 =
        .ok (some a) ∧
      plotManySnakes ((l.filter fun s => s.1.getLast? = some (ncell + 2 : ℤ) ∧ s.2.1.getLast? ≠ s.1.getLast?).map fun s => s.2.2) 10 20 10 =
        .ok (some b) := by
  have hsub : ∀ P : List ℤ × List ℤ × Pict → Bool, ∀ x ∈ (l.filter P).map (fun s => s.2.2), x.h ≤ 10 + 1 ∧ x.w ≤ 10 + 1 := by
    intro P x hm
    obtain ⟨s, hs, rfl⟩ := List.mem_map.mp hm
    exact hx s (List.mem_filter.mp hs).1
  obtain ⟨a, ha, -⟩ := C178_pages _ 10 20 10 (by omega) (by omega)
    (hsub fun s => s.1.getLast? = some (ncell + 1 : ℤ) ∧ s.2.1.getLast? ≠ s.1.getLast?)
  obtain ⟨b, hb, -⟩ := C178_pages _ 10 20 10 (by omega) (by omega)
    (hsub fun s => s.1.getLast? = some (ncell + 2 : ℤ) ∧ s.2.1.getLast? ≠ s.1.getLast?)
  refine ⟨a, b, ?_, ha, hb⟩
  unfold plotMistakes
  rw [mistakes_loop ncell l [] [] hl]
  simp only [bind, Except.bind, List.nil_append]
  rw [ha]
  simp only
  rw [hb]

/-! ### cases that meet the hypotheses -/

/-- an image of one colour. -/
def greyPict (h w : ℕ) (v : ℚ) : Pict := ⟨h, w, fun _ _ _ => v⟩

example : ∀ x ∈ [greyPict 2 3 1, greyPict 3 1 2], x.h ≤ 2 + 1 ∧ x.w ≤ 2 + 1 := by
  simp [greyPict]

example : (match plotManySnakes [greyPict 2 3 1, greyPict 3 1 2, greyPict 1 1 3] 1 2 2 with
    | .ok (some [p, q]) => p.h = 3 ∧ p.w = 6 ∧ p.get 1 2 0 = 1 ∧ p.get 2 2 0 = 0 ∧ p.get 2 3 0 = 2 ∧ q.get 0 0 0 = 3
    | _ => False) := by
  refine ⟨?_, ?_, ?_, ?_, ?_, ?_⟩ <;> decide +kernel

example : plotManySnakes [greyPict 2 3 1, greyPict 3 4 2] 1 2 2 = .error .valueError :=
  C178_violated_wide _ 1 2 2 (by omega) (by omega) 1 (by simp) (by simp) (by simp [greyPict])

example : ∀ s ∈ [(([0, 11] : List ℤ), ([0, 12] : List ℤ), greyPict 1 1 1), ([1, 12], [1, 12], greyPict 1 1 1)],
    s.1.length = s.2.1.length ∧ s.1.length = s.2.2.h * s.2.2.w + 1 ∧
      (s.1.getLast? = some ((10 : ℕ) + 1 : ℤ) ∨ s.1.getLast? = some ((10 : ℕ) + 2 : ℤ)) := by
  simp [greyPict]

end Verif.Props
