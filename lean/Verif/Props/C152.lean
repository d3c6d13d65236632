import Verif.Model.Helpers
import Verif.Props.C07

/-!
# C152: images of words; C153: `solve_lp`; C154: `edges_to_graph` and `plot_grid`
-/

namespace Verif.Props

open Verif.Common Verif.Helpers Verif.Spec Finset

/-! ### images of words -/

/-- `image` shows the letters of `word` from left to right, each as 16 rows of 8 pixels. -/
def Shows (word : List Vec) (image : Mat) : Prop :=
  image.rows = 16 ∧ image.cols = 8 * word.length ∧
    ∀ k (hk : k < word.length), ∀ r < 16, ∀ c < 8, image.get r (8 * k + c) = word[k].get (8 * r + c)

theorem letterImages_ok (word : List Vec) (h : ∀ l ∈ word, l.size = 128) :
    letterImages word = .ok (word.map fun l => ⟨16, 8, fun r c => l.get (r * 8 + c)⟩) := by
  induction word with
  | nil => rfl
  | cons l rest ih =>
    have hl : l.size = 16 * 8 := h l (by simp)
    simp only [letterImages, Vec.reshape2, if_pos hl, ih fun m hm => h m (by simp [hm]), List.map_cons]

theorem letterImages_bad (word : List Vec) (h : ∃ l ∈ word, l.size ≠ 128) :
    letterImages word = .error .valueError := by
  induction word with
  | nil => simp at h
  | cons l rest ih =>
    by_cases hl : l.size = 16 * 8
    · have : ∃ m ∈ rest, m.size ≠ 128 := by
        obtain ⟨m, hm, hne⟩ := h
        rcases List.mem_cons.mp hm with rfl | hm
        · exact absurd hl hne
        · exact ⟨m, hm, hne⟩
      simp only [letterImages, Vec.reshape2, if_pos hl, ih this]
    · simp only [letterImages, Vec.reshape2, if_neg hl]

theorem hstack_letters (word : List Vec) (hne : word ≠ []) :
    ∃ image, hstack (word.map fun l => (⟨16, 8, fun r c => l.get (r * 8 + c)⟩ : Mat)) = .ok image ∧
      Shows word image := by
  induction word with
  | nil => exact absurd rfl hne
  | cons l rest ih =>
    cases rest with
    | nil =>
      refine ⟨_, rfl, rfl, rfl, ?_⟩
      intro k hk r hr c hc
      have : k = 0 := by simpa using hk
      subst this
      simp [Nat.mul_comm]
    | cons l' rest' =>
      obtain ⟨image, hi, hrows, hcols, hget⟩ := ih (by simp)
      rw [List.map_cons, hstack, hi]
      · simp only
        rw [if_neg (by simp [hrows])]
        refine ⟨_, rfl, rfl, ?_, ?_⟩
        · simp only [hcols, List.length_cons]
          ring
        · intro k hk r hr c hc
          cases k with
          | zero =>
            simp only [Nat.mul_zero, Nat.zero_add, if_pos hc, List.getElem_cons_zero]
            rw [Nat.mul_comm]
          | succ k =>
            have hk' : k < (l' :: rest').length := by simpa using hk
            simp only [List.getElem_cons_succ]
            rw [if_neg (by omega), show 8 * (k + 1) + c - 8 = 8 * k + c by omega]
            exact hget k hk' r hr c hc
      · simp

/-- **C152** (images): the image of a word of letters with 128 pixels exists and shows its letters from left to
right. -/
theorem C152_image (word : List Vec) (hne : word ≠ []) (h : ∀ l ∈ word, l.size = 128) :
    ∃ image, wordImage word = .ok image ∧ Shows word image := by
  unfold wordImage
  rw [letterImages_ok word h]
  exact hstack_letters word hne

/-- **C152** (rejection): a word without letters, or with a letter that has not 128 pixels, is a `ValueError`. -/
theorem C152_rejects (word : List Vec) (h : word = [] ∨ ∃ l ∈ word, l.size ≠ 128) :
    wordImage word = .error .valueError := by
  rcases h with rfl | h
  · rfl
  · unfold wordImage
    rw [letterImages_bad word h]

/-- **C152** (whole data set): one image per word, in order. -/
theorem C152_images (words : List (List Vec)) (h : ∀ w ∈ words, w ≠ [] ∧ ∀ l ∈ w, l.size = 128) :
    ∃ ims, images words = .ok ims ∧ ims.length = words.length ∧
      ∀ i (hi : i < words.length) (hi' : i < ims.length), Shows words[i] ims[i] := by
  induction words with
  | nil => exact ⟨[], rfl, rfl, fun i hi => absurd hi (by simp)⟩
  | cons w rest ih =>
    obtain ⟨m, hm, hs⟩ := C152_image w (h w (by simp)).1 (h w (by simp)).2
    obtain ⟨ims, hi, hl, hall⟩ := ih fun w' hw' => h w' (by simp [hw'])
    refine ⟨m :: ims, by simp only [images, hm, hi], by simp [hl], ?_⟩
    intro i h1 h2
    cases i with
    | zero => exact hs
    | succ i => exact hall i (by simpa using h1) (by simpa using h2)

/-- **C152** (one bad word): then there are no images at all. -/
theorem C152_images_reject (words : List (List Vec)) (h : ∃ w ∈ words, w = [] ∨ ∃ l ∈ w, l.size ≠ 128) :
    images words = .error .valueError := by
  induction words with
  | nil => simp at h
  | cons w rest ih =>
    by_cases hw : w = [] ∨ ∃ l ∈ w, l.size ≠ 128
    · simp only [images, C152_rejects w hw]
    · have hr : ∃ w ∈ rest, w = [] ∨ ∃ l ∈ w, l.size ≠ 128 := by
        obtain ⟨v, hv, hb⟩ := h
        rcases List.mem_cons.mp hv with rfl | hv
        · exact absurd hb hw
        · exact ⟨v, hv, hb⟩
      push Not at hw
      obtain ⟨m, hm, -⟩ := C152_image w hw.1 hw.2
      simp only [images, hm, ih hr]

/-- Two words. -/
example : ∀ w ∈ [[(⟨128, fun k => k⟩ : Vec), ⟨128, fun k => 2 * k⟩], [⟨128, fun _ => 0⟩]],
    w ≠ [] ∧ ∀ l ∈ w, l.size = 128 := by
  intro w hw
  simp only [List.mem_cons, List.not_mem_nil, or_false] at hw
  rcases hw with rfl | rfl <;> simp

/-! ### solve_lp -/

/-- **C153** (`solve_lp` is relaxed inference): on negated potentials it returns what `inference_method="lp"` with
`relaxed=True` returns for the potentials, and fails where that fails. -/
theorem C153_inference (solver : LP.Solver) (U : Mat) (edges : Edges) (pw : Mat) :
    (∀ u q energy, solveLP solver ⟨U.rows, U.cols, fun i s => - U.get i s⟩ edges
        ⟨pw.rows, pw.cols, fun a b => - pw.get a b⟩ = .ok (u, q, energy) →
      LP.inferenceLP solver U (.mat pw) edges true = .ok (.relaxed u.ravel q.ravel, energy)) ∧
    (∀ err, solveLP solver ⟨U.rows, U.cols, fun i s => - U.get i s⟩ edges
        ⟨pw.rows, pw.cols, fun a b => - pw.get a b⟩ = .error err →
      LP.inferenceLP solver U (.mat pw) edges true = .error err) := by
  unfold solveLP LP.inferenceLP validateParams
  simp only
  by_cases h1 : U.cols = pw.rows
  · by_cases h2 : pw.cols = U.cols
    · obtain ⟨r, c, g⟩ := pw
      simp only at h1 h2
      subst h1 h2
      simp only [ne_eq, not_true_eq_false, if_false, and_self, if_true]
      constructor
      · intro u q energy h
        rw [h]
      · intro err h
        rw [h]
    · rw [if_neg (by simp [h1]), if_neg (by tauto)]
      have : LP.lpGeneralGraph solver ⟨U.rows, U.cols, fun i s => - U.get i s⟩ edges
          ⟨edges.length, pw.rows, pw.cols, fun _ a b => - pw.get a b⟩ = .error .valueError := by
        unfold LP.lpGeneralGraph LP.build
        simp only
        rw [if_neg (by simp [h1]), if_pos (by rw [← h1]; exact fun e => h2 e.symm)]
      rw [this]
      simp
  · rw [if_pos (by simpa using h1), if_neg (by rintro ⟨h, -⟩; exact h1 h.symm)]
    simp

/-- **C153** (shapes): a matrix that is not square with the number of states of the unaries is a `ValueError`. -/
theorem C153_shapes (solver : LP.Solver) (U : Mat) (edges : Edges) (pw : Mat)
    (h : pw.rows ≠ U.cols ∨ pw.cols ≠ U.cols) : solveLP solver U edges pw = .error .valueError := by
  unfold solveLP
  by_cases h1 : U.cols = pw.rows
  · rw [if_neg (by simpa using h1)]
    unfold LP.lpGeneralGraph LP.build
    simp only
    rw [if_neg (by simpa using h1), if_pos]
    intro e
    rcases h with h | h
    · exact h h1.symm
    · exact h (by rw [← e, h1])
  · rw [if_pos (by simpa using h1)]

/-- **C153** (lower bound): with an exact solver, the returned number is at most the sum of unary and pairwise
costs of any labelling. -/
theorem C153_lower_bound (solver : LP.Solver) (U : Mat) (edges : Edges) (pw : Mat) (h1 : pw.rows = U.cols)
    (h2 : pw.cols = U.cols) (hn : 1 ≤ U.rows) (hS : 1 ≤ U.cols) (hE : EdgesIn U.rows edges)
    (hopt : ∀ p, LP.build U edges ⟨edges.length, pw.rows, pw.cols, fun _ a b => pw.get a b⟩ = .ok p →
      p.Optimal (solver p)) :
    ∃ u q energy, solveLP solver U edges pw = .ok (u, q, energy) ∧
      ∀ y, Valid U.rows U.cols y → energy ≤ score U.rows edges U.get (fun _ a b => pw.get a b) y := by
  have hgen := C153_inference solver ⟨U.rows, U.cols, fun i s => - U.get i s⟩ edges
    ⟨pw.rows, pw.cols, fun a b => - pw.get a b⟩
  simp only [neg_neg] at hgen
  obtain ⟨y0, energy0, hi, hb⟩ := C07_upper_bound solver ⟨U.rows, U.cols, fun i s => - U.get i s⟩
    (.mat ⟨pw.rows, pw.cols, fun a b => - pw.get a b⟩) edges (fun _ a b => - pw.get a b)
    (by simp [Denotes, h1, h2]) hn hS hE
    (fun p hp => hopt p (by simpa only [neg_neg, h1, h2] using hp)) true
  cases hs : solveLP solver U edges pw with
  | error err =>
    have := hgen.2 err hs
    rw [hi] at this
    cases this
  | ok r =>
    obtain ⟨u, q, energy⟩ := r
    have := hgen.1 u q energy hs
    rw [hi] at this
    injection this with this
    injection this with _ hen
    subst hen
    refine ⟨u, q, energy0, rfl, fun y hy => ?_⟩
    have hbb := hb y hy
    have hneg : score U.rows edges (fun i s => - U.get i s) (fun _ a b => - pw.get a b) y =
        - score U.rows edges U.get (fun _ a b => pw.get a b) y := by
      unfold score
      simp only [Finset.sum_neg_distrib]
      ring
    rw [hneg] at hbb
    linarith

/-! ### edges_to_graph -/

/-- **C154** (`edges_to_graph`): the entry of the graph at two vertices is the number of edges from the first to
the second one. Without a number of vertices, the graph has just enough vertices for the edges. -/
theorem C154_graph (edges : Edges) (nVertices : Option ℕ) :
    (∀ g, edgesToGraph edges nVertices = .ok g →
      (∀ i j, g.get i j = edges.count (i, j)) ∧ g.cols = g.rows ∧
      (∀ e ∈ edges, e.1 < g.rows ∧ e.2 < g.rows) ∧
      (∀ n, nVertices = some n → g.rows = n) ∧
      (nVertices = none → ∃ e ∈ edges, g.rows = e.1 + 1 ∨ g.rows = e.2 + 1)) ∧
    ((∃ n, nVertices = some n ∧ ∃ e ∈ edges, n ≤ e.1 ∨ n ≤ e.2) ∨ (nVertices = none ∧ edges = []) ↔
      edgesToGraph edges nVertices = .error .valueError) ∧
    ((∃ g, edgesToGraph edges nVertices = .ok g) ∨ edgesToGraph edges nVertices = .error .valueError) := by
  have hbad : ∀ n, (edges.any fun e => decide (n ≤ e.1 ∨ n ≤ e.2)) = true ↔ ∃ e ∈ edges, n ≤ e.1 ∨ n ≤ e.2 := by
    intro n
    simp only [List.any_eq_true, decide_eq_true_eq]
  have hcount : ∀ i j, (edges.map fun e => if e.1 = i ∧ e.2 = j then (1 : ℚ) else 0).sum = edges.count (i, j) := by
    intro i j
    clear hbad
    induction edges with
    | nil => simp
    | cons e rest ih =>
      rw [List.map_cons, List.sum_cons, ih, List.count_cons]
      by_cases h : e.1 = i ∧ e.2 = j
      · have : e = (i, j) := Prod.ext h.1 h.2
        rw [if_pos h, if_pos (by simpa using this)]
        push_cast
        ring
      · have : e ≠ (i, j) := by
          rintro rfl
          exact h ⟨rfl, rfl⟩
        rw [if_neg h, if_neg (by simpa using this)]
        simp
  have hcoo : ∀ n g, coo n edges = .ok g → (∀ i j, g.get i j = edges.count (i, j)) ∧ g.cols = g.rows ∧
      (∀ e ∈ edges, e.1 < g.rows ∧ e.2 < g.rows) ∧ g.rows = n := by
    intro n g h
    unfold coo at h
    split_ifs at h with hc
    injection h with h
    subst h
    rw [hbad] at hc
    push Not at hc
    exact ⟨hcount, rfl, hc, rfl⟩
  have hcoo' : ∀ n, coo n edges = .error .valueError ↔ ∃ e ∈ edges, n ≤ e.1 ∨ n ≤ e.2 := by
    intro n
    rw [← hbad]
    unfold coo
    split_ifs with hc
    · exact ⟨fun _ => hc, fun _ => rfl⟩
    · exact ⟨fun h => absurd h (by simp), fun h => absurd h hc⟩
  have hmax : ∀ (l : List ℕ) (a : ℕ), (∀ b ∈ l, b ≤ l.foldl max a) ∧ a ≤ l.foldl max a ∧
      (l.foldl max a = a ∨ l.foldl max a ∈ l) := by
    intro l
    induction l with
    | nil => intro a; simp
    | cons b l ih =>
      intro a
      obtain ⟨h1, h2, h3⟩ := ih (max a b)
      refine ⟨?_, le_trans (le_max_left a b) h2, ?_⟩
      · intro c hc
        rcases List.mem_cons.mp hc with rfl | hc
        · exact le_trans (le_max_right a c) h2
        · exact h1 c hc
      · rcases h3 with h3 | h3
        · rcases max_choice a b with hm | hm
          · exact Or.inl (by rw [List.foldl_cons, h3, hm])
          · exact Or.inr (by rw [List.foldl_cons, h3, hm]; simp)
        · exact Or.inr (List.mem_cons_of_mem _ h3)
  cases nVertices with
  | some n =>
    simp only [edgesToGraph]
    refine ⟨fun g hg => ?_, ?_, ?_⟩
    · obtain ⟨h1, h2, h3, h4⟩ := hcoo n g hg
      exact ⟨h1, h2, h3, fun m hm => by rw [h4]; simpa using hm, fun h => by cases h⟩
    · rw [hcoo']
      simp
    · unfold coo
      split_ifs
      · exact Or.inr rfl
      · exact Or.inl ⟨_, rfl⟩
  | none =>
    simp only [edgesToGraph, countVertices]
    by_cases he : edges = []
    · subst he
      simp
    · rw [if_neg he]
      simp only
      set m := (edges.map fun e => max e.1 e.2).foldl max 0 with hm
      obtain ⟨h1, -, h3⟩ := hmax (edges.map fun e => max e.1 e.2) 0
      rw [← hm] at h1 h3
      have hle : ∀ e ∈ edges, e.1 ≤ m ∧ e.2 ≤ m := by
        intro e hee
        have := h1 _ (List.mem_map.mpr ⟨e, hee, rfl⟩)
        exact ⟨le_trans (le_max_left _ _) this, le_trans (le_max_right _ _) this⟩
      have hno : ¬ ∃ e ∈ edges, m + 1 ≤ e.1 ∨ m + 1 ≤ e.2 := by
        rintro ⟨e, hee, h⟩
        have := hle e hee
        omega
      refine ⟨fun g hg => ?_, ?_, ?_⟩
      · obtain ⟨g1, g2, g3, g4⟩ := hcoo _ g hg
        refine ⟨g1, g2, g3, fun n h => absurd h (by simp), fun _ => ?_⟩
        rw [g4]
        rcases h3 with h3 | h3
        · obtain ⟨e, rest, hcons⟩ := List.exists_cons_of_ne_nil he
          have hee : e ∈ edges := by rw [hcons]; simp
          have := hle e hee
          exact ⟨e, hee, Or.inl (by omega)⟩
        · obtain ⟨e, hee, hmx⟩ := List.mem_map.mp h3
          refine ⟨e, hee, ?_⟩
          rcases max_choice e.1 e.2 with h | h
          · exact Or.inl (by rw [← hmx, h])
          · exact Or.inr (by rw [← hmx, h])
      · rw [hcoo']
        simp only [reduceCtorEq, false_and, exists_false, he, and_false, or_self, false_iff]
        exact hno
      · unfold coo
        split_ifs
        · exact Or.inr rfl
        · exact Or.inl ⟨_, rfl⟩

example : ∃ g, edgesToGraph [(0, 1), (1, 2), (0, 1)] none = .ok g ∧ g.rows = 3 := ⟨_, rfl, rfl⟩

/-! ### plot_grid -/

/-- **C154** (`plot_grid`): lines are drawn exactly in the middle between neighbouring columns and between
neighbouring rows. (`matshow` draws the entry in row `r` and column `c` centred at `(c, r)`.) -/
theorem C154_lines (x : Mat) :
    (∀ t, t ∈ (gridLines x).1 ↔ ∃ c, c + 1 < x.cols ∧ t = ((c : ℚ) + ((c + 1 : ℕ) : ℚ)) / 2) ∧
    (∀ t, t ∈ (gridLines x).2 ↔ ∃ r, r + 1 < x.rows ∧ t = ((r : ℚ) + ((r + 1 : ℕ) : ℚ)) / 2) := by
  have key : ∀ n t, t ∈ ticks n ↔ ∃ c, c + 1 < n ∧ t = ((c : ℚ) + ((c + 1 : ℕ) : ℚ)) / 2 := by
    intro n t
    simp only [ticks, List.mem_map, List.mem_range]
    constructor
    · rintro ⟨k, hk, rfl⟩
      exact ⟨k, by omega, by push_cast; ring⟩
    · rintro ⟨k, hk, rfl⟩
      exact ⟨k, by omega, by push_cast; ring⟩
  exact ⟨key _, key _⟩

end Verif.Props
