import Verif.Lemmas.LatentDecode
import Verif.Spec.LatentImages
import Verif.Props.C115

/-!
# Decoding latent states of images
-/

namespace Verif.Props

open Finset Verif.Common Verif.Spec Verif.LatentGraph Verif.LatentGrid Verif.EdgeFeature
open Verif.GraphCRF (Infer)

/-! ### flat arrays and images -/

theorem pixel_lt {h w r c : ℕ} (hr : r < h) (hc : c < w) : r * w + c < h * w := flat_lt hr hc

theorem pixel_of {h w i : ℕ} (hi : i < h * w) : i / w < h ∧ i % w < w ∧ i / w * w + i % w = i := by
  have hw : 0 < w := Nat.pos_of_ne_zero fun h0 => by subst h0; simp at hi
  exact ⟨Nat.div_lt_of_lt_mul (by rw [Nat.mul_comm]; exact hi), Nat.mod_lt _ hw, Nat.div_add_mod' _ _⟩

theorem flat_get {a : Grid.NMat} {w r c : ℕ} (hw : a.cols = w) (hc : c < w) : (flat a).get (r * w + c) = a.get r c := by
  change a.get ((r * w + c) / a.cols) ((r * w + c) % a.cols) = _
  rw [hw, flat_div hc, flat_mod hc]

theorem toImage_ok {h w : ℕ} {v : Labels} (hs : v.size = h * w) : toImage h w v = .ok ⟨h, w, fun r c => v.get (r * w + c)⟩ := by
  unfold toImage
  rw [if_neg (not_not.mpr hs)]

theorem reshapeY_ok {S h w : ℕ} {v : Labels} (hs : v.size = h * w) :
    reshapeY S h w (.discrete v) = .ok (.discrete ⟨h, w, fun r c => v.get (r * w + c)⟩) := by
  unfold reshapeY
  simp only
  rw [toImage_ok hs]

theorem wrongPixels_eq {m : LatentGraph.Model} {h w : ℕ} {a b : ℕ → ℕ → ℕ} (ha : ValidImage h w m.nStates a)
    (hb : ValidImage h w m.nStates b) {u v : ℕ → ℕ} (hu : ∀ r < h, ∀ c < w, u (r * w + c) = a r c)
    (hv : ∀ r < h, ∀ c < w, v (r * w + c) = b r c) :
    (∑ i ∈ range (h * w), if labelOf m (u i) = labelOf m (v i) then (0 : ℚ) else 1) = wrongPixels m.nStatesPerLabel h w a b := by
  rw [sum_pixels]
  unfold wrongPixels
  refine sum_congr rfl fun r hr => sum_congr rfl fun c hc => ?_
  have hr := mem_range.mp hr
  have hc := mem_range.mp hc
  rw [hu r hr c hc, hv r hr c hc]
  obtain ⟨a1, a2⟩ := labelOf_spec (ha r hr c hc)
  obtain ⟨-, b2⟩ := labelOf_spec (hb r hr c hc)
  by_cases heq : labelOf m (a r c) = labelOf m (b r c)
  · rw [if_pos heq, if_pos ⟨_, a1, a2, heq ▸ b2⟩]
  · rw [if_neg heq, if_neg]
    rintro ⟨l, hl, h1, h2⟩
    exact heq ((labelOf_owns hl h1).1.trans (labelOf_owns hl h2).1.symm)

/-- A completion of the flat label array is a completion of the image. -/
theorem completes_image {sizes : List ℕ} {h w : ℕ} {y : Grid.NMat} (hw : y.cols = w) {v : Labels}
    (hc : Completes sizes (h * w) (flat y) (.discrete v)) : CompletesImage sizes h w y.get fun r c => v.get (r * w + c) := by
  obtain ⟨v', e, -, h2⟩ := hc
  cases e
  intro r hr c hcc
  have := h2 _ (pixel_lt hr hcc)
  rw [flat_get hw hcc] at this
  exact this

theorem image_completes {sizes : List ℕ} {h w : ℕ} {y : Grid.NMat} (hw : y.cols = w) {z : ℕ → ℕ → ℕ}
    (hc : CompletesImage sizes h w y.get z) : Completes sizes (h * w) (flat y) (.discrete ⟨h * w, fun i => z (i / w) (i % w)⟩) := by
  refine ⟨_, rfl, rfl, fun i hi => ?_⟩
  obtain ⟨h1, h2, h3⟩ := pixel_of hi
  change y.get (i / y.cols) (i % y.cols) < _ ∧ OwnsState _ (y.get (i / y.cols) (i % y.cols)) _
  rw [hw]
  exact hc _ h1 _ h2

/-! ### degrees -/

theorem degree_countP (edges : Edges) (i : ℕ) : degree edges i = edges.countP fun q => q.1 = i ∨ q.2 = i := by
  unfold degree
  induction edges using List.reverseRecOn with
  | nil => simp
  | append_singleton l q ih =>
    rw [List.countP_append, List.length_append, List.length_singleton, range_add_one, filter_insert]
    have h1 : (range l.length).filter (fun e => ((l ++ [q]).getD e (0, 0)).1 = i ∨ ((l ++ [q]).getD e (0, 0)).2 = i) =
        (range l.length).filter fun e => (l.getD e (0, 0)).1 = i ∨ (l.getD e (0, 0)).2 = i := by
      refine filter_congr fun e he => ?_
      rw [List.getD_append _ _ _ _ (mem_range.mp he)]
    rw [h1]
    have h2 : (l ++ [q]).getD l.length (0, 0) = q := by
      rw [List.getD_append_right _ _ _ _ le_rfl]
      simp
    rw [h2]
    by_cases hq : q.1 = i ∨ q.2 = i
    · rw [if_pos hq, card_insert_of_notMem (by simp), ih]
      simp [hq]
    · rw [if_neg hq, ih]
      simp [hq]

theorem countP_le_one {α : Type} {p : α → Bool} {l : List α} (hn : l.Nodup) (h : ∀ a ∈ l, ∀ b ∈ l, p a → p b → a = b) :
    l.countP p ≤ 1 := by
  rw [List.countP_eq_length_filter]
  have hn' := hn.filter p
  have h' : ∀ a ∈ l.filter p, ∀ b ∈ l.filter p, a = b := fun a ha b hb =>
    h a (List.mem_filter.mp ha).1 b (List.mem_filter.mp hb).1 (List.mem_filter.mp ha).2 (List.mem_filter.mp hb).2
  generalize l.filter p = k at hn' h'
  match k, hn', h' with
  | [], _, _ => simp
  | [a], _, _ => simp
  | a :: b :: k, hn', h' =>
    have := h' a (by simp) b (by simp)
    subst this
    simp at hn'

theorem countP_or_le (l : Edges) (i : ℕ) :
    (l.countP fun q => q.1 = i ∨ q.2 = i) ≤ (l.countP fun q => q.1 = i) + l.countP fun q => q.2 = i := by
  induction l with
  | nil => simp
  | cons q l ih =>
    simp only [List.countP_cons]
    by_cases h1 : q.1 = i <;> by_cases h2 : q.2 = i <;> simp [h1, h2] <;> simp at ih <;> omega

/-- lists of edges in one direction have every pixel at most once as first and once as second end. -/
theorem direction_degree {l : Edges} (hn : l.Nodup) (h1 : ∀ u v v', (u, v) ∈ l → (u, v') ∈ l → v = v')
    (h2 : ∀ u u' v, (u, v) ∈ l → (u', v) ∈ l → u = u') (i : ℕ) : (l.countP fun q => q.1 = i ∨ q.2 = i) ≤ 2 := by
  have c1 : (l.countP fun q => q.1 = i) ≤ 1 := countP_le_one hn (by
    rintro ⟨a, b⟩ ha ⟨a', b'⟩ hb ea eb
    simp only [decide_eq_true_eq] at ea eb
    subst ea
    subst eb
    rw [h1 _ _ _ ha hb])
  have c2 : (l.countP fun q => q.2 = i) ≤ 1 := countP_le_one hn (by
    rintro ⟨a, b⟩ ha ⟨a', b'⟩ hb ea eb
    simp only [decide_eq_true_eq] at ea eb
    subst ea
    subst eb
    rw [h2 _ _ _ ha hb])
  have := countP_or_le l i
  omega

theorem right_degree (h w i : ℕ) : ((Grid.right h w).countP fun q => q.1 = i ∨ q.2 = i) ≤ 2 := by
  refine direction_degree (nodup_right h w) ?_ ?_ i
  · intro u v v' a b
    obtain ⟨r, c, h1, h2, rfl, rfl⟩ := (mem_right ..).mp a
    obtain ⟨r', c', h1', h2', e, rfl⟩ := (mem_right ..).mp b
    obtain ⟨rfl, rfl⟩ := cell_inj (by omega) (by omega) e
    rfl
  · intro u u' v a b
    obtain ⟨r, c, h1, h2, rfl, rfl⟩ := (mem_right ..).mp a
    obtain ⟨r', c', h1', h2', rfl, e⟩ := (mem_right ..).mp b
    obtain ⟨rfl, e2⟩ := cell_inj (by omega) (by omega) e
    rw [show c = c' by omega]

theorem down_degree (h w i : ℕ) : ((Grid.down h w).countP fun q => q.1 = i ∨ q.2 = i) ≤ 2 := by
  refine direction_degree (nodup_down h w) ?_ ?_ i
  · intro u v v' a b
    obtain ⟨r, c, h1, h2, rfl, rfl⟩ := (mem_down ..).mp a
    obtain ⟨r', c', h1', h2', e, rfl⟩ := (mem_down ..).mp b
    obtain ⟨rfl, rfl⟩ := cell_inj (by omega) (by omega) e
    rfl
  · intro u u' v a b
    obtain ⟨r, c, h1, h2, rfl, rfl⟩ := (mem_down ..).mp a
    obtain ⟨r', c', h1', h2', rfl, e⟩ := (mem_down ..).mp b
    obtain ⟨e2, rfl⟩ := cell_inj (by omega) (by omega) e
    rw [show r = r' by omega]

theorem upright_degree (h w i : ℕ) : ((Grid.upright h w).countP fun q => q.1 = i ∨ q.2 = i) ≤ 2 := by
  refine direction_degree (nodup_upright h w) ?_ ?_ i
  · intro u v v' a b
    obtain ⟨r, c, h1, h2, rfl, rfl⟩ := (mem_upright ..).mp a
    obtain ⟨r', c', h1', h2', e, rfl⟩ := (mem_upright ..).mp b
    obtain ⟨e1, rfl⟩ := cell_inj (by omega) (by omega) e
    rw [show r = r' by omega]
  · intro u u' v a b
    obtain ⟨r, c, h1, h2, rfl, rfl⟩ := (mem_upright ..).mp a
    obtain ⟨r', c', h1', h2', rfl, e⟩ := (mem_upright ..).mp b
    obtain ⟨rfl, e2⟩ := cell_inj (by omega) (by omega) e
    rw [show c = c' by omega]

theorem downright_degree (h w i : ℕ) : ((Grid.downright h w).countP fun q => q.1 = i ∨ q.2 = i) ≤ 2 := by
  refine direction_degree (nodup_downright h w) ?_ ?_ i
  · intro u v v' a b
    obtain ⟨r, c, h1, h2, rfl, rfl⟩ := (mem_downright ..).mp a
    obtain ⟨r', c', h1', h2', e, rfl⟩ := (mem_downright ..).mp b
    obtain ⟨rfl, rfl⟩ := cell_inj (by omega) (by omega) e
    rfl
  · intro u u' v a b
    obtain ⟨r, c, h1, h2, rfl, rfl⟩ := (mem_downright ..).mp a
    obtain ⟨r', c', h1', h2', rfl, e⟩ := (mem_downright ..).mp b
    obtain ⟨e1, e2⟩ := cell_inj (by omega) (by omega) e
    rw [show r = r' by omega, show c = c' by omega]

/-- A pixel has at most 4 or 8 neighbours. -/
theorem grid_degree {nb h w : ℕ} {E : Edges} (hE : Grid.gridEdges h w nb = .ok E) (i : ℕ) : degree E i ≤ nb := by
  rw [degree_countP]
  have h1 := right_degree h w i
  have h2 := down_degree h w i
  have h3 := upright_degree h w i
  have h4 := downright_degree h w i
  by_cases h8 : nb = 8
  · subst h8
    simp only [Grid.gridEdges, Grid.gridEdgeLists] at hE
    simp at hE
    subst hE
    simp only [List.countP_append]
    omega
  · by_cases h4 : nb = 4
    · subst h4
      rw [gridEdges_four] at hE
      injection hE with hE
      subst hE
      rw [List.countP_append]
      omega
    · rw [C31_bad_neighborhood _ _ _ h4 h8] at hE
      cases hE

/-! ### scores -/

theorem horizontal_congr {h w : ℕ} (P : ℕ → ℕ → ℚ) {a b : ℕ → ℕ → ℕ} (hab : ∀ r < h, ∀ c < w, a r c = b r c) :
    horizontal h w P a = horizontal h w P b := by
  unfold horizontal
  refine sum_congr rfl fun r hr => sum_congr rfl fun c hc => ?_
  have hr := mem_range.mp hr
  have hc := mem_range.mp hc
  rw [hab r hr c (by omega), hab r hr (c + 1) (by omega)]

theorem vertical_congr {h w : ℕ} (P : ℕ → ℕ → ℚ) {a b : ℕ → ℕ → ℕ} (hab : ∀ r < h, ∀ c < w, a r c = b r c) :
    vertical h w P a = vertical h w P b := by
  unfold vertical
  refine sum_congr rfl fun r hr => sum_congr rfl fun c hc => ?_
  have hr := mem_range.mp hr
  have hc := mem_range.mp hc
  rw [hab r (by omega) c hc, hab (r + 1) (by omega) c hc]

theorem diagonal_congr {h w : ℕ} (P : ℕ → ℕ → ℚ) {a b : ℕ → ℕ → ℕ} (hab : ∀ r < h, ∀ c < w, a r c = b r c) :
    diagonal h w P a = diagonal h w P b := by
  unfold diagonal
  refine sum_congr rfl fun r hr => sum_congr rfl fun c hc => ?_
  have hr := mem_range.mp hr
  have hc := mem_range.mp hc
  rw [hab r (by omega) c (by omega), hab (r + 1) (by omega) c (by omega), hab r (by omega) (c + 1) (by omega),
    hab (r + 1) (by omega) (c + 1) (by omega)]

theorem pixelScore_congr {h w F : ℕ} (x : ℕ → ℕ → ℕ → ℚ) (W : ℕ → ℚ) {a b : ℕ → ℕ → ℕ}
    (hab : ∀ r < h, ∀ c < w, a r c = b r c) : pixelScore h w F x W a = pixelScore h w F x W b := by
  unfold pixelScore
  exact sum_congr rfl fun r hr => sum_congr rfl fun c hc => by rw [hab r (mem_range.mp hr) c (mem_range.mp hc)]

theorem gridScore_congr {nb : ℕ} {m : GraphCRF.Model} {t : Ten} {w : ℕ → ℚ} {a b : ℕ → ℕ → ℕ}
    (hab : ∀ r < t.d0, ∀ c < t.d1, a r c = b r c) : gridScore nb m t w a = gridScore nb m t w b := by
  unfold gridScore
  simp only
  rw [pixelScore_congr _ _ hab, horizontal_congr _ hab, vertical_congr _ hab, diagonal_congr _ hab]

theorem directionalScore_congr {S F : ℕ} {t : Ten} {w : ℕ → ℚ} {a b : ℕ → ℕ → ℕ}
    (hab : ∀ r < t.d0, ∀ c < t.d1, a r c = b r c) : directionalScore S F t w a = directionalScore S F t w b := by
  unfold directionalScore
  rw [pixelScore_congr _ _ hab, horizontal_congr _ hab, vertical_congr _ hab]

/-! ### decoding -/

/-- the score of flat arrays is a score of images. -/
def ImageScore (h w : ℕ) (edges : Edges) (U : ℕ → ℕ → ℚ) (P : ℕ → ℕ → ℕ → ℚ) (sc : (ℕ → ℕ → ℕ) → ℚ) : Prop :=
  (∀ v : Labels, Spec.score (h * w) edges U P v.get = sc fun r c => v.get (r * w + c)) ∧
    ∀ a b : ℕ → ℕ → ℕ, (∀ r < h, ∀ c < w, a r c = b r c) → sc a = sc b

theorem ImageScore.flat {h w : ℕ} {edges : Edges} {U : ℕ → ℕ → ℚ} {P : ℕ → ℕ → ℕ → ℚ} {sc : (ℕ → ℕ → ℕ) → ℚ}
    (hs : ImageScore h w edges U P sc) (z : ℕ → ℕ → ℕ) :
    Spec.score (h * w) edges U P (fun i => z (i / w) (i % w)) = sc z := by
  rw [hs.1 ⟨h * w, fun i => z (i / w) (i % w)⟩]
  refine hs.2 _ _ fun r _ c hc => ?_
  change z ((r * w + c) / w) ((r * w + c) % w) = _
  rw [flat_div hc, flat_mod hc]

theorem image_latent_best {inf : Infer} {m : LatentGraph.Model} (hpos : ∀ l < m.nLabels, 0 < m.nStatesPerLabel.getD l 0) {h w : ℕ}
    (hh : 1 ≤ h) (hw1 : 1 ≤ w) {edges : Edges} (hE : EdgesIn (h * w) edges) {Pw : Pairwise} {P : ℕ → ℕ → ℕ → ℚ}
    (hinf : FindsBest inf (h * w) m.nStates edges Pw P) {y : Grid.NMat} (hr : y.rows = h) (hw : y.cols = w)
    (hyl : ValidImage h w m.nLabels y.get) {U : ℕ → ℕ → ℚ} {B : ℕ → ℚ} (hU : ∀ i < h * w, ∀ s < m.nStates, -B i ≤ U i s) {ρ : ℚ}
    (hP : ∀ e < edges.length, ∀ a < m.nStates, ∀ b < m.nStates, |P e a b| ≤ ρ)
    (hsmall : ∀ i < h * w, B i + 2 * ρ * degree edges i < 100) {sc : (ℕ → ℕ → ℕ) → ℚ} (hsc : ImageScore h w edges U P sc) :
    ∃ z : Grid.NMat, (do
        let v ← maskedCall inf m ⟨h * w, m.nStates, U⟩ Pw edges (flat y)
        toImage y.rows y.cols v) = .ok z ∧ z.rows = h ∧ z.cols = w ∧ CompletesImage m.nStatesPerLabel h w y.get z.get ∧
      ∀ z', CompletesImage m.nStatesPerLabel h w y.get z' → sc z' ≤ sc z.get := by
  obtain ⟨v, h1, h2, h3⟩ := maskedCall_best hpos (Nat.mul_pos hh hw1) hE hinf (y := flat y) (by simp [flat, hr, hw])
    (fun i hi => by
      obtain ⟨a, b, -⟩ := pixel_of hi
      change y.get (i / y.cols) (i % y.cols) < _
      rw [hw]
      exact hyl _ a _ b) hU hP hsmall
  have hs := (completes_labels h2).1
  refine ⟨⟨h, w, fun r c => v.get (r * w + c)⟩, ?_, rfl, rfl, completes_image hw h2, fun z' hz => ?_⟩
  · rw [h1]
    change toImage y.rows y.cols v = _
    rw [hr, hw, toImage_ok hs]
  · have := h3 _ (image_completes hw hz)
    rw [hsc.1 v] at this
    rw [← hsc.flat z']
    exact this

theorem image_latent_completes {inf : Infer} {m : LatentGraph.Model} (hpos : ∀ l < m.nLabels, 0 < m.nStatesPerLabel.getD l 0) {h w : ℕ}
    (hh : 1 ≤ h) (hw1 : 1 ≤ w) {edges : Edges} {Pw : Pairwise}
    (hinf : ∀ U : ℕ → ℕ → ℚ, ∃ v : Labels, inf ⟨h * w, m.nStates, U⟩ Pw edges = .ok (.discrete v) ∧ v.size = h * w ∧
      Valid (h * w) m.nStates v.get) {y : Grid.NMat} (hr : y.rows = h) (hw : y.cols = w)
    (hyl : ValidImage h w m.nLabels y.get) (U : ℕ → ℕ → ℚ) :
    ∃ z : Grid.NMat, (do
        let v ← maskedCall inf m ⟨h * w, m.nStates, U⟩ Pw edges (flat y)
        toImage y.rows y.cols v) = .ok z ∧ z.rows = h ∧ z.cols = w ∧ CompletesImage m.nStatesPerLabel h w y.get z.get := by
  obtain ⟨v, h1, h2⟩ := maskedCall_completes hpos (Nat.mul_pos hh hw1) hinf (y := flat y) (by simp [flat, hr, hw])
    (fun i hi => by
      obtain ⟨a, b, -⟩ := pixel_of hi
      change y.get (i / y.cols) (i % y.cols) < _
      rw [hw]
      exact hyl _ a _ b) U
  have hs := (completes_labels h2).1
  refine ⟨⟨h, w, fun r c => v.get (r * w + c)⟩, ?_, rfl, rfl, completes_image hw h2⟩
  rw [h1]
  change toImage y.rows y.cols v = _
  rw [hr, hw, toImage_ok hs]

theorem image_lossAug_best {inf : Infer} {m : LatentGraph.Model} {h w : ℕ} {edges : Edges} {Pw : Pairwise} {P : ℕ → ℕ → ℕ → ℚ}
    (hinf : FindsBest inf (h * w) m.nStates edges Pw P) {a : Grid.NMat} (hr : a.rows = h) (hw : a.cols = w)
    (ha : ValidImage h w m.nStates a.get) {U : ℕ → ℕ → ℚ} {sc : (ℕ → ℕ → ℕ) → ℚ} (hsc : ImageScore h w edges U P sc) :
    ∃ z : Grid.NMat, (do
        let v ← augmentedCall inf m ⟨h * w, m.nStates, U⟩ Pw edges (flat a)
        reshapeY m.nStates h w v) = .ok (.discrete z) ∧ z.rows = h ∧ z.cols = w ∧ ValidImage h w m.nStates z.get ∧
      ∀ z', ValidImage h w m.nStates z' → sc z' + wrongPixels m.nStatesPerLabel h w a.get z' ≤
        sc z.get + wrongPixels m.nStatesPerLabel h w a.get z.get := by
  obtain ⟨v, h1, h2, h3, h4⟩ := augmentedCall_best hinf (t := flat a) (by simp [flat, hr, hw]) (fun i hi => by
      obtain ⟨p, q, -⟩ := pixel_of hi
      change a.get (i / a.cols) (i % a.cols) < _
      rw [hw]
      exact ha _ p _ q) U
  have hv : ValidImage h w m.nStates fun r c => v.get (r * w + c) := fun r hr c hc => h3 _ (pixel_lt hr hc)
  refine ⟨⟨h, w, fun r c => v.get (r * w + c)⟩, ?_, rfl, rfl, hv, fun z' hz => ?_⟩
  · rw [h1]
    exact reshapeY_ok (S := m.nStates) h2
  · have := h4 (fun i => z' (i / w) (i % w)) (fun i hi => by
      obtain ⟨p, q, -⟩ := pixel_of hi
      exact hz _ p _ q)
    rw [hsc.flat z', hsc.1 v, wrongPixels_eq ha hz (fun r _ c hc => flat_get hw hc)
      (fun r _ c hc => by simp only [flat_div hc, flat_mod hc]), wrongPixels_eq ha hv (fun r _ c hc => flat_get hw hc)
      (fun r _ c _ => rfl)] at this
    exact this

end Verif.Props
