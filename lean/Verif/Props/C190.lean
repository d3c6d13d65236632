import Verif.Props.C115
import Verif.Props.C189

/-!
# C190: mirrored and turned images
-/

namespace Verif.Props

open Finset Verif.Common Verif.GraphCRF Verif.EdgeFeature Verif.Spec Verif.Learner Verif.Dispatch Verif.Lemmas

/-- Exchange left and right, or rows and columns. Turning by 90 degrees and exchanging top and bottom are sequences of these. -/
inductive Move
  | mirror
  | transpose

/-- An image after a move. -/
def Move.image : Move → Ten → Ten
  | .mirror, t => ⟨t.d0, t.d1, t.d2, fun r c f => t.get r (t.d1 - 1 - c) f⟩
  | .transpose, t => ⟨t.d1, t.d0, t.d2, fun r c f => t.get c r f⟩

/-- Where the pixel in row `r` and column `c` of an image of `h` rows and `w` columns is in the flat array after a move. -/
def Move.place : Move → ℕ → ℕ → ℕ → ℕ → ℕ
  | .mirror, _, w, r, c => r * w + (w - 1 - c)
  | .transpose, h, _, r, c => c * h + r

/-- The flat labels `y'` are those of `y` after a move. -/
def Move.Follows (v : Move) (h w : ℕ) (y y' : Labels) : Prop :=
  y.size = h * w ∧ y'.size = h * w ∧ ∀ r < h, ∀ c < w, y'.get (v.place h w r c) = y.get (r * w + c)

/-- One labelled image is the other one after a move. -/
def TurnedOnce (d d' : Ten × Labels) : Prop := ∃ v : Move, d'.1 = v.image d.1 ∧ v.Follows d.1.d0 d.1.d1 d.2 d'.2

/-- One labelled image is the other one after any number of moves. -/
inductive Turned : Ten × Labels → Ten × Labels → Prop
  | refl (d : Ten × Labels) : Turned d d
  | step {d d' d'' : Ten × Labels} (h : Turned d d') (h' : TurnedOnce d' d'') : Turned d d''

theorem Move.Follows.unflat_mirror {t : Ten} {y y' : Labels} (h : Move.mirror.Follows t.d0 t.d1 y y') {r c : ℕ} (hr : r < t.d0)
    (hc : c < t.d1) : unflat (Move.mirror.image t) y' r c = unflat t y r (t.d1 - 1 - c) := by
  have := h.2.2 r hr (t.d1 - 1 - c) (by omega)
  change y'.get (r * t.d1 + (t.d1 - 1 - (t.d1 - 1 - c))) = _ at this
  rw [show t.d1 - 1 - (t.d1 - 1 - c) = c by omega] at this
  exact this

theorem Move.Follows.unflat_transpose {t : Ten} {y y' : Labels} (h : Move.transpose.Follows t.d0 t.d1 y y') {r c : ℕ} (hr : r < t.d1)
    (hc : c < t.d0) : unflat (Move.transpose.image t) y' r c = unflat t y c r := h.2.2 c hc r hr

theorem pairWeight_comm {S F : ℕ} (w : ℕ → ℚ) (a b : ℕ) : pairWeight S F false w a b = pairWeight S F false w b a := by
  unfold pairWeight
  rw [max_comm, min_comm]
  rfl

/-- the score of an image does not change. -/
theorem gridScore_move {nb : ℕ} {m : GraphCRF.Model} (hd : m.directed = false) (v : Move) (t : Ten) (y y' : Labels)
    (h : v.Follows t.d0 t.d1 y y') (w : ℕ → ℚ) : gridScore nb m (v.image t) w (unflat (v.image t) y') = gridScore nb m t w (unflat t y) := by
  unfold gridScore
  rw [hd]
  generalize hP : pairWeight m.nStates m.nFeatures false w = P
  have hs : ∀ a b, P a b = P b a := fun a b => by rw [← hP]; exact pairWeight_comm w a b
  cases v with
  | mirror =>
    have e := fun r hr c hc => h.unflat_mirror (r := r) (c := c) hr hc
    generalize unflat (Move.mirror.image t) y' = Y' at e
    generalize unflat t y = Y at e
    change pixelScore t.d0 t.d1 _ _ _ _ + (horizontal t.d0 t.d1 P _ + vertical t.d0 t.d1 P _ + if nb = 8 then diagonal t.d0 t.d1 P _ else 0) = _
    have e1 : pixelScore t.d0 t.d1 m.nFeatures (Move.mirror.image t).get w Y' = pixelScore t.d0 t.d1 m.nFeatures t.get w Y := by
      unfold pixelScore
      refine sum_congr rfl fun r hr => ?_
      rw [← sum_range_reflect]
      refine sum_congr rfl fun c hc => ?_
      have hr' := mem_range.mp hr
      have hc' := mem_range.mp hc
      rw [e r hr' _ (by omega), show t.d1 - 1 - (t.d1 - 1 - c) = c by omega]
      refine sum_congr rfl fun f _ => ?_
      change t.get r (t.d1 - 1 - (t.d1 - 1 - c)) f * _ = _
      rw [show t.d1 - 1 - (t.d1 - 1 - c) = c by omega]
    have e2 : horizontal t.d0 t.d1 P Y' = horizontal t.d0 t.d1 P Y := by
      unfold horizontal
      refine sum_congr rfl fun r hr => ?_
      rw [← sum_range_reflect]
      refine sum_congr rfl fun c hc => ?_
      have hr' := mem_range.mp hr
      have hc' := mem_range.mp hc
      rw [e r hr' _ (by omega), e r hr' _ (by omega), hs, show t.d1 - 1 - (t.d1 - 1 - 1 - c) = c + 1 by omega,
        show t.d1 - 1 - (t.d1 - 1 - 1 - c + 1) = c by omega]
    have e3 : vertical t.d0 t.d1 P Y' = vertical t.d0 t.d1 P Y := by
      unfold vertical
      refine sum_congr rfl fun r hr => ?_
      rw [← sum_range_reflect]
      refine sum_congr rfl fun c hc => ?_
      have hr' := mem_range.mp hr
      have hc' := mem_range.mp hc
      rw [e r (by omega) _ (by omega), e (r + 1) (by omega) _ (by omega), show t.d1 - 1 - (t.d1 - 1 - c) = c by omega]
    have e4 : diagonal t.d0 t.d1 P Y' = diagonal t.d0 t.d1 P Y := by
      unfold diagonal
      refine sum_congr rfl fun r hr => ?_
      rw [← sum_range_reflect]
      refine sum_congr rfl fun c hc => ?_
      have hr' := mem_range.mp hr
      have hc' := mem_range.mp hc
      rw [e r (by omega) _ (by omega), e (r + 1) (by omega) _ (by omega), e r (by omega) _ (by omega), e (r + 1) (by omega) _ (by omega),
        show t.d1 - 1 - (t.d1 - 1 - 1 - c) = c + 1 by omega, show t.d1 - 1 - (t.d1 - 1 - 1 - c + 1) = c by omega,
        hs (Y (r + 1) (c + 1)), hs (Y r (c + 1)), add_comm]
    rw [e1, e2, e3, e4]
  | transpose =>
    have e := fun r hr c hc => h.unflat_transpose (r := r) (c := c) hr hc
    generalize unflat (Move.transpose.image t) y' = Y' at e
    generalize unflat t y = Y at e
    change pixelScore t.d1 t.d0 _ _ _ _ + (horizontal t.d1 t.d0 P _ + vertical t.d1 t.d0 P _ + if nb = 8 then diagonal t.d1 t.d0 P _ else 0) = _
    have e1 : pixelScore t.d1 t.d0 m.nFeatures (Move.transpose.image t).get w Y' = pixelScore t.d0 t.d1 m.nFeatures t.get w Y := by
      unfold pixelScore
      rw [sum_comm]
      refine sum_congr rfl fun r hr => sum_congr rfl fun c hc => ?_
      rw [e c (mem_range.mp hc) r (mem_range.mp hr)]
      rfl
    have e2 : horizontal t.d1 t.d0 P Y' = vertical t.d0 t.d1 P Y := by
      unfold horizontal vertical
      rw [sum_comm]
      refine sum_congr rfl fun r hr => sum_congr rfl fun c hc => ?_
      have hr' := mem_range.mp hr
      rw [e c (mem_range.mp hc) r (by omega), e c (mem_range.mp hc) (r + 1) (by omega)]
    have e3 : vertical t.d1 t.d0 P Y' = horizontal t.d0 t.d1 P Y := by
      unfold horizontal vertical
      rw [sum_comm]
      refine sum_congr rfl fun r hr => sum_congr rfl fun c hc => ?_
      have hc' := mem_range.mp hc
      rw [e c (by omega) r (mem_range.mp hr), e (c + 1) (by omega) r (mem_range.mp hr)]
    have e4 : diagonal t.d1 t.d0 P Y' = diagonal t.d0 t.d1 P Y := by
      unfold diagonal
      rw [sum_comm]
      refine sum_congr rfl fun r hr => sum_congr rfl fun c hc => ?_
      have hr' := mem_range.mp hr
      have hc' := mem_range.mp hc
      rw [e c (by omega) r (by omega), e c (by omega) (r + 1) (by omega), e (c + 1) (by omega) r (by omega),
        e (c + 1) (by omega) (r + 1) (by omega), hs (Y r (c + 1))]
    rw [e1, e2, e3, e4, add_comm (vertical _ _ _ _)]

theorem Move.size (v : Move) (t : Ten) : (v.image t).d0 * (v.image t).d1 = t.d0 * t.d1 := by
  cases v
  · rfl
  · exact Nat.mul_comm _ _

theorem Move.fits (v : Move) {F : ℕ} {t : Ten} (h : GridFits F t) : GridFits F (v.image t) := by
  cases v
  · exact h
  · exact ⟨h.2.1, h.1, h.2.2⟩

/-- every place is the place of one pixel. -/
theorem Move.places (v : Move) {h w i : ℕ} (hi : i < h * w) : ∃ r < h, ∃ c < w, i = v.place h w r c := by
  cases v with
  | mirror =>
    have hw : 0 < w := Nat.pos_of_ne_zero fun e => by rw [e] at hi; simp at hi
    refine ⟨i / w, (Nat.div_lt_iff_lt_mul hw).mpr hi, w - 1 - i % w, by omega, ?_⟩
    have h1 := Nat.mod_lt i hw
    change i = i / w * w + (w - 1 - (w - 1 - i % w))
    rw [show w - 1 - (w - 1 - i % w) = i % w by omega, Nat.mul_comm, Nat.div_add_mod]
  | transpose =>
    have hh : 0 < h := Nat.pos_of_ne_zero fun e => by rw [e] at hi; simp at hi
    refine ⟨i % h, Nat.mod_lt _ hh, i / h, (Nat.div_lt_iff_lt_mul hh).mpr (by rw [Nat.mul_comm]; exact hi), ?_⟩
    change i = i / h * h + i % h
    rw [Nat.mul_comm, Nat.div_add_mod]

theorem Move.Follows.valid {v : Move} {h w S : ℕ} {y y' : Labels} (hf : v.Follows h w y y') (hv : Valid (h * w) S y.get) :
    Valid (h * w) S y'.get := by
  intro i hi
  obtain ⟨r, hr, c, hc, rfl⟩ := v.places hi
  rw [hf.2.2 r hr c hc]
  exact hv _ (flat_lt hr hc)

theorem Move.place_lt (v : Move) {h w r c : ℕ} (hr : r < h) (hc : c < w) : v.place h w r c < h * w := by
  cases v with
  | mirror => exact flat_lt hr (by omega)
  | transpose => rw [Nat.mul_comm]; exact flat_lt hc hr

/-- labels can be moved back. -/
theorem Move.back (v : Move) {h w S : ℕ} {y' : Labels} (hs : y'.size = h * w) (hv : Valid (h * w) S y'.get) :
    ∃ y : Labels, v.Follows h w y y' ∧ Valid (h * w) S y.get := by
  refine ⟨⟨h * w, fun i => y'.get (v.place h w (i / w) (i % w))⟩, ⟨rfl, hs, fun r hr c hc => ?_⟩, fun i hi => ?_⟩
  · change _ = y'.get (v.place h w ((r * w + c) / w) ((r * w + c) % w))
    rw [flat_div hc, Nat.mul_comm r w, Nat.mul_add_mod, Nat.mod_eq_of_lt hc]
  · have hw : 0 < w := Nat.pos_of_ne_zero fun e => by rw [e] at hi; simp at hi
    exact hv _ (v.place_lt ((Nat.div_lt_iff_lt_mul hw).mpr hi) (Nat.mod_lt _ hw))

/-- labels can be moved. -/
theorem Move.forth (v : Move) {h w : ℕ} {y : Labels} (hs : y.size = h * w) : ∃ y' : Labels, v.Follows h w y y' := by
  cases v with
  | mirror =>
    refine ⟨⟨h * w, fun i => y.get (i / w * w + (w - 1 - i % w))⟩, hs, rfl, fun r hr c hc => ?_⟩
    change y.get ((r * w + (w - 1 - c)) / w * w + (w - 1 - (r * w + (w - 1 - c)) % w)) = _
    rw [flat_div (by omega), Nat.mul_comm r w, Nat.mul_add_mod, Nat.mod_eq_of_lt (by omega), show w - 1 - (w - 1 - c) = c by omega]
  | transpose =>
    refine ⟨⟨h * w, fun i => y.get (i % h * w + i / h)⟩, hs, rfl, fun r hr c hc => ?_⟩
    change y.get ((c * h + r) % h * w + (c * h + r) / h) = _
    rw [flat_div hr, Nat.mul_comm c h, Nat.mul_add_mod, Nat.mod_eq_of_lt hr]

/-- **C190, scores.** -/
theorem C190_score (backend : Bool → Infer) (cw : Vec) (nb : ℕ) (hnb : nb = 4 ∨ nb = 8) (m : GraphCRF.Model) (hd : m.directed = false)
    (hS : 1 ≤ m.nStates) (v : Move) (t : Ten) (ht : GridFits m.nFeatures t) (y y' : Labels) (h : v.Follows t.d0 t.d1 y y')
    (hv : Valid (t.d0 * t.d1) m.nStates y.get) (w : ℕ → ℚ) :
    ∑ k ∈ range (gridModel backend cw nb m).dim, w k * (gridModel backend cw nb m).jointFeature (v.image t) (.discrete y') k =
      ∑ k ∈ range (gridModel backend cw nb m).dim, w k * (gridModel backend cw nb m).jointFeature t (.discrete y) k := by
  have hz := v.size t
  have hv' := h.valid hv
  rw [← hz] at hv'
  rw [C115_grid_score backend cw nb hnb m hS (v.image t) (v.fits ht) y' (by rw [hz]; exact h.2.1) hv',
    C115_grid_score backend cw nb hnb m hS t ht y h.1 hv, gridScore_move hd v t y y' h]

/-- sums over places. -/
theorem Move.sum (v : Move) (h w : ℕ) (g : ℕ → ℚ) : ∑ i ∈ range (h * w), g i = ∑ r ∈ range h, ∑ c ∈ range w, g (v.place h w r c) := by
  cases v with
  | mirror =>
    rw [sum_pixels]
    refine sum_congr rfl fun r _ => ?_
    rw [← sum_range_reflect]
    rfl
  | transpose =>
    rw [Nat.mul_comm, sum_pixels, sum_comm]
    rfl

/-- the loss of two labellings moved together. -/
theorem C190_loss (cw : Vec) (v : Move) (h w : ℕ) (t t' y y' : Labels) (ht : v.Follows h w t t') (hy : v.Follows h w y y')
    (hc : Valid (h * w) cw.size t.get) : Loss.loss (some cw) t' y' = Loss.loss (some cw) t y := by
  rw [loss_some_ok ht.2.1 hy.2.1 (ht.valid hc), loss_some_ok ht.1 hy.1 hc]
  congr 1
  unfold weightedHamming
  rw [v.sum, sum_pixels]
  refine sum_congr rfl fun r hr => sum_congr rfl fun c hc => ?_
  rw [ht.2.2 r (mem_range.mp hr) c (mem_range.mp hc), hy.2.2 r (mem_range.mp hr) c (mem_range.mp hc)]

theorem image_mem {nb F S : ℕ} (hnb : nb = 4 ∨ nb = 8) {t : Ten} (ht : GridFits F t) {z : YVal} :
    z ∈ imageOutputs nb F (labellings S) t ↔ ∃ y, z = .discrete y ∧ y.size = t.d0 * t.d1 ∧ Valid (t.d0 * t.d1) S y.get := by
  obtain ⟨E, hE, -, -⟩ := gridX_ok hnb ht
  constructor
  · rintro ⟨-, E', -, h⟩
    exact h
  · intro h
    exact ⟨ht, E, hE, h⟩

theorem hinge_move (backend : Bool → Infer) (cw : Vec) (nb : ℕ) (hnb : nb = 4 ∨ nb = 8) (m : GraphCRF.Model) (hd : m.directed = false)
    (hS : 1 ≤ m.nStates) (hc : cw.size = m.nStates) (v : Move) (t : Ten) (ht : GridFits m.nFeatures t) (y y' : Labels)
    (hf : v.Follows t.d0 t.d1 y y') (hv : Valid (t.d0 * t.d1) m.nStates y.get) (w : ℕ → ℚ) (a : ℚ) :
    (problemOf (gridModel backend cw nb m) (imageOutputs nb m.nFeatures (labellings m.nStates))).IsHinge w (v.image t) (.discrete y') a ↔
    (problemOf (gridModel backend cw nb m) (imageOutputs nb m.nFeatures (labellings m.nStates))).IsHinge w t (.discrete y) a := by
  generalize hP : problemOf (gridModel backend cw nb m) (imageOutputs nb m.nFeatures (labellings m.nStates)) = P
  have key : ∀ z z' : Labels, v.Follows t.d0 t.d1 z z' → Valid (t.d0 * t.d1) m.nStates z.get →
      P.violation w (v.image t) (.discrete y') (.discrete z') = P.violation w t (.discrete y) (.discrete z) := by
    intro z z' hz hzv
    have e1 := C190_score backend cw nb hnb m hd hS v t ht z z' hz hzv w
    have e2 := C190_score backend cw nb hnb m hd hS v t ht y y' hf hv w
    have e3 := C190_loss cw v _ _ y y' z z' hf hz (by rw [hc]; exact hv)
    subst hP
    have e4 : (gridModel backend cw nb m).lossOf (.discrete y') (.discrete z') = (gridModel backend cw nb m).lossOf (.discrete y) (.discrete z) :=
      congrArg (okD 0) e3
    exact congrArg₂ (· - ·) (congrArg₂ (· + ·) e4 e1) e2
  have hO : ∀ t, P.outputs t = imageOutputs nb m.nFeatures (labellings m.nStates) t := fun t => by rw [← hP]; rfl
  unfold Problem.IsHinge
  have e : {b | ∃ ŷ ∈ P.outputs (v.image t), b = P.violation w (v.image t) (.discrete y') ŷ} =
      {b | ∃ ŷ ∈ P.outputs t, b = P.violation w t (.discrete y) ŷ} := by
    rw [hO, hO]
    ext b
    constructor
    · rintro ⟨z, hz, rfl⟩
      obtain ⟨z', rfl, h1, h2⟩ := (image_mem hnb (v.fits ht)).mp hz
      rw [v.size t] at h1 h2
      obtain ⟨z, h3, h4⟩ := v.back h1 h2
      exact ⟨.discrete z, (image_mem hnb ht).mpr ⟨z, rfl, h3.1, h4⟩, key z z' h3 h4⟩
    · rintro ⟨z, hz, rfl⟩
      obtain ⟨z, rfl, h1, h2⟩ := (image_mem hnb ht).mp hz
      obtain ⟨z', h3⟩ := v.forth h1
      refine ⟨.discrete z', (image_mem hnb (v.fits ht)).mpr ⟨z', rfl, by rw [v.size t]; exact h3.2.1, by rw [v.size t]; exact h3.valid h2⟩,
        (key z z' h3 h2).symm⟩
  rw [e]

theorem turned_hinge (backend : Bool → Infer) (cw : Vec) (nb : ℕ) (hnb : nb = 4 ∨ nb = 8) (m : GraphCRF.Model) (hd : m.directed = false)
    (hS : 1 ≤ m.nStates) (hc : cw.size = m.nStates) (d d' : Ten × Labels) (h : Turned d d') (ht : GridFits m.nFeatures d.1)
    (hs : d.2.size = d.1.d0 * d.1.d1) (hv : Valid (d.1.d0 * d.1.d1) m.nStates d.2.get) :
    (GridFits m.nFeatures d'.1 ∧ d'.2.size = d'.1.d0 * d'.1.d1 ∧ Valid (d'.1.d0 * d'.1.d1) m.nStates d'.2.get) ∧ ∀ w a,
    ((problemOf (gridModel backend cw nb m) (imageOutputs nb m.nFeatures (labellings m.nStates))).IsHinge w d'.1 (.discrete d'.2) a ↔
    (problemOf (gridModel backend cw nb m) (imageOutputs nb m.nFeatures (labellings m.nStates))).IsHinge w d.1 (.discrete d.2) a) := by
  induction h with
  | refl => exact ⟨⟨ht, hs, hv⟩, fun _ _ => Iff.rfl⟩
  | @step d' d'' _ h' ih =>
    obtain ⟨⟨i1, i2, i3⟩, i4⟩ := ih
    obtain ⟨v, e1, e2⟩ := h'
    rw [e1, v.size]
    exact ⟨⟨v.fits i1, e2.2.1, e2.valid i3⟩, fun w a => (hinge_move backend cw nb hnb m hd hS hc v d'.1 i1 _ _ e2 i3 w a).trans (i4 w a)⟩

/-- **C190, risk.** Mirroring and turning images, every one in its own way, does not change the risk of any weights. -/
theorem C190_risk (backend : Bool → Infer) (cw : Vec) (nb : ℕ) (hnb : nb = 4 ∨ nb = 8) (m : GraphCRF.Model) (hd : m.directed = false)
    (hS : 1 ≤ m.nStates) (hc : cw.size = m.nStates) (C : ℚ) (data data' : List (Ten × Labels)) (hdata : GridData m.nStates m.nFeatures data)
    (h : List.Forall₂ Turned data data') (w : ℕ → ℚ) (a : ℚ) :
    (problemOf (gridModel backend cw nb m) (imageOutputs nb m.nFeatures (labellings m.nStates))).IsObjective C (labelled data') w a ↔
    (problemOf (gridModel backend cw nb m) (imageOutputs nb m.nFeatures (labellings m.nStates))).IsObjective C (labelled data) w a := by
  unfold Problem.IsObjective
  refine exists_congr fun hs => and_congr ?_ Iff.rfl
  unfold labelled
  rw [List.forall₂_map_left_iff, List.forall₂_map_left_iff]
  induction h generalizing hs with
  | nil => exact Iff.rfl
  | @cons d d' l l' h1 _ ih =>
    have ih := fun hs => ih (fun d' hd' => hdata d' (List.mem_cons_of_mem _ hd')) hs
    obtain ⟨g1, g2, g3⟩ := hdata d List.mem_cons_self
    cases hs with
    | nil => simp
    | cons b hs =>
      rw [List.forall₂_cons, List.forall₂_cons, ih]
      exact and_congr ((turned_hinge backend cw nb hnb m hd hS hc d d' h1 g1 g2 g3).2 w b) Iff.rfl

theorem turned_data {m : GraphCRF.Model} (hd : m.directed = false) (hS : 1 ≤ m.nStates) {data data' : List (Ten × Labels)}
    (hdata : GridData m.nStates m.nFeatures data) (h : List.Forall₂ Turned data data') : GridData m.nStates m.nFeatures data' := by
  induction h with
  | nil => exact hdata
  | @cons d d' l l' h1 _ ih =>
    obtain ⟨g1, g2, g3⟩ := hdata d List.mem_cons_self
    intro e he
    rcases List.mem_cons.mp he with rfl | he
    · exact (turned_hinge (fun _ _ _ _ => .error .typeError) ⟨m.nStates, fun _ => 1⟩ 4 (.inl rfl) m hd hS rfl d _ h1 g1 g2 g3).1
    · exact ih (fun d' hd' => hdata d' (List.mem_cons_of_mem _ hd')) e he

theorem image_labelled {backend : Bool → Infer} {cw : Vec} {nb : ℕ} (hnb : nb = 4 ∨ nb = 8) {m : GraphCRF.Model} (hc : cw.size = m.nStates)
    {data : List (Ten × Labels)} (hdata : GridData m.nStates m.nFeatures data) :
    (problemOf (gridModel backend cw nb m) (imageOutputs nb m.nFeatures (labellings m.nStates))).Labelled (labelled data) := by
  intro s hs
  obtain ⟨d, hd, rfl⟩ := List.mem_map.mp hs
  obtain ⟨g1, g2, g3⟩ := hdata d hd
  refine ⟨(image_mem hnb g1).mpr ⟨d.2, rfl, g2, g3⟩, ?_⟩
  change okD 0 (Loss.loss (some cw) d.2 d.2) = 0
  rw [loss_some_ok g2 g2 (by rw [hc]; exact g3)]
  change weightedHamming _ _ _ _ = 0
  unfold weightedHamming
  simp

/-- **C190, learned weights.** With inference that finds a best labelling, the weights learned from images and from the same images mirrored
and turned agree up to the accuracy of training. -/
theorem C190_weights (backend : Bool → Infer) (cw : Vec) (nb : ℕ) (hnb : nb = 4 ∨ nb = 8) (m : GraphCRF.Model) (hd : m.directed = false)
    (hS : 2 ≤ m.nStates) (hc : cw.size = m.nStates) (hcw : ∀ c < m.nStates, 0 < cw.get c)
    (hI : SolvesOver m.nStates (labellings m.nStates) (backend true)) (C : ℚ) (hC : 0 < C) (data data' : List (Ten × Labels))
    (hdata : GridData m.nStates m.nFeatures data) (h : List.Forall₂ Turned data data') (ε δ : ℚ) (w u : W)
    (hw : Trained (gridModel backend cw nb m) (imageOutputs nb m.nFeatures (labellings m.nStates)) (labelled data) C ε w)
    (hu : Trained (gridModel backend cw nb m) (imageOutputs nb m.nFeatures (labellings m.nStates)) (labelled data') C δ u) :
    ∑ k ∈ range (GraphCRF.sizeJointFeature m), (w k - u k) ^ 2 ≤ 4 * (ε + δ) := by
  have hLA := (grid_learner (backend := backend) hnb hS hc hcw (O := labellings m.nStates) (fun n edges v hv => .inl hv) hI).exact_lossAug
  rw [gridView_outputs hnb] at hLA
  have g1 := image_labelled (backend := backend) hnb hc hdata
  have n1 := trained_near _ _ hLA _ g1 hC hw
  obtain ⟨b, b1, b2⟩ := trained_near _ _ hLA _ (image_labelled hnb hc (turned_data hd (by omega) hdata h)) hC hu
  have hr := C190_risk backend cw nb hnb m hd (by omega) hc C data data' hdata h
  exact near_close (P := problemOf (gridModel backend cw nb m) (imageOutputs nb m.nFeatures (labellings m.nStates))) hC.le
    (fun s hs w => ⟨_, (C29_slack _ _ true hLA s.1 s.2 w (g1 s hs).1 (g1 s hs).2).1⟩) n1
    ⟨b, (hr u b).mp b1, fun u' a ha => b2 u' a ((hr u' a).mpr ha)⟩

/-- **C190, prediction.** With an exact AD3, what is predicted for an image that was mirrored or transposed is, moved back, a labelling of
the image itself with the largest score. -/
theorem C190_prediction (P : Packages) (solve solve') (hP : P.ad3 = some (solve, solve')) (hex : Ad3AlwaysExact solve) (cw : Vec) (nb : ℕ)
    (hnb : nb = 4 ∨ nb = 8) (m : GraphCRF.Model) (hd : m.directed = false) (hS : 1 ≤ m.nStates) (v : Move) (t : Ten)
    (ht : GridFits m.nFeatures t) (w : ℕ → ℚ) (relaxed : Bool) :
    ∃ y y' : Labels, gridInference (Dispatch.backend P (.name "ad3") relaxed) nb m (v.image t) w = .ok (.discrete y') ∧
      v.Follows t.d0 t.d1 y y' ∧ Valid (t.d0 * t.d1) m.nStates y.get ∧
      ∀ z : Labels, z.size = t.d0 * t.d1 → Valid (t.d0 * t.d1) m.nStates z.get →
        let M := gridModel (Dispatch.backend P (.name "ad3")) cw nb m
        ∑ k ∈ range M.dim, w k * M.jointFeature t (.discrete z) k ≤ ∑ k ∈ range M.dim, w k * M.jointFeature t (.discrete y) k := by
  obtain ⟨y', h1, h2, h3, h4⟩ := C115_grid_predict P solve solve' hP hex nb hnb m hS (v.image t) (v.fits ht) w relaxed
  rw [v.size] at h2 h3 h4
  obtain ⟨y, h5, h6⟩ := v.back h2 h3
  refine ⟨y, y', h1, h5, h6, fun z hz hzv => ?_⟩
  obtain ⟨z', h7⟩ := v.forth hz
  intro M
  rw [C115_grid_score _ cw nb hnb m hS t ht z hz hzv, C115_grid_score _ cw nb hnb m hS t ht y h5.1 h6, ← gridScore_move hd v t z z' h7,
    ← gridScore_move hd v t y y' h5]
  exact h4 z' (h7.valid hzv)

/-! ### cases that meet the hypotheses -/

example : ∃ (P : Packages) (y' : Labels),
    gridInference (Dispatch.backend P (.name "ad3") false) 8 gridCrf (Move.transpose.image gridImage) (fun k => k) = .ok (.discrete y') := by
  obtain ⟨solve, hsolve⟩ := exact_ad3_exists
  obtain ⟨y, y', h, -⟩ := C190_prediction ⟨none, LP.ideal, some (solve, fun U edges _ _ r => solve U edges ⟨0, 0, 0, fun _ _ _ => 0⟩ r), none⟩ solve _
    rfl hsolve ⟨2, fun _ => 1⟩ 8 (.inr rfl) gridCrf rfl (by decide) .transpose gridImage ⟨by decide, by decide, by decide, rfl⟩ (fun k => k) false
  exact ⟨_, y', h⟩

/-- the image of two rows and three columns, labelled, turned by 90 degrees. -/
def turnedSample : List (Ten × Labels) :=
  [(Move.mirror.image (Move.transpose.image gridImage), ⟨6, fun i => if i % 2 = 1 then 1 else 0⟩)]

theorem turnedSample_turned : List.Forall₂ Turned gridSample turnedSample := by
  refine .cons (.step (d' := (Move.transpose.image gridImage, ⟨6, fun i => if i % 2 = 0 then 1 else 0⟩)) (.step (.refl _)
    ⟨.transpose, rfl, rfl, rfl, ?_⟩) ⟨.mirror, rfl, rfl, rfl, ?_⟩) .nil
  · decide
  · decide

example (backend : Bool → Infer) := C190_risk backend ⟨2, fun _ => 1⟩ 8 (.inr rfl) gridCrf rfl (by decide) rfl 1 gridSample turnedSample
  grid_sample turnedSample_turned

theorem turned_bound : ∀ d ∈ turnedSample, featureBound gridCrf (gridView 8 1 d.1) ≤ 1502 := by
  intro d hd
  rw [turnedSample, List.mem_singleton] at hd
  subst hd
  decide +kernel

/-- a model whose pairs of labels depend on the order is not indifferent: in the claim `directed` must be `False`. -/
theorem C190_directed (backend : Bool → Infer) (cw : Vec) : ∃ (t : Ten) (y y' : Labels) (w : ℕ → ℚ), Move.mirror.Follows t.d0 t.d1 y y' ∧
    ∑ k ∈ range (gridModel backend cw 4 ⟨2, 1, true⟩).dim,
      w k * (gridModel backend cw 4 ⟨2, 1, true⟩).jointFeature (Move.mirror.image t) (.discrete y') k ≠
    ∑ k ∈ range (gridModel backend cw 4 ⟨2, 1, true⟩).dim, w k * (gridModel backend cw 4 ⟨2, 1, true⟩).jointFeature t (.discrete y) k := by
  refine ⟨⟨1, 2, 1, fun _ _ _ => 0⟩, ⟨2, fun i => i⟩, ⟨2, fun i => 1 - i⟩, fun k => k, ⟨rfl, rfl, by decide⟩, ?_⟩
  rw [C115_grid_score backend cw 4 (.inl rfl) ⟨2, 1, true⟩ (by decide) _ ⟨by decide, by decide, by decide, rfl⟩ _ rfl (by unfold Valid; decide),
    C115_grid_score backend cw 4 (.inl rfl) ⟨2, 1, true⟩ (by decide) _ ⟨by decide, by decide, by decide, rfl⟩ _ rfl (by unfold Valid; decide)]
  decide +kernel

/-- both trainings reach any accuracy. -/
example (C ε : ℚ) (hC : 0 < C) (hε : 0 < ε) : ∃ (P : Packages) (w u : W),
    SolvesOver 2 (labellings 2) (Dispatch.backend P (.name "ad3") true) ∧
    Trained (gridModel (Dispatch.backend P (.name "ad3")) ⟨2, fun _ => 1⟩ 8 gridCrf) (imageOutputs 8 1 (labellings 2)) (labelled gridSample)
      C ε w ∧
    Trained (gridModel (Dispatch.backend P (.name "ad3")) ⟨2, fun _ => 1⟩ 8 gridCrf) (imageOutputs 8 1 (labellings 2)) (labelled turnedSample)
      C ε u := by
  obtain ⟨solve, hsolve⟩ := exact_ad3_exists
  let P : Packages := ⟨none, LP.ideal, some (solve, fun U edges _ _ r => solve U edges ⟨0, 0, 0, fun _ _ _ => 0⟩ r), none⟩
  have hI := ad3_exact_solves P (S := 2) (by decide) (solve := solve) rfl hsolve true
  have hl := grid_learner (backend := Dispatch.backend P (.name "ad3")) (cw := ⟨2, fun _ => 1⟩) (nb := 8) (.inr rfl) (m := gridCrf) (by decide) rfl
    (by decide +kernel) (O := labellings 2) (fun n edges v hv => .inl hv) hI
  have hLA := hl.exact_lossAug
  rw [gridView_outputs (.inr rfl)] at hLA
  have hR : ∀ data, (∀ d ∈ data, featureBound gridCrf (gridView 8 1 d.1) ≤ 1502) →
      (problemOf (gridModel (Dispatch.backend P (.name "ad3")) ⟨2, fun _ => 1⟩ 8 gridCrf) (imageOutputs 8 1 (labellings 2))).FeatureRange
        (labelled data) 1502 := by
    intro data hb s hs
    obtain ⟨d, hd, rfl⟩ := List.mem_map.mp hs
    intro y hy z hz
    rw [← gridView_outputs (.inr rfl)] at *
    exact (hl.range d.1 hy.1 y hy.2 z hz.2).trans (hb d hd)
  obtain ⟨w, hw⟩ := trained_exists _ _ hLA (labelled gridSample) (by simp [labelled, gridSample]) rfl
    (image_labelled (.inr rfl) rfl grid_sample) 1502 (hR _ grid_bound) C ε hC hε
  obtain ⟨u, hu⟩ := trained_exists _ _ hLA (labelled turnedSample) (by simp [labelled, turnedSample]) rfl
    (image_labelled (.inr rfl) rfl (turned_data (m := gridCrf) rfl (by decide) grid_sample turnedSample_turned)) 1502 (hR _ turned_bound) C ε hC hε
  exact ⟨P, w, u, hI, hw, hu⟩

end Verif.Props
