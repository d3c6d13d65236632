import Verif.Props.C130
import Verif.Props.C190

/-!
# C191: mirrored and transposed images in a DirectionalGridCRF
-/

namespace Verif.Props

open Finset Verif.Common Verif.GraphCRF Verif.EdgeFeature Verif.Spec Verif.Learner Verif.Dispatch Verif.Lemmas

/-- What a move does to weights that consist of `k₀` weights of features, an `S` by `S` table for horizontal and one for vertical pairs:
exchanging left and right transposes the table of horizontal pairs, exchanging rows and columns exchanges the tables. -/
def Move.weights (v : Move) (k₀ S : ℕ) (w : ℕ → ℚ) (k : ℕ) : ℚ :=
  match v with
  | .mirror => if k < k₀ + S ^ 2 then transposed k₀ S w k else w k
  | .transpose => if k < k₀ then w k else if k < k₀ + S ^ 2 then w (k + S ^ 2) else w (k - S ^ 2)

theorem Move.weights_low (v : Move) {k₀ S k : ℕ} (w : ℕ → ℚ) (h : k < k₀) : v.weights k₀ S w k = w k := by
  cases v with
  | mirror => exact (if_pos (Nat.lt_add_right _ h)).trans (transposed_low w h)
  | transpose => exact if_pos h

theorem mirror_first {k₀ S a b : ℕ} (w : ℕ → ℚ) (ha : a < S) (hb : b < S) :
    Move.mirror.weights k₀ S w (k₀ + (a * S + b)) = w (k₀ + (b * S + a)) := by
  have := flat_lt ha hb
  exact (if_pos (by rw [pow_two]; omega)).trans (transposed_high w hb)

theorem mirror_second {k₀ S j : ℕ} (w : ℕ → ℚ) : Move.mirror.weights k₀ S w (k₀ + S ^ 2 + j) = w (k₀ + S ^ 2 + j) := if_neg (by omega)

theorem transpose_first {k₀ S j : ℕ} (w : ℕ → ℚ) (h : j < S ^ 2) : Move.transpose.weights k₀ S w (k₀ + j) = w (k₀ + S ^ 2 + j) := by
  change (if k₀ + j < k₀ then _ else if k₀ + j < k₀ + S ^ 2 then w (k₀ + j + S ^ 2) else _) = _
  rw [if_neg (by omega), if_pos (by omega), add_right_comm]

theorem transpose_second {k₀ S j : ℕ} (w : ℕ → ℚ) : Move.transpose.weights k₀ S w (k₀ + S ^ 2 + j) = w (k₀ + j) := by
  change (if k₀ + S ^ 2 + j < k₀ then _ else if k₀ + S ^ 2 + j < k₀ + S ^ 2 then _ else w (k₀ + S ^ 2 + j - S ^ 2)) = _
  rw [if_neg (by omega), if_neg (by omega)]
  congr 1
  omega

/-- a move changes neither the norm of weights … -/
theorem Move.squares (v : Move) (k₀ S : ℕ) (w : ℕ → ℚ) :
    ∑ k ∈ range (k₀ + 2 * S ^ 2), v.weights k₀ S w k * v.weights k₀ S w k = ∑ k ∈ range (k₀ + 2 * S ^ 2), w k * w k := by
  rw [show k₀ + 2 * S ^ 2 = k₀ + S ^ 2 + S ^ 2 by omega, sum_range_add _ (k₀ + S ^ 2), sum_range_add _ (k₀ + S ^ 2)]
  cases v with
  | mirror =>
    congr 1
    · rw [← transposed_squares k₀ S w w]
      refine sum_congr rfl fun k hk => ?_
      have e : Move.mirror.weights k₀ S w k = transposed k₀ S w k := if_pos (mem_range.mp hk)
      rw [e]
    · exact sum_congr rfl fun k _ => by rw [mirror_second]
  | transpose =>
    rw [sum_range_add, sum_range_add, add_assoc, add_assoc, add_comm (∑ k ∈ range (S ^ 2), w _ * w _)]
    congr 1
    · exact sum_congr rfl fun k hk => by rw [Move.weights_low _ _ (mem_range.mp hk)]
    · congr 1
      · exact sum_congr rfl fun k hk => by rw [transpose_first w (mem_range.mp hk)]
      · exact sum_congr rfl fun k _ => by rw [transpose_second]

/-- … nor does it change anything when made twice. -/
theorem Move.weights_twice (v : Move) (k₀ S : ℕ) (w : ℕ → ℚ) (k : ℕ) (hk : k < k₀ + 2 * S ^ 2) :
    v.weights k₀ S (v.weights k₀ S w) k = w k := by
  by_cases h : k < k₀
  · rw [v.weights_low _ h, v.weights_low _ h]
  by_cases h2 : k < k₀ + S ^ 2
  · cases v with
    | mirror =>
      have h3 : k - k₀ < S * S := by rw [← pow_two]; omega
      have h0 : 0 < S := Nat.pos_of_ne_zero fun e => by rw [e] at h3; omega
      have e : k = k₀ + ((k - k₀) / S * S + (k - k₀) % S) := by rw [Nat.mul_comm, Nat.div_add_mod]; omega
      have e1 : (k - k₀) / S < S := (Nat.div_lt_iff_lt_mul h0).mpr h3
      have e2 := Nat.mod_lt (k - k₀) h0
      rw [e, mirror_first _ e1 e2, mirror_first _ e2 e1]
    | transpose =>
      obtain ⟨j, rfl⟩ := Nat.exists_eq_add_of_le (Nat.not_lt.mp h)
      rw [transpose_first _ (by omega), transpose_second]
  · obtain ⟨j, rfl⟩ := Nat.exists_eq_add_of_le (Nat.not_lt.mp h2)
    cases v with
    | mirror => rw [mirror_second, mirror_second]
    | transpose => rw [transpose_second, transpose_first _ (by omega)]

theorem directionalScore_move {S F : ℕ} (v : Move) (t : Ten) (y y' : Labels) (h : v.Follows t.d0 t.d1 y y')
    (hv : Valid (t.d0 * t.d1) S y.get) (w : ℕ → ℚ) :
    directionalScore S F (v.image t) w (unflat (v.image t) y') = directionalScore S F t (v.weights (S * F) S w) (unflat t y) := by
  have hval : ∀ r < t.d0, ∀ c < t.d1, unflat t y r c < S := fun r hr c hc => hv _ (flat_lt hr hc)
  have hlow : ∀ s < S, ∀ f < F, v.weights (S * F) S w (s * F + f) = w (s * F + f) := fun s hs f hf => v.weights_low _ (flat_lt hs hf)
  unfold directionalScore
  cases v with
  | mirror =>
    have e := fun r hr c hc => h.unflat_mirror (r := r) (c := c) hr hc
    generalize unflat (Move.mirror.image t) y' = Y' at e
    generalize unflat t y = Y at e hval
    change pixelScore t.d0 t.d1 _ _ _ _ + (horizontal t.d0 t.d1 _ _ + vertical t.d0 t.d1 _ _) = _
    congr 1
    · unfold pixelScore
      refine sum_congr rfl fun r hr => ?_
      rw [← sum_range_reflect]
      refine sum_congr rfl fun c hc => ?_
      have hr' := mem_range.mp hr
      have hc' := mem_range.mp hc
      rw [e r hr' _ (by omega), show t.d1 - 1 - (t.d1 - 1 - c) = c by omega]
      refine sum_congr rfl fun f hf => ?_
      rw [hlow _ (hval r hr' c hc') f (mem_range.mp hf)]
      change t.get r (t.d1 - 1 - (t.d1 - 1 - c)) f * _ = _
      rw [show t.d1 - 1 - (t.d1 - 1 - c) = c by omega]
    congr 1
    · unfold horizontal
      refine sum_congr rfl fun r hr => ?_
      rw [← sum_range_reflect]
      refine sum_congr rfl fun c hc => ?_
      have hr' := mem_range.mp hr
      have hc' := mem_range.mp hc
      beta_reduce
      rw [e r hr' _ (by omega), e r hr' _ (by omega), mirror_first w (hval r hr' c (by omega)) (hval r hr' (c + 1) (by omega)),
        show t.d1 - 1 - (t.d1 - 1 - 1 - c) = c + 1 by omega, show t.d1 - 1 - (t.d1 - 1 - 1 - c + 1) = c by omega]
    · unfold vertical
      refine sum_congr rfl fun r hr => ?_
      rw [← sum_range_reflect]
      refine sum_congr rfl fun c hc => ?_
      have hr' := mem_range.mp hr
      have hc' := mem_range.mp hc
      beta_reduce
      rw [e r (by omega) _ (by omega), e (r + 1) (by omega) _ (by omega), mirror_second, show t.d1 - 1 - (t.d1 - 1 - c) = c by omega]
  | transpose =>
    have e := fun r hr c hc => h.unflat_transpose (r := r) (c := c) hr hc
    generalize unflat (Move.transpose.image t) y' = Y' at e
    generalize unflat t y = Y at e hval
    change pixelScore t.d1 t.d0 _ _ _ _ + (horizontal t.d1 t.d0 _ _ + vertical t.d1 t.d0 _ _) = _
    rw [add_comm (horizontal _ _ _ _)]
    congr 1
    · unfold pixelScore
      rw [sum_comm]
      refine sum_congr rfl fun r hr => sum_congr rfl fun c hc => ?_
      rw [e c (mem_range.mp hc) r (mem_range.mp hr)]
      refine sum_congr rfl fun f hf => ?_
      rw [hlow _ (hval r (mem_range.mp hr) c (mem_range.mp hc)) f (mem_range.mp hf)]
      rfl
    congr 1
    · unfold horizontal vertical
      rw [sum_comm]
      refine sum_congr rfl fun r hr => sum_congr rfl fun c hc => ?_
      have hr' := mem_range.mp hr
      have hc' := mem_range.mp hc
      beta_reduce
      rw [e c (by omega) r hr', e (c + 1) (by omega) r hr', transpose_first w (by
        rw [pow_two]; exact flat_lt (hval r hr' c (by omega)) (hval r hr' (c + 1) (by omega)))]
    · unfold horizontal vertical
      rw [sum_comm]
      refine sum_congr rfl fun r hr => sum_congr rfl fun c hc => ?_
      have hr' := mem_range.mp hr
      beta_reduce
      rw [e c (mem_range.mp hc) r (by omega), e c (mem_range.mp hc) (r + 1) (by omega), transpose_second]

/-- **C191, scores.** -/
theorem C191_score (backend : Bool → Infer) (cw : Vec) (S F : ℕ) (v : Move) (t : Ten) (ht : GridFits F t) (y y' : Labels)
    (h : v.Follows t.d0 t.d1 y y') (hv : Valid (t.d0 * t.d1) S y.get) (w : ℕ → ℚ) :
    ∑ k ∈ range (directionalGridModel backend cw 4 S F).dim,
      w k * (directionalGridModel backend cw 4 S F).jointFeature (v.image t) (.discrete y') k =
    ∑ k ∈ range (directionalGridModel backend cw 4 S F).dim,
      v.weights (S * F) S w k * (directionalGridModel backend cw 4 S F).jointFeature t (.discrete y) k := by
  have hz := v.size t
  have hv' := h.valid hv
  rw [← hz] at hv'
  rw [C115_directional_score backend cw S F (v.image t) (v.fits ht) y' (by rw [hz]; exact h.2.1) hv',
    C115_directional_score backend cw S F t ht y h.1 hv, directionalScore_move v t y y' h hv]

theorem directional_hinge_move (backend : Bool → Infer) (cw : Vec) (S F : ℕ) (hc : cw.size = S) (v : Move) (t : Ten) (ht : GridFits F t)
    (y y' : Labels) (hf : v.Follows t.d0 t.d1 y y') (hv : Valid (t.d0 * t.d1) S y.get) (w : ℕ → ℚ) (a : ℚ) :
    (problemOf (directionalGridModel backend cw 4 S F) (imageOutputs 4 F (labellings S))).IsHinge w (v.image t) (.discrete y') a ↔
    (problemOf (directionalGridModel backend cw 4 S F) (imageOutputs 4 F (labellings S))).IsHinge (v.weights (S * F) S w) t (.discrete y) a := by
  generalize hP : problemOf (directionalGridModel backend cw 4 S F) (imageOutputs 4 F (labellings S)) = P
  have key : ∀ z z' : Labels, v.Follows t.d0 t.d1 z z' → Valid (t.d0 * t.d1) S z.get →
      P.violation w (v.image t) (.discrete y') (.discrete z') = P.violation (v.weights (S * F) S w) t (.discrete y) (.discrete z) := by
    intro z z' hz hzv
    have e1 := C191_score backend cw S F v t ht z z' hz hzv w
    have e2 := C191_score backend cw S F v t ht y y' hf hv w
    have e3 := C190_loss cw v _ _ y y' z z' hf hz (by rw [hc]; exact hv)
    subst hP
    have e4 : (directionalGridModel backend cw 4 S F).lossOf (.discrete y') (.discrete z') =
      (directionalGridModel backend cw 4 S F).lossOf (.discrete y) (.discrete z) := congrArg (okD 0) e3
    exact congrArg₂ (· - ·) (congrArg₂ (· + ·) e4 e1) e2
  have hO : ∀ t, P.outputs t = imageOutputs 4 F (labellings S) t := fun t => by rw [← hP]; rfl
  have hnb : (4 : ℕ) = 4 ∨ (4 : ℕ) = 8 := .inl rfl
  unfold Problem.IsHinge
  have e : {b | ∃ ŷ ∈ P.outputs (v.image t), b = P.violation w (v.image t) (.discrete y') ŷ} =
      {b | ∃ ŷ ∈ P.outputs t, b = P.violation (v.weights (S * F) S w) t (.discrete y) ŷ} := by
    rw [hO, hO]
    ext b
    constructor
    · rintro ⟨z, hz, rfl⟩
      obtain ⟨z', rfl, h1, h2⟩ := (image_mem hnb (v.fits ht)).mp hz
      rw [v.size t] at h1 h2
      obtain ⟨z, h3, h4⟩ := v.back h1 h2
      exact ⟨.discrete z, (image_mem hnb ht).mpr ⟨z, rfl, h3.1, h4⟩, key z z' h3 h4⟩
    · rintro ⟨z, hz, rfl⟩
      obtain ⟨z, rfl, h1, h2⟩ := (image_mem hnb ht).mp hz
      obtain ⟨z', h3⟩ := v.forth h1
      refine ⟨.discrete z', (image_mem hnb (v.fits ht)).mpr ⟨z', rfl, by rw [v.size t]; exact h3.2.1, by rw [v.size t]; exact h3.valid h2⟩,
        (key z z' h3 h2).symm⟩
  rw [e]

/-- All images moved in the same way. -/
def MovedData (v : Move) (data data' : List (Ten × Labels)) : Prop :=
  List.Forall₂ (fun d d' => d'.1 = v.image d.1 ∧ v.Follows d.1.d0 d.1.d1 d.2 d'.2) data data'

/-- **C191, risk.** -/
theorem C191_risk (backend : Bool → Infer) (cw : Vec) (S F : ℕ) (hc : cw.size = S) (C : ℚ) (v : Move) (data data' : List (Ten × Labels))
    (hdata : GridData S F data) (h : MovedData v data data') (w : ℕ → ℚ) (a : ℚ) :
    (problemOf (directionalGridModel backend cw 4 S F) (imageOutputs 4 F (labellings S))).IsObjective C (labelled data') w a ↔
    (problemOf (directionalGridModel backend cw 4 S F) (imageOutputs 4 F (labellings S))).IsObjective C (labelled data)
      (v.weights (S * F) S w) a := by
  unfold Problem.IsObjective
  refine exists_congr fun hs => and_congr ?_ ?_
  · unfold labelled
    rw [List.forall₂_map_left_iff, List.forall₂_map_left_iff]
    unfold MovedData at h
    induction h generalizing hs with
    | nil => simp
    | @cons d d' l l' h1 _ ih =>
      have ih := fun hs => ih (fun d' hd' => hdata d' (List.mem_cons_of_mem _ hd')) hs
      obtain ⟨g1, g2, g3⟩ := hdata d List.mem_cons_self
      cases hs with
      | nil => simp
      | cons b hs =>
        rw [List.forall₂_cons, List.forall₂_cons, ih, h1.1]
        exact and_congr (directional_hinge_move backend cw S F hc v d.1 g1 d.2 d'.2 h1.2 g3 w b) Iff.rfl
  · change a = (∑ k ∈ range (S * F + 2 * S ^ 2), w k * w k) / 2 + C * hs.sum ↔
      a = (∑ k ∈ range (S * F + 2 * S ^ 2), _) / 2 + C * hs.sum
    rw [v.squares]

theorem moved_data {v : Move} {S F : ℕ} {data data' : List (Ten × Labels)} (hdata : GridData S F data) (h : MovedData v data data') :
    GridData S F data' := by
  unfold MovedData at h
  induction h with
  | nil => exact hdata
  | @cons d d' l l' h1 _ ih =>
    obtain ⟨g1, g2, g3⟩ := hdata d List.mem_cons_self
    intro e he
    rcases List.mem_cons.mp he with rfl | he
    · rw [h1.1, v.size]
      exact ⟨v.fits g1, h1.2.2.1, h1.2.valid g3⟩
    · exact ih (fun d' hd' => hdata d' (List.mem_cons_of_mem _ hd')) e he

theorem directional_labelled {backend : Bool → Infer} {cw : Vec} {S F : ℕ} (hc : cw.size = S) {data : List (Ten × Labels)}
    (hdata : GridData S F data) :
    (problemOf (directionalGridModel backend cw 4 S F) (imageOutputs 4 F (labellings S))).Labelled (labelled data) := by
  intro s hs
  obtain ⟨d, hd, rfl⟩ := List.mem_map.mp hs
  obtain ⟨g1, g2, g3⟩ := hdata d hd
  refine ⟨(image_mem (.inl rfl) g1).mpr ⟨d.2, rfl, g2, g3⟩, ?_⟩
  change okD 0 (Loss.loss (some cw) d.2 d.2) = 0
  rw [loss_some_ok g2 g2 (by rw [hc]; exact g3)]
  change weightedHamming _ _ _ _ = 0
  unfold weightedHamming
  simp

/-- **C191, learned weights.** -/
theorem C191_weights (backend : Bool → Infer) (cw : Vec) (S F : ℕ) (hS : 2 ≤ S) (hc : cw.size = S) (hcw : ∀ c < S, 0 < cw.get c)
    (hI : SolvesEdges S (labellings S) (backend true)) (C : ℚ) (hC : 0 < C) (v : Move) (data data' : List (Ten × Labels))
    (hdata : GridData S F data) (h : MovedData v data data') (ε δ : ℚ) (w u : W)
    (hw : Trained (directionalGridModel backend cw 4 S F) (imageOutputs 4 F (labellings S)) (labelled data) C ε w)
    (hu : Trained (directionalGridModel backend cw 4 S F) (imageOutputs 4 F (labellings S)) (labelled data') C δ u) :
    ∑ k ∈ range (S * F + 2 * S ^ 2), (w k - v.weights (S * F) S u k) ^ 2 ≤ 4 * (ε + δ) := by
  have hLA := (directional_learner (backend := backend) (F := F) hS hc hcw (O := labellings S) (fun n edges v hv => .inl hv) hI).exact_lossAug
  rw [directionalView_outputs] at hLA
  have g1 := directional_labelled (backend := backend) hc hdata
  have n1 := trained_near _ _ hLA _ g1 hC hw
  obtain ⟨b, b1, b2⟩ := trained_near _ _ hLA _ (directional_labelled hc (moved_data hdata h)) hC hu
  have hr := C191_risk backend cw S F hc C v data data' hdata h
  refine near_close (P := problemOf (directionalGridModel backend cw 4 S F) (imageOutputs 4 F (labellings S))) hC.le
    (fun s hs w => ⟨_, (C29_slack _ _ true hLA s.1 s.2 w (g1 s hs).1 (g1 s hs).2).1⟩) n1
    ⟨b, (hr u b).mp b1, fun u' a ha => b2 (v.weights (S * F) S u') a ((hr _ a).mpr ?_)⟩
  refine (objective_weights_congr (w := u') fun k (hk : k < S * F + 2 * S ^ 2) => ?_).mp ha
  rw [v.weights_twice _ _ _ _ hk]

/-- **C191, prediction.** If inference finds best labellings, what weights predict for an image that was mirrored or transposed is, moved
back, a labelling of the image itself with the largest score under the moved weights. -/
theorem C191_prediction (backend : Bool → Infer) (cw : Vec) (S F : ℕ) (hS : 1 ≤ S)
    (hI : SolvesEdges S (AllOrNone S fun _ _ => True) (backend false)) (v : Move) (t : Ten) (ht : GridFits F t) (w : ℕ → ℚ) :
    let M := directionalGridModel backend cw 4 S F
    ∃ y y' : Labels, M.inference (v.image t) w = .discrete y' ∧ v.Follows t.d0 t.d1 y y' ∧ Valid (t.d0 * t.d1) S y.get ∧
      ∀ z : Labels, z.size = t.d0 * t.d1 → Valid (t.d0 * t.d1) S z.get →
        ∑ k ∈ range M.dim, v.weights (S * F) S w k * M.jointFeature t (.discrete z) k ≤
          ∑ k ∈ range M.dim, v.weights (S * F) S w k * M.jointFeature t (.discrete y) k := by
  intro M
  obtain ⟨y', h1, h2, h3, h4⟩ := directional_predicts (cw := cw) (F := F) hS hI (v.image t) w ⟨v.fits ht, fun _ _ => trivial⟩ trivial
  beta_reduce at h2 h3 h4
  rw [v.size] at h2 h3 h4
  obtain ⟨y, h5, h6⟩ := v.back h2 h3
  refine ⟨y, y', h1, h5, h6, fun z hz hzv => ?_⟩
  obtain ⟨z', h7⟩ := v.forth hz
  have := h4 z' h7.2.1 (h7.valid hzv)
  rw [C191_score backend cw S F v t ht z z' h7 hzv w, C191_score backend cw S F v t ht y y' h5 h6 w] at this
  exact this

/-! ### cases that meet the hypotheses -/

example : ∃ P : Packages, SolvesEdges 2 (AllOrNone 2 fun _ _ => True) (Dispatch.backend P (.name "ad3") false) := by
  obtain ⟨solve, hs⟩ := exact_ad3_exists
  exact ⟨{ idealPackages with ad3 := some (solve, fun U edges _ _ r => solve U edges ⟨0, 0, 0, fun _ _ _ => 0⟩ r) },
    ad3_decodes_edges _ (by norm_num) rfl hs false⟩

/-- two states, one feature. -/
example : (List.range 10).map (Move.mirror.weights 2 2 fun k => k) = [0, 1, 2, 4, 3, 5, 6, 7, 8, 9] ∧
    (List.range 10).map (Move.transpose.weights 2 2 fun k => k) = [0, 1, 6, 7, 8, 9, 2, 3, 4, 5] := by decide +kernel

/-- the image of two rows and three columns transposed. -/
def transposedSample : List (Ten × Labels) := [(Move.transpose.image gridImage, ⟨6, fun i => if i % 2 = 0 then 1 else 0⟩)]

theorem transposedSample_moved : MovedData .transpose gridSample transposedSample := .cons ⟨rfl, rfl, rfl, by decide⟩ .nil

example (backend : Bool → Infer) := C191_risk backend ⟨2, fun _ => 1⟩ 2 1 rfl 1 .transpose gridSample transposedSample grid_sample
  transposedSample_moved

theorem transposed_bound : ∀ d ∈ transposedSample, edgeBound (directionalModel 2 1 4) (directionalView 4 1 d.1) ≤ 150 := by
  intro d hd
  rw [transposedSample, List.mem_singleton] at hd
  subst hd
  decide +kernel

/-- both trainings reach any accuracy. -/
example (C ε : ℚ) (hC : 0 < C) (hε : 0 < ε) : ∃ (P : Packages) (w u : W),
    SolvesEdges 2 (labellings 2) (Dispatch.backend P (.name "ad3") true) ∧
    Trained (directionalGridModel (Dispatch.backend P (.name "ad3")) ⟨2, fun _ => 1⟩ 4 2 1) (imageOutputs 4 1 (labellings 2))
      (labelled gridSample) C ε w ∧
    Trained (directionalGridModel (Dispatch.backend P (.name "ad3")) ⟨2, fun _ => 1⟩ 4 2 1) (imageOutputs 4 1 (labellings 2))
      (labelled transposedSample) C ε u := by
  obtain ⟨solve, hsolve⟩ := exact_ad3_exists
  let P : Packages := ⟨none, LP.ideal, some (solve, fun U edges _ _ r => solve U edges ⟨0, 0, 0, fun _ _ _ => 0⟩ r), none⟩
  have hI := ad3_exact_solves_edges P (S := 2) (by decide) (solve := solve) rfl hsolve true
  have hl := directional_learner (backend := Dispatch.backend P (.name "ad3")) (cw := ⟨2, fun _ => 1⟩) (F := 1) (S := 2) (by decide) rfl
    (by decide +kernel) (O := labellings 2) (fun n edges v hv => .inl hv) hI
  have hLA := hl.exact_lossAug
  rw [directionalView_outputs] at hLA
  have hR : ∀ data, (∀ d ∈ data, edgeBound (directionalModel 2 1 4) (directionalView 4 1 d.1) ≤ 150) →
      (problemOf (directionalGridModel (Dispatch.backend P (.name "ad3")) ⟨2, fun _ => 1⟩ 4 2 1) (imageOutputs 4 1 (labellings 2))).FeatureRange
        (labelled data) 150 := by
    intro data hb s hs
    obtain ⟨d, hd, rfl⟩ := List.mem_map.mp hs
    intro y hy z hz
    rw [← directionalView_outputs] at *
    exact (hl.range d.1 hy.1 y hy.2 z hz.2).trans (hb d hd)
  obtain ⟨w, hw⟩ := trained_exists _ _ hLA (labelled gridSample) (by simp [labelled, gridSample]) rfl
    (directional_labelled rfl grid_sample) 150 (hR _ directional_bound) C ε hC hε
  obtain ⟨u, hu⟩ := trained_exists _ _ hLA (labelled transposedSample) (by simp [labelled, transposedSample]) rfl
    (directional_labelled rfl (moved_data grid_sample transposedSample_moved)) 150 (hR _ transposed_bound) C ε hC hε
  exact ⟨P, w, u, hI, hw, hu⟩

end Verif.Props
