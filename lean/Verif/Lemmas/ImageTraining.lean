import Verif.Model.LatentGridInstance
import Verif.Props.C129
import Verif.Props.C130

/-!
# Latent models of images behind the interface of the latent learners
-/

namespace Verif.Props

open Finset Verif.Common Verif.Spec Verif.Learner Verif.LatentSSVM Verif.LatentGrid

/-! ### wrong pixels -/

theorem owner_unique {sizes : List ℕ} {l l' s : ℕ} (hl : l < sizes.length) (hl' : l' < sizes.length) (h : OwnsState sizes l s)
    (h' : OwnsState sizes l' s) : l = l' := by
  have e1 := (labelOf_owns (m := ⟨sizes, 0, false⟩) hl h).1
  have e2 := (labelOf_owns (m := ⟨sizes, 0, false⟩) hl' h').1
  exact e1.symm.trans e2

theorem wrongPixels_nonneg (sizes : List ℕ) (h w : ℕ) (a b : ℕ → ℕ → ℕ) : 0 ≤ wrongPixels sizes h w a b :=
  sum_nonneg fun _ _ => sum_nonneg fun _ _ => by split <;> norm_num

theorem wrongPixels_le (sizes : List ℕ) (h w : ℕ) (a b : ℕ → ℕ → ℕ) : wrongPixels sizes h w a b ≤ h * w := by
  unfold wrongPixels
  refine (sum_le_sum (g := fun _ => (w : ℚ)) fun r _ => ?_).trans (by simp)
  refine (sum_le_sum (g := fun _ => (1 : ℚ)) fun c _ => ?_).trans (by simp)
  split <;> norm_num

theorem wrongPixels_congr {sizes : List ℕ} {h w : ℕ} {a b b' : ℕ → ℕ → ℕ} (hb : ∀ r < h, ∀ c < w, b r c = b' r c) :
    wrongPixels sizes h w a b = wrongPixels sizes h w a b' := by
  unfold wrongPixels
  refine sum_congr rfl fun r hr => sum_congr rfl fun c hc => ?_
  rw [hb r (mem_range.mp hr) c (mem_range.mp hc)]

theorem wrongPixels_self {sizes : List ℕ} {h w : ℕ} {y a : ℕ → ℕ → ℕ} (ha : CompletesImage sizes h w y a) :
    wrongPixels sizes h w a a = 0 := by
  unfold wrongPixels
  refine sum_eq_zero fun r hr => sum_eq_zero fun c hc => ?_
  obtain ⟨h1, h2⟩ := ha r (mem_range.mp hr) c (mem_range.mp hc)
  rw [if_pos ⟨_, h1, h2, h2⟩]

/-- images without wrong pixels complete the same labels. -/
theorem completes_of_right {sizes : List ℕ} {h w : ℕ} {y a b : ℕ → ℕ → ℕ} (ha : CompletesImage sizes h w y a)
    (h0 : wrongPixels sizes h w a b ≤ 0) : CompletesImage sizes h w y b := by
  intro r hr c hc
  obtain ⟨h1, h2⟩ := ha r hr c hc
  refine ⟨h1, ?_⟩
  have e := le_antisymm h0 (wrongPixels_nonneg sizes h w a b)
  unfold wrongPixels at e
  have e1 := (sum_eq_zero_iff_of_nonneg (fun r _ => sum_nonneg fun c _ => by split <;> norm_num)).mp e r (mem_range.mpr hr)
  have e2 := (sum_eq_zero_iff_of_nonneg (fun c _ => by split <;> norm_num)).mp e1 c (mem_range.mpr hc)
  by_cases hex : ∃ l < sizes.length, OwnsState sizes l (a r c) ∧ OwnsState sizes l (b r c)
  · obtain ⟨l, hl, o1, o2⟩ := hex
    rw [owner_unique h1 hl h2 o1]
    exact o2
  · rw [if_neg hex] at e2
    norm_num at e2

theorem completes_valid {m : LatentGraph.Model} {h w : ℕ} {y a : ℕ → ℕ → ℕ} (ha : CompletesImage m.nStatesPerLabel h w y a) :
    ValidImage h w m.nStates a := fun r hr c hc => (labelOf_owns (ha r hr c hc).1 (ha r hr c hc).2).2

/-! ### the interface -/

/-- The images of states that compete for a sample. -/
def imageStates (m : LatentGraph.Model) (good : Ten → Prop) (t : Ten) : Set ImageVal :=
  {v | good t ∧ ∃ z : Grid.NMat, v = .discrete z ∧ z.rows = t.d0 ∧ z.cols = t.d1 ∧ ValidImage t.d0 t.d1 m.nStates z.get}

/-- The completions of an image of labels that compete for a sample. -/
def imageCompletions (m : LatentGraph.Model) (good : Ten → Prop) (t : Ten) (y : Grid.NMat) : Set ImageVal :=
  {v | good t ∧ y.rows = t.d0 ∧ y.cols = t.d1 ∧ ∃ z : Grid.NMat, v = .discrete z ∧ z.rows = t.d0 ∧ z.cols = t.d1 ∧
    CompletesImage m.nStatesPerLabel t.d0 t.d1 y.get z.get}

/-- Features are small compared with the penalty of 100 in `latent`, for weights of norm at most `ρ`. -/
def SmallFeatures (F : ℕ) (ρ c : ℚ) (t : Ten) : Prop :=
  ∀ r < t.d0, ∀ q < t.d1, ρ * (∑ f ∈ range F, |t.get r q f| + c) < 100

/-- A latent model of images: its joint feature represents the score `sc`, loss-augmented inference and `latent` are exact. -/
structure ImageLatent (L : LModel Ten Grid.NMat ImageVal) (m : LatentGraph.Model) (good : Ten → Prop)
    (sc : Ten → (ℕ → ℚ) → (ℕ → ℕ → ℕ) → ℚ) (bound : Ten → ℚ) (c : ℚ)
    (pred : List (Ten × Grid.NMat) → ℕ → ℕ → ℕ → ℕ) : Prop where
  plain : L.m.rescaleC = false
  pos : ∀ t, good t → 1 ≤ t.d0 ∧ 1 ≤ t.d1
  value : ∀ t, good t → ∀ z : Grid.NMat, z.rows = t.d0 → z.cols = t.d1 → ValidImage t.d0 t.d1 m.nStates z.get → ∀ w : ℕ → ℚ,
    ∑ k ∈ Finset.range L.m.dim, w k * L.m.jointFeature t (.discrete z) k = sc t w z.get
  congr : ∀ t w (a b : ℕ → ℕ → ℕ), (∀ r < t.d0, ∀ c < t.d1, a r c = b r c) → sc t w a = sc t w b
  lossAug : ∀ t, good t → ∀ h : Grid.NMat, h.rows = t.d0 → h.cols = t.d1 → ValidImage t.d0 t.d1 m.nStates h.get → ∀ w : ℕ → ℚ,
    ∃ z : Grid.NMat, L.m.lossAug t (.discrete h) w true = .discrete z ∧ z.rows = t.d0 ∧ z.cols = t.d1 ∧
      ValidImage t.d0 t.d1 m.nStates z.get ∧ ∀ z', ValidImage t.d0 t.d1 m.nStates z' →
        sc t w z' + wrongPixels m.nStatesPerLabel t.d0 t.d1 h.get z' ≤
        sc t w z.get + wrongPixels m.nStatesPerLabel t.d0 t.d1 h.get z.get
  loss : ∀ a o, L.m.lossOf (.discrete a) o = okD 0 (LatentGrid.loss m a o)
  latent : ∀ t, good t → ∀ y : Grid.NMat, y.rows = t.d0 → y.cols = t.d1 → ValidImage t.d0 t.d1 m.nLabels y.get → ∀ (w : ℕ → ℚ) (ρ : ℚ),
    0 ≤ ρ → (∀ k < L.m.dim, |w k| ≤ ρ) → SmallFeatures m.nFeatures ρ c t →
    ∃ z : Grid.NMat, L.latent t y w = .discrete z ∧ z.rows = t.d0 ∧ z.cols = t.d1 ∧
      CompletesImage m.nStatesPerLabel t.d0 t.d1 y.get z.get ∧
      ∀ z', CompletesImage m.nStatesPerLabel t.d0 t.d1 y.get z' → sc t w z' ≤ sc t w z.get
  init : ∀ samples, L.initLatent samples = imageInit m pred samples
  bound_nonneg : ∀ t, 0 ≤ bound t
  range : ∀ t, good t → ∀ y z : Grid.NMat, y.rows = t.d0 → y.cols = t.d1 → ValidImage t.d0 t.d1 m.nStates y.get →
    z.rows = t.d0 → z.cols = t.d1 → ValidImage t.d0 t.d1 m.nStates z.get →
    ∑ k ∈ Finset.range L.m.dim, (L.m.jointFeature t (.discrete y) k - L.m.jointFeature t (.discrete z) k) ^ 2 ≤ bound t

variable {L : LModel Ten Grid.NMat ImageVal} {m : LatentGraph.Model} {good : Ten → Prop} {sc : Ten → (ℕ → ℚ) → (ℕ → ℕ → ℕ) → ℚ}
  {bound : Ten → ℚ} {c : ℚ} {pred : List (Ten × Grid.NMat) → ℕ → ℕ → ℕ → ℕ}

theorem ImageLatent.feat (H : ImageLatent L m good sc bound c pred) (t : Ten) (v y : ImageVal) :
    L.m.feat t v y = L.m.jointFeature t v := by
  unfold SModel.feat
  rw [H.plain]
  rfl

theorem ImageLatent.loss_ok (H : ImageLatent L m good sc bound c pred) {h w : ℕ} {a b : Grid.NMat} (ar : a.rows = h) (ac : a.cols = w)
    (av : ValidImage h w m.nStates a.get) (br : b.rows = h) (bc : b.cols = w) (bv : ValidImage h w m.nStates b.get) :
    L.m.lossOf (.discrete a) (.discrete b) = wrongPixels m.nStatesPerLabel h w a.get b.get := by
  subst ar ac
  rw [H.loss, C129_loss m a b br bc av bv]
  rfl

theorem ImageLatent.value_eq (H : ImageLatent L m good sc bound c pred) {outputs : Ten → Set ImageVal} {t : Ten} (ht : good t)
    {z : Grid.NMat} (zr : z.rows = t.d0) (zc : z.cols = t.d1) (zv : ValidImage t.d0 t.d1 m.nStates z.get) (y : ImageVal)
    (w : ℕ → ℚ) : (problemOf L.m outputs).value w t y (.discrete z) = sc t w z.get := by
  rw [← H.value t ht z zr zc zv w]
  change ∑ k ∈ Finset.range L.m.dim, w k * L.m.feat t (.discrete z) y k = _
  rw [H.feat]

/-- pixelwise equal images have equal features. -/
theorem ImageLatent.feature_congr (H : ImageLatent L m good sc bound c pred) {t : Ten} (ht : good t)
    {a b : Grid.NMat} (ar : a.rows = t.d0) (ac : a.cols = t.d1) (av : ValidImage t.d0 t.d1 m.nStates a.get)
    (br : b.rows = t.d0) (bc : b.cols = t.d1) (bv : ValidImage t.d0 t.d1 m.nStates b.get)
    (hab : ∀ r < t.d0, ∀ q < t.d1, a.get r q = b.get r q) {k : ℕ} (hk : k < L.m.dim) :
    L.m.jointFeature t (.discrete a) k = L.m.jointFeature t (.discrete b) k := by
  have e : ∀ v : ImageVal, ∑ j ∈ Finset.range L.m.dim, (if j = k then (1 : ℚ) else 0) * L.m.jointFeature t v j =
      L.m.jointFeature t v k := by
    intro v
    rw [sum_eq_single k]
    · simp
    · intro j _ hj
      simp [hj]
    · intro h
      exact absurd (mem_range.mpr hk) h
  rw [← e (.discrete a), ← e (.discrete b), H.value t ht a ar ac av, H.value t ht b br bc bv, H.congr t _ _ _ hab]

theorem ImageLatent.exact (H : ImageLatent L m good sc bound c pred) :
    (problemOf L.m (imageStates m good)).ExactLossAug fun x y w => L.m.lossAug x y w true := by
  rintro t y w ⟨ht, a, rfl, ar, ac, av⟩ -
  obtain ⟨z, h1, zr, zc, zv, hmax⟩ := H.lossAug t ht a ar ac av w
  simp only [h1]
  refine ⟨⟨ht, z, rfl, zr, zc, zv⟩, ?_⟩
  rintro _ ⟨-, z', rfl, zr', zc', zv'⟩
  unfold Problem.violation
  rw [H.value_eq ht zr zc zv, H.value_eq ht zr' zc' zv', H.value_eq ht ar ac av]
  have l1 : (problemOf L.m (imageStates m good)).loss (.discrete a) (.discrete z) = _ := H.loss_ok ar ac av zr zc zv
  have l2 : (problemOf L.m (imageStates m good)).loss (.discrete a) (.discrete z') = _ := H.loss_ok ar ac av zr' zc' zv'
  rw [l1, l2]
  linarith [hmax z'.get zv']

/-- the loss depends on the labels of the first argument only. -/
theorem image_loss_labels {h w : ℕ} {y : ℕ → ℕ → ℕ} {a b : Grid.NMat} (ar : a.rows = h) (ac : a.cols = w)
    (ha : CompletesImage m.nStatesPerLabel h w y a.get) (br : b.rows = h) (bc : b.cols = w)
    (hb : CompletesImage m.nStatesPerLabel h w y b.get) (o : ImageVal) : LatentGrid.loss m a o = LatentGrid.loss m b o := by
  subst ar ac
  have hlab : ∀ r < a.rows, ∀ q < a.cols, labelOf m (a.get r q) = labelOf m (b.get r q) := fun r hr q hq =>
    (labelOf_owns (ha r hr q hq).1 (ha r hr q hq).2).1.trans (labelOf_owns (hb r hr q hq).1 (hb r hr q hq).2).1.symm
  have av := completes_valid ha
  have bv : ValidImage b.rows b.cols m.nStates b.get := by rw [br, bc]; exact completes_valid hb
  cases o with
  | discrete z =>
    unfold LatentGrid.loss
    simp only
    rw [image_labels av, image_labels bv]
    simp only [bind, Except.bind]
    cases LatentGrid.labelFromLatent m z with
    | error e => rfl
    | ok l =>
      simp only
      rw [br, bc, loss_congr_left (a := flat ⟨a.rows, a.cols, fun r q => labelOf m (a.get r q)⟩)
        (a' := flat ⟨a.rows, a.cols, fun r q => labelOf m (b.get r q)⟩) rfl]
      intro i hi
      obtain ⟨h1, h2, -⟩ := pixel_of (h := a.rows) (w := a.cols) hi
      exact hlab _ h1 _ h2
  | relaxed u p =>
    unfold LatentGrid.loss LatentGrid.continuousLoss LatentGraph.continuousLoss
    simp only
    have bs : (flat b).size = a.rows * a.cols := by
      change b.rows * b.cols = _
      rw [br, bc]
    have bv' := valid_flat bv
    rw [br, bc] at bv'
    rw [labelFromLatent_ok (n := a.rows * a.cols) rfl (valid_flat av), labelFromLatent_ok bs bv']
    simp only [bind, Except.bind]
    rw [continuousLoss_congr_left (a := ⟨(flat a).size, fun i => labelOf m ((flat a).get i)⟩)
      (a' := ⟨(flat b).size, fun i => labelOf m ((flat b).get i)⟩) bs.symm]
    intro i hi
    obtain ⟨h1, h2, -⟩ := pixel_of (h := a.rows) (w := a.cols) hi
    change labelOf m (a.get (i / a.cols) (i % a.cols)) = labelOf m (b.get (i / b.cols) (i % b.cols))
    rw [bc]
    exact hlab _ h1 _ h2

theorem ImageLatent.labelOnly (H : ImageLatent L m good sc bound c pred) (samples : List (Ten × Grid.NMat)) :
    (problemOf L.m (imageStates m good)).LabelOnly (imageCompletions m good) samples := by
  rintro ⟨t, y⟩ - h ⟨ht, -, -, a, rfl, ar, ac, ha⟩
  have av := completes_valid ha
  refine ⟨⟨⟨ht, a, rfl, ar, ac, av⟩, ?_⟩, ?_⟩
  · exact (H.loss_ok ar ac av ar ac av).trans (wrongPixels_self ha)
  · rintro h' ⟨-, -, -, b, rfl, br, bc, hb⟩ o
    refine ⟨?_, fun k => ?_⟩
    · change L.m.lossOf _ o = L.m.lossOf _ o
      rw [H.loss, H.loss, image_loss_labels ar ac ha br bc hb]
    · change L.m.feat t o _ k = L.m.feat t o _ k
      rw [H.feat, H.feat]

/-! ### data -/

/-- Every sample is a proper image with one label in range per pixel. -/
def ImageData (m : LatentGraph.Model) (good : Ten → Prop) (data : List (Ten × Grid.NMat)) : Prop :=
  ∀ d ∈ data, good d.1 ∧ d.2.rows = d.1.d0 ∧ d.2.cols = d.1.d1 ∧ ValidImage d.1.d0 d.1.d1 m.nLabels d.2.get

/-- Number of pixels of all images. -/
def pixelCount (data : List (Ten × Grid.NMat)) : ℚ := (data.map fun d => (d.1.d0 : ℚ) * d.1.d1).sum

/-- The images of states complete the labels of all samples. -/
def ImagesComplete (m : LatentGraph.Model) (good : Ten → Prop) (data : List (Ten × Grid.NMat)) (hs : List ImageVal) : Prop :=
  List.Forall₂ (fun s h => h ∈ imageCompletions m good s.1 s.2) data hs

theorem images_mem {data : List (Ten × Grid.NMat)} {hs : List ImageVal} (hc : ImagesComplete m good data hs)
    {s : Ten × ImageVal} (h : s ∈ (data.map Prod.fst).zip hs) : ∃ d ∈ data, s.1 = d.1 ∧ s.2 ∈ imageCompletions m good d.1 d.2 := by
  unfold ImagesComplete at hc
  induction hc with
  | nil => simp at h
  | @cons d h0 data hs hh _ ih =>
    rw [List.map_cons, List.zip_cons_cons, List.mem_cons] at h
    rcases h with rfl | h
    · exact ⟨d, by simp, rfl, hh⟩
    · obtain ⟨d', h1, h2⟩ := ih h
      exact ⟨d', by simp [h1], h2⟩

/-- an image of states with one wrong pixel. -/
theorem ImageLatent.confusable (H : ImageLatent L m good sc bound c pred)
    (hpos : ∀ l < m.nLabels, 0 < m.nStatesPerLabel.getD l 0) (hL : 2 ≤ m.nLabels) {t : Ten} {y : Grid.NMat} {h : ImageVal}
    (hh : h ∈ imageCompletions m good t y) : ∃ z ∈ imageStates m good t, 1 ≤ L.m.lossOf h z := by
  obtain ⟨ht, -, -, a, rfl, ar, ac, ha⟩ := hh
  obtain ⟨p0, p1⟩ := H.pos t ht
  have av := completes_valid ha
  obtain ⟨l, hl, hne⟩ : ∃ l < m.nLabels, l ≠ y.get 0 0 := by
    by_cases h : y.get 0 0 = 0
    · exact ⟨1, by omega, by omega⟩
    · exact ⟨0, by omega, by omega⟩
  obtain ⟨o1, -, o2⟩ := first_state hpos hl
  have zv : ValidImage t.d0 t.d1 m.nStates fun _ _ => (m.nStatesPerLabel.take l).sum := fun _ _ _ _ => o2
  refine ⟨.discrete ⟨t.d0, t.d1, fun _ _ => (m.nStatesPerLabel.take l).sum⟩, ⟨ht, _, rfl, rfl, rfl, zv⟩, ?_⟩
  rw [H.loss_ok (b := ⟨t.d0, t.d1, fun _ _ => (m.nStatesPerLabel.take l).sum⟩) ar ac av rfl rfl zv]
  unfold wrongPixels
  refine le_trans ?_ (single_le_sum (fun r _ => sum_nonneg fun q _ => by split <;> norm_num) (mem_range.mpr p0))
  refine le_trans ?_ (single_le_sum (fun q _ => by split <;> norm_num) (mem_range.mpr p1))
  rw [if_neg]
  rintro ⟨l', hl', w1, w2⟩
  obtain ⟨a1, a2⟩ := ha 0 p0 0 p1
  exact hne ((owner_unique hl hl' o1 w2).trans (owner_unique hl' a1 w1 a2))

theorem ImageLatent.trainable (H : ImageLatent L m good sc bound c pred)
    (hpos : ∀ l < m.nLabels, 0 < m.nStatesPerLabel.getD l 0) (hL : 2 ≤ m.nLabels) (data : List (Ten × Grid.NMat))
    (hne : data ≠ []) (R : ℚ) (hR : ∀ d ∈ data, bound d.1 ≤ R) {hs : List ImageVal} (hc : ImagesComplete m good data hs) :
    Trainable L.m (imageStates m good) ((data.map Prod.fst).zip hs) R (pixelCount data) := by
  have hlen := List.Forall₂.length_eq hc
  have hmem := fun s h => images_mem hc (s := s) h
  have hfirst : ∃ s, s ∈ (data.map Prod.fst).zip hs := by
    refine List.exists_mem_of_ne_nil _ fun h0 => hne ?_
    have h1 := congrArg List.length h0
    rw [List.length_zip, List.length_map, ← hlen, min_self] at h1
    exact List.length_eq_zero_iff.mp h1
  exact {
    ne := by
      obtain ⟨s, h⟩ := hfirst
      exact List.ne_nil_of_mem h
    plain := H.plain
    exact_lossAug := H.exact
    labelled := by
      intro s h
      obtain ⟨d, hd, e, hcm⟩ := hmem s h
      have := (H.labelOnly data d hd s.2 hcm).1
      rw [← e] at this
      exact this
    range_nonneg := by
      obtain ⟨d, hd⟩ := List.exists_mem_of_ne_nil _ hne
      exact (H.bound_nonneg d.1).trans (hR d hd)
    range := by
      rintro s h _ ⟨ht, a, rfl, ar, ac, av⟩ _ ⟨-, b, rfl, br, bc, bv⟩
      obtain ⟨d, hd, e, -⟩ := hmem s h
      refine le_trans ?_ (hR d hd)
      rw [← e]
      change ∑ k ∈ Finset.range L.m.dim, (L.m.feat s.1 (.discrete a) s.2 k - L.m.feat s.1 (.discrete b) s.2 k) ^ 2 ≤ _
      rw [H.feat, H.feat]
      exact H.range s.1 ht a b ar ac av br bc bv
    cost := by
      refine ⟨fun s => (s.1.d0 : ℚ) * s.1.d1, ?_, ?_⟩
      · rintro s h _ ⟨-, z, rfl, zr, zc, zv⟩
        obtain ⟨d, hd, e, -, -, -, a, ea, ar, ac, ha⟩ := hmem s h
        rw [← e] at ar ac ha
        change L.m.lossOf s.2 (.discrete z) ≤ _
        rw [ea, H.loss_ok ar ac (completes_valid ha) zr zc zv]
        exact wrongPixels_le _ _ _ _ _
      · have e : ((data.map Prod.fst).zip hs).map (fun s => (s.1.d0 : ℚ) * s.1.d1) =
            (((data.map Prod.fst).zip hs).map Prod.fst).map fun t => (t.d0 : ℚ) * t.d1 := by
          rw [List.map_map]
          rfl
        rw [e, List.map_fst_zip (by simp [hlen]), List.map_map]
        exact le_rfl
    confusable := by
      obtain ⟨s, h⟩ := hfirst
      obtain ⟨d, -, e, hcm⟩ := hmem s h
      obtain ⟨z, hz, h1⟩ := H.confusable hpos hL hcm
      rw [← e] at hz
      exact ⟨s, h, z, hz, lt_of_lt_of_le one_pos h1⟩ }

/-- weights of norm at most `ρ`. -/
def ShortW (dim : ℕ) (ρ : ℚ) (w : ℕ → ℚ) : Prop := ∑ k ∈ Finset.range dim, w k * w k ≤ ρ ^ 2

theorem ShortW.abs_le {dim : ℕ} {ρ : ℚ} (hρ : 0 ≤ ρ) {w : ℕ → ℚ} (h : ShortW dim ρ w) {k : ℕ} (hk : k < dim) : |w k| ≤ ρ := by
  refine abs_le_of_sq_le_sq ?_ hρ
  refine le_trans ?_ h
  rw [pow_two]
  exact single_le_sum (f := fun k => w k * w k) (fun k _ => mul_self_nonneg _) (mem_range.mpr hk)

theorem Trainable.short {X H : Type} {M : SModel X H} {outputs : X → Set H} {samples : List (X × H)} {R N C ε ρ : ℚ}
    (h : Trainable M outputs samples R N) (hC : 0 ≤ C) (hρ : 2 * (C * N + ε) ≤ ρ ^ 2) {w : ℕ → ℚ}
    (hw : (problemOf M outputs).NormNear C samples ε w) : ShortW M.dim ρ w := by
  obtain ⟨B, hB, hle⟩ := h.zero hC
  have h1 := hw _ _ hB
  change (∑ k ∈ Finset.range M.dim, w k * w k) / 2 ≤ B + ε at h1
  unfold ShortW
  linarith

theorem ImageLatent.completion (H : ImageLatent L m good sc bound c pred) (data : List (Ten × Grid.NMat))
    (hd : ImageData m good data) {ρ : ℚ} (hρ : 0 ≤ ρ) (hsmall : ∀ d ∈ data, SmallFeatures m.nFeatures ρ c d.1) (w : ℕ → ℚ)
    (hw : ShortW L.m.dim ρ w) :
    (problemOf L.m (imageStates m good)).ExactCompletionAt (imageCompletions m good) L.latent data w := by
  rintro ⟨t, y⟩ hdm
  obtain ⟨ht, hr, hc, hy⟩ := hd _ hdm
  obtain ⟨z, h1, zr, zc, zm, hbest⟩ := H.latent t ht y hr hc hy w ρ hρ (fun k hk => hw.abs_le hρ hk) (hsmall _ hdm)
  simp only [h1]
  refine ⟨⟨ht, hr, hc, z, rfl, zr, zc, zm⟩, ?_⟩
  rintro _ ⟨-, -, -, a, rfl, ar, ac, ha⟩
  rw [H.value_eq ht ar ac (completes_valid ha), H.value_eq ht zr zc (completes_valid zm)]
  exact hbest a.get ha

theorem ImageLatent.init_ok (H : ImageLatent L m good sc bound c pred) (data : List (Ten × Grid.NMat)) (hd : ImageData m good data)
    (hpred : ∀ label k r, label < m.nLabels → pred data label k r < m.nStatesPerLabel.getD label 0) :
    ImagesComplete m good data (L.initLatent data) := by
  obtain ⟨G, h1, h2, h3⟩ := C129_init m.nStatesPerLabel (data.map Prod.snd) (pred data) (by
    intro y hy
    obtain ⟨d, hdm, rfl⟩ := List.mem_map.mp hy
    obtain ⟨-, hr, hc, hv⟩ := hd d hdm
    rw [hr, hc]
    exact hv) hpred
  rw [H.init]
  unfold imageInit
  rw [h1]
  change List.Forall₂ _ data (G.map ImageVal.discrete)
  rw [List.length_map] at h2
  refine List.forall₂_iff_get.mpr ⟨by simp [h2], fun k hk hk' => ?_⟩
  obtain ⟨g1, g2, g3, g4⟩ := hd _ (List.getElem_mem hk)
  obtain ⟨e1, e2, e3⟩ := h3 k (by simpa using hk) (by omega)
  simp only [List.getElem_map] at e1 e2 e3
  simp only [List.get_eq_getElem, List.getElem_map]
  rw [g2] at e1
  rw [g3] at e2
  rw [g2, g3] at e3
  exact ⟨g1, g2, g3, _, rfl, e1, e2, e3⟩

end Verif.Props
