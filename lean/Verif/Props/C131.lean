import Verif.Lemmas.ImageTraining

/-!
# C131: training a `LatentGridCRF` or a `LatentDirectionalGridCRF` with `LatentSSVM`
-/

namespace Verif.Props

open Finset Verif.Common Verif.Spec Verif.Learner Verif.LatentSSVM Verif.LatentGrid Verif.EdgeFeature Verif.Dispatch
open Verif.GraphCRF (Infer)

/-! ### the two classes -/

theorem image_flat {m : LatentGraph.Model} {t : Ten} {z : Grid.NMat} (zr : z.rows = t.d0) (zc : z.cols = t.d1)
    (zv : ValidImage t.d0 t.d1 m.nStates z.get) :
    (flat z).size = t.d0 * t.d1 ∧ Valid (t.d0 * t.d1) m.nStates (flat z).get ∧
      ∀ r < t.d0, ∀ c < t.d1, unflat t (flat z) r c = z.get r c := by
  refine ⟨by change z.rows * z.cols = _; rw [zr, zc], ?_, fun r _ c hc => ?_⟩
  · have := valid_flat (a := z) (S := m.nStates) (by rw [zr, zc]; exact zv)
    rw [zr, zc] at this
    exact this
  · exact flat_get zc hc

/-- **C131 (LatentGridCRF, the problem).** Scores of images of states are those of a grid with pixel features and one table of
couplings, and the loss is the number of pixels whose states belong to different labels. -/
theorem C131_grid_problem (backend : Bool → Infer) (nb : ℕ) (hnb : nb = 4 ∨ nb = 8) (m : LatentGraph.Model)
    (outputs : Ten → Set ImageVal) (t : Ten) (ht : GridFits m.nFeatures t) (h z : Grid.NMat) (hr : h.rows = t.d0)
    (hc : h.cols = t.d1) (hv : ValidImage t.d0 t.d1 m.nStates h.get) (zr : z.rows = t.d0) (zc : z.cols = t.d1)
    (zv : ValidImage t.d0 t.d1 m.nStates z.get) (w : ℕ → ℚ) :
    (problemOf (latentGridModel backend nb m) outputs).value w t (.discrete h) (.discrete z) = gridScore nb m.graph t w z.get ∧
    (problemOf (latentGridModel backend nb m) outputs).loss (.discrete h) (.discrete z) =
      wrongPixels m.nStatesPerLabel t.d0 t.d1 h.get z.get := by
  have hS : 1 ≤ m.nStates := by
    have := zv 0 ht.1 0 ht.2.1
    omega
  obtain ⟨z1, z2, z3⟩ := image_flat zr zc zv
  constructor
  · have := C115_grid_score backend ⟨0, fun _ => 0⟩ nb hnb m.graph hS t ht (flat z) z1 z2 w
    exact this.trans (gridScore_congr z3)
  · have := C129_loss m h z (zr.trans hr.symm) (zc.trans hc.symm) (by rw [hr, hc]; exact hv) (by rw [hr, hc]; exact zv)
    rw [hr, hc] at this
    change okD 0 (LatentGrid.loss m h (.discrete z)) = _
    rw [this]
    rfl

/-- **C131 (LatentDirectionalGridCRF, the problem).** The same with one table of couplings for each direction. -/
theorem C131_directional_problem (backend : Bool → Infer) (m : LatentGraph.Model)
    (outputs : Ten → Set ImageVal) (t : Ten) (ht : GridFits m.nFeatures t) (h z : Grid.NMat) (hr : h.rows = t.d0)
    (hc : h.cols = t.d1) (hv : ValidImage t.d0 t.d1 m.nStates h.get) (zr : z.rows = t.d0) (zc : z.cols = t.d1)
    (zv : ValidImage t.d0 t.d1 m.nStates z.get) (w : ℕ → ℚ) :
    (problemOf (latentDirectionalModel backend 4 m) outputs).value w t (.discrete h) (.discrete z) =
      directionalScore m.nStates m.nFeatures t w z.get ∧
    (problemOf (latentDirectionalModel backend 4 m) outputs).loss (.discrete h) (.discrete z) =
      wrongPixels m.nStatesPerLabel t.d0 t.d1 h.get z.get := by
  obtain ⟨z1, z2, z3⟩ := image_flat zr zc zv
  constructor
  · have := C115_directional_score backend ⟨0, fun _ => 0⟩ m.nStates m.nFeatures t ht (flat z) z1 z2 w
    exact this.trans (directionalScore_congr z3)
  · have := C129_loss m h z (zr.trans hr.symm) (zc.trans hc.symm) (by rw [hr, hc]; exact hv) (by rw [hr, hc]; exact zv)
    rw [hr, hc] at this
    change okD 0 (LatentGrid.loss m h (.discrete z)) = _
    rw [this]
    rfl

theorem image_lossOf (m : LatentGraph.Model) (M : SModel Ten ImageVal) (h1 : M.isTuple = imageTuple) (h2 : M.loss = imageLoss m)
    (h3 : M.continuousLoss = imageContinuousLoss m) (a : Grid.NMat) (o : ImageVal) :
    M.lossOf (.discrete a) o = okD 0 (LatentGrid.loss m a o) := by
  unfold SModel.lossOf
  rw [h1, h2, h3]
  cases o <;> rfl

theorem grid_imageLatent {backend : Bool → Infer} {nb : ℕ} (hnb : nb = 4 ∨ nb = 8) {m : LatentGraph.Model}
    (hpos : ∀ l < m.nLabels, 0 < m.nStatesPerLabel.getD l 0) (hS : 1 ≤ m.nStates) {A : ℕ → Edges → Prop}
    (hdec : Decodes m.nStates A backend) (pred : List (Ten × Grid.NMat) → ℕ → ℕ → ℕ → ℕ) :
    ImageLatent (latentGrid backend nb m pred) m (GridGood nb m.nFeatures A) (gridScore nb m.graph)
      (fun t => featureBound m.graph (gridView nb m.nFeatures t)) (2 * nb) pred where
  plain := rfl
  pos t ht := ⟨ht.1.1, ht.1.2.1⟩
  value t ht z zr zc zv w := by
    obtain ⟨z1, z2, z3⟩ := image_flat zr zc zv
    exact (C115_grid_score backend ⟨0, fun _ => 0⟩ nb hnb m.graph hS t ht.1 (flat z) z1 z2 w).trans (gridScore_congr z3)
  congr t w a b hab := gridScore_congr hab
  lossAug t ht h hr hc hv w := by
    obtain ⟨z, h1, h2⟩ := C129_loss_augmented (backend true) nb hnb m hS A (hdec true) t ht.1 ht.2 h hr hc hv
      ⟨GraphCRF.sizeJointFeature m.graph, w⟩ rfl
    refine ⟨z, ?_, h2⟩
    change okD _ (LatentGrid.lossAugmentedInference (backend true) nb m t h ⟨GraphCRF.sizeJointFeature m.graph, w⟩) = _
    rw [h1]
    rfl
  loss a o := image_lossOf m _ rfl rfl rfl a o
  latent t ht y hr hc hy w ρ hρ hw hsmall := by
    obtain ⟨z, h1, h2⟩ := C129_latent_best (backend false) nb hnb m hpos A (hdec false) t ht.1 ht.2 y hr hc hy
      ⟨GraphCRF.sizeJointFeature m.graph, w⟩ rfl ρ hρ hw hsmall
    refine ⟨z, ?_, h2⟩
    change ImageVal.discrete (okD _ (LatentGrid.latent (backend false) nb m t y ⟨GraphCRF.sizeJointFeature m.graph, w⟩)) = _
    rw [h1]
    rfl
  init _ := rfl
  bound_nonneg t := sum_nonneg fun _ _ => sq_nonneg _
  range t ht y z yr yc yv zr zc zv := by
    obtain ⟨y1, y2, -⟩ := image_flat yr yc yv
    obtain ⟨z1, z2, -⟩ := image_flat zr zc zv
    obtain ⟨E, hE, hin, hx⟩ := gridX_ok hnb ht.1
    have hfit := (gridView_fits (m := m.graph) hnb ht.1).1
    change Fits m.graph (gridView nb m.nFeatures t) at hfit
    rw [gridView_eq hx] at hfit ⊢
    have hjf : ∀ v, EdgeFeature.gridFeature nb m.graph t v = graphFeature m.graph
        ⟨⟨t.d0 * t.d1, m.nFeatures, fun i j => t.ravel.get (i * m.nFeatures + j)⟩, E⟩ v := by
      intro v
      unfold EdgeFeature.gridFeature graphFeature
      change (okD _ (do
        let x ← gridX nb m.nFeatures t
        GraphCRF.jointFeature m.graph x v)).get = _
      rw [hx]
      rfl
    have := graph_range (backend := backend) (cw := ⟨0, fun _ => 0⟩) (m := m.graph) hS (O := labellings m.nStates)
      (fun n e v hv => .inl hv) [(_, .discrete (flat y))] _ (fun s hs => by rw [List.mem_singleton.mp hs]) _ List.mem_cons_self
      (.discrete (flat y)) ⟨hfit, _, rfl, y1, y2⟩ (.discrete (flat z)) ⟨hfit, _, rfl, z1, z2⟩
    change ∑ k ∈ Finset.range (GraphCRF.sizeJointFeature m.graph), (EdgeFeature.gridFeature nb m.graph t (.discrete (flat y)) k -
      EdgeFeature.gridFeature nb m.graph t (.discrete (flat z)) k) ^ 2 ≤ _
    rw [hjf, hjf]
    exact this

theorem directional_imageLatent {backend : Bool → Infer} {m : LatentGraph.Model}
    (hpos : ∀ l < m.nLabels, 0 < m.nStatesPerLabel.getD l 0) (hS : 1 ≤ m.nStates) {A : ℕ → Edges → Prop}
    (hdec : ∀ relaxed, SolvesEdges m.nStates (AllOrNone m.nStates A) (backend relaxed))
    (pred : List (Ten × Grid.NMat) → ℕ → ℕ → ℕ → ℕ) :
    ImageLatent (latentDirectional backend 4 m pred) m (GridGood 4 m.nFeatures A) (directionalScore m.nStates m.nFeatures)
      (fun t => edgeBound (directional 4 m) (directionalView 4 m.nFeatures t)) 8 pred where
  plain := rfl
  pos t ht := ⟨ht.1.1, ht.1.2.1⟩
  value t ht z zr zc zv w := by
    obtain ⟨z1, z2, z3⟩ := image_flat zr zc zv
    exact (C115_directional_score backend ⟨0, fun _ => 0⟩ m.nStates m.nFeatures t ht.1 (flat z) z1 z2 w).trans
      (directionalScore_congr z3)
  congr t w a b hab := directionalScore_congr hab
  lossAug t ht h hr hc hv w := by
    obtain ⟨z, h1, h2⟩ := C129_directional_loss_augmented (backend true) m hS A (hdec true) t ht.1 ht.2 h hr hc hv
      ⟨EdgeFeature.sizeJointFeature (directional 4 m), w⟩ rfl
    refine ⟨z, ?_, h2⟩
    change okD _ (LatentGrid.directionalLossAug (backend true) 4 m t h ⟨EdgeFeature.sizeJointFeature (directional 4 m), w⟩) = _
    rw [h1]
    rfl
  loss a o := image_lossOf m _ rfl rfl rfl a o
  latent t ht y hr hc hy w ρ hρ hw hsmall := by
    obtain ⟨z, h1, h2⟩ := C129_directional_best (backend false) m hpos A (hdec false) t ht.1 ht.2 y hr hc hy
      ⟨EdgeFeature.sizeJointFeature (directional 4 m), w⟩ rfl ρ hρ hw hsmall
    refine ⟨z, ?_, h2⟩
    change ImageVal.discrete (okD _ (LatentGrid.directionalLatent (backend false) 4 m t y
      ⟨EdgeFeature.sizeJointFeature (directional 4 m), w⟩)) = _
    rw [h1]
    rfl
  init _ := rfl
  bound_nonneg t := edgeBound_nonneg _ _
  range t ht y z yr yc yv zr zc zv := by
    obtain ⟨y1, y2, -⟩ := image_flat yr yc yv
    obtain ⟨z1, z2, -⟩ := image_flat zr zc zv
    have hfit := directionalView_fits (S := m.nStates) ht.1
    have hx := directionalX_view ht.1
    have hrows : (directionalView 4 m.nFeatures t).features.rows = t.d0 * t.d1 := by rw [directionalView_eq ht.1]
    generalize directionalView 4 m.nFeatures t = x at hfit hx hrows ⊢
    have hmod : checkModel (directional 4 m) = .ok () := by
      unfold checkModel directional directionalModel
      simp
    obtain ⟨-, h2, -, h3, h4⟩ := id hfit
    have hjf : ∀ v, EdgeFeature.directionalFeature 4 (directional 4 m) t v = edgeFeature (directional 4 m) x v := by
      intro v
      rw [directionalFeature_ok (m := directional 4 m) hx]
      unfold edgeFeature EdgeFeature.jointFeature
      rw [EdgeFeature.checkSizeX_ok (m := directional 4 m) h2 h3 h4, EdgeFeature.checkFeatures_ok (m := directional 4 m) h2]
    have := edge_range (backend := backend) (cw := ⟨0, fun _ => 0⟩) (m := directional 4 m) hmod (O := labellings m.nStates)
      (fun n e v hv => .inl hv) [(x, .discrete (flat y))] _ (fun s hs => by rw [List.mem_singleton.mp hs]) _ List.mem_cons_self
      (.discrete (flat y)) ⟨hfit, _, rfl, y1.trans hrows.symm, by rw [hrows]; exact y2⟩
      (.discrete (flat z)) ⟨hfit, _, rfl, z1.trans hrows.symm, by rw [hrows]; exact z2⟩
    change ∑ k ∈ Finset.range (EdgeFeature.sizeJointFeature (directional 4 m)),
      (EdgeFeature.directionalFeature 4 (directional 4 m) t (.discrete (flat y)) k -
      EdgeFeature.directionalFeature 4 (directional 4 m) t (.discrete (flat z)) k) ^ 2 ≤ _
    rw [hjf, hjf]
    exact this

/-! ### training -/

/-- What the theorems below assume of states, data and initial completions. -/
structure ImageSetup (m : LatentGraph.Model) (good : Ten → Prop) (bound : Ten → ℚ)
    (pred : List (Ten × Grid.NMat) → ℕ → ℕ → ℕ → ℕ) (data : List (Ten × Grid.NMat)) (hInit : Option (List ImageVal)) (R : ℚ) :
    Prop where
  states : ∀ l < m.nLabels, 0 < m.nStatesPerLabel.getD l 0
  labels : 2 ≤ m.nLabels
  ne : data ≠ []
  samples : ImageData m good data
  given : ∀ hs, hInit = some hs → ImagesComplete m good data hs
  clusters : hInit = none → ∀ label k r, label < m.nLabels → pred data label k r < m.nStatesPerLabel.getD label 0
  bound : ∀ d ∈ data, bound d.1 ≤ R

theorem ImageSetup.nStates {m : LatentGraph.Model} {good : Ten → Prop} {bound : Ten → ℚ}
    {pred : List (Ten × Grid.NMat) → ℕ → ℕ → ℕ → ℕ} {data : List (Ten × Grid.NMat)} {hInit : Option (List ImageVal)} {R : ℚ}
    (h : ImageSetup m good bound pred data hInit R) : 1 ≤ m.nStates := by
  have := (first_state h.states (l := 0) (by have := h.labels; omega)).2.2
  omega

/-- What `LatentSSVM` achieves with `OneSlackSSVM`: it returns; the weights of every call of the base learner are optimal for the
completed data up to `C n tol`; the latent objective rises by at most this from call to call; and if the loop ends by itself, the
last completions are those that the weights choose. The features must be so small that `latent` cannot fail. -/
def LatentOneSlackTrains (L : LModel Ten Grid.NMat ImageVal) (m : LatentGraph.Model) (good : Ten → Prop)
    (data : List (Ten × Grid.NMat)) (hInit : Option (List ImageVal)) (R c : ℚ) : Prop :=
  ∀ qp : QP.Solver, QP.Exact qp → QP.Complete qp → ∀ (eq : ImageVal → ImageVal → Except PyErr Bool) (same : ImageVal → ImageVal → Bool)
    (n : ℕ) (o : OneSlack.Obj ImageVal), o.cfg.inferenceCache = 0 → 0 < o.cfg.C → 0 < o.cfg.tol → o.cfg.tol ≤ 1 →
    o.cfg.negativity = none → o.cfg.inactiveThreshold ≤ 1 → o.cfg.breakOnBad = false → o.cfg.inactiveWindow = 0 →
    o.cfg.maxIter ≠ 0 → ∀ μ : ℚ, 0 ≤ μ → 2 * μ ≤ o.cfg.C * data.length * o.cfg.tol → 2 * R * μ ≤ o.cfg.tol ^ 2 →
    o.cfg.C * pixelCount data < ((o.cfg.maxIter : ℚ) - 1) * μ → ∀ ρ : ℚ, 0 ≤ ρ →
    2 * (o.cfg.C * pixelCount data + o.cfg.C * data.length * o.cfg.tol) ≤ ρ ^ 2 →
    (∀ d ∈ data, SmallFeatures m.nFeatures ρ c d.1) →
    ∃ st fl, LatentSSVM.fit L (oneSlackBase L.m qp eq) same (n + 1) o data hInit = .ok (st, fl) ∧
      LatentDescent L (oneSlackBase L.m qp eq) same (problemOf L.m (imageStates m good)) o.cfg.C (o.cfg.C * data.length * o.cfg.tol)
        data (imageCompletions m good) (n + 1) st fl ∧
      ∀ a ∈ st.hist, (problemOf L.m (imageStates m good)).NearOptimal o.cfg.C ((data.map Prod.fst).zip a.1)
        (o.cfg.C * data.length * o.cfg.tol) ((oneSlackBase (X := Ten) L.m qp eq).w a.2)

/-- What `LatentSSVM` achieves with `NSlackSSVM`: although the base learner ignores outputs without loss, the latent objective rises
by at most `2 C n δ` from call to call. -/
def LatentNSlackTrains (L : LModel Ten Grid.NMat ImageVal) (m : LatentGraph.Model) (good : Ten → Prop)
    (data : List (Ten × Grid.NMat)) (hInit : Option (List ImageVal)) (R c : ℚ) : Prop :=
  ∀ qp : QP.Solver, QP.Exact qp → QP.Complete qp → ∀ (same : ImageVal → ImageVal → Bool) (n : ℕ) (o : NSlack.Obj ImageVal),
    0 < o.cfg.C → 0 < o.cfg.tol → o.cfg.negativity = none → o.cfg.breakOnBad = false →
    o.cfg.batchSize = -1 ∨ 0 < o.cfg.batchSize → o.cfg.inactiveWindow = 0 → o.cfg.maxIter ≠ 0 →
    ∀ δ : ℚ, 1 / 10 ^ 5 ≤ δ → 2 * o.cfg.tol ≤ o.cfg.C * δ → 2 * R * o.cfg.tol ≤ δ ^ 2 →
    o.cfg.C * pixelCount data < ((o.cfg.maxIter : ℚ) - 2) * o.cfg.tol → ∀ ρ : ℚ, 0 ≤ ρ →
    2 * (o.cfg.C * pixelCount data + 2 * o.cfg.C * data.length * δ) ≤ ρ ^ 2 →
    (∀ d ∈ data, SmallFeatures m.nFeatures ρ c d.1) →
    ∃ st fl, LatentSSVM.fit L (nSlackBase L.m qp imageEq) same (n + 1) o data hInit = .ok (st, fl) ∧
      LatentDescent L (nSlackBase L.m qp imageEq) same (problemOf L.m (imageStates m good)) o.cfg.C
        (2 * o.cfg.C * data.length * δ) data (imageCompletions m good) (n + 1) st fl

section Generic

variable {L : LModel Ten Grid.NMat ImageVal} {m : LatentGraph.Model} {good : Ten → Prop} {sc : Ten → (ℕ → ℚ) → (ℕ → ℕ → ℕ) → ℚ}
  {bound : Ten → ℚ} {c : ℚ} {pred : List (Ten × Grid.NMat) → ℕ → ℕ → ℕ → ℕ} {data : List (Ten × Grid.NMat)}
  {hInit : Option (List ImageVal)} {R : ℚ}

theorem ImageSetup.init (h : ImageSetup m good bound pred data hInit R) (H : ImageLatent L m good sc bound c pred) :
    ImagesComplete m good data (hInit.getD (L.initLatent data)) := by
  cases hI : hInit with
  | none => exact H.init_ok data h.samples (h.clusters hI)
  | some hs => exact h.given hs hI

theorem image_one_slack (h : ImageSetup m good bound pred data hInit R) (H : ImageLatent L m good sc bound c pred) :
    LatentOneSlackTrains L m good data hInit R c := by
  intro qp hqp hcomp eq same n o hcache hC htol htol1 hneg hthr hbr hwin hmi μ hμ hμ1 hμ2 hmax ρ hρ hρ2 hsmall
  have htr := fun hs (hc : ImagesComplete m good data hs) => H.trainable h.states h.labels data h.ne R h.bound hc
  exact C121_one_slack L qp hqp hcomp eq same n data hInit _ (imageCompletions m good) (H.labelOnly data) (ShortW L.m.dim ρ)
    (fun w hw => H.completion data h.samples hρ hsmall w hw) (h.init H) R (pixelCount data) htr o
    (fun hs hc w hw => (htr hs hc).short hC.le hρ2 hw) hcache hC htol htol1 hneg hthr hbr hwin hmi μ hμ hμ1 hμ2 hmax

theorem image_n_slack (h : ImageSetup m good bound pred data hInit R) (H : ImageLatent L m good sc bound c pred) :
    LatentNSlackTrains L m good data hInit R c := by
  intro qp hqp hcomp same n o hC htol hneg hbr hbat hwin hmi δ hδ h1 h2 hmax ρ hρ hρ2 hsmall
  have htr := fun hs (hc : ImagesComplete m good data hs) => H.trainable h.states h.labels data h.ne R h.bound hc
  refine C121_n_slack L qp hqp hcomp imageEq same n data hInit _ (imageCompletions m good) (H.labelOnly data) (ShortW L.m.dim ρ)
    (fun w hw => H.completion data h.samples hρ hsmall w hw) ?_ (h.init H) R (pixelCount data) htr ?_ ?_ o hC htol hneg hbr hbat hwin
    hmi δ hδ h1 h2 hmax (fun hs hc w hw => (htr hs hc).short hC.le hρ2 hw)
  · rintro ⟨t, y⟩ - _ ⟨ht, yr, yc, a, rfl, ar, ac, ha⟩ _ ⟨-, z, rfl, zr, zc, zv⟩ hle
    change L.m.lossOf (.discrete a) (.discrete z) ≤ 0 at hle
    rw [H.loss_ok ar ac (completes_valid ha) zr zc zv] at hle
    exact ⟨ht, yr, yc, z, rfl, zr, zc, completes_of_right ha hle⟩
  · rintro hs hc s hsm _ ⟨ht, a, rfl, ar, ac, av⟩ _ ⟨-, b, rfl, br, bc, bv⟩ hab
    have hag : ∀ r < s.1.d0, ∀ q < s.1.d1, a.get r q = b.get r q := by
      unfold imageEq at hab
      simp only [decide_eq_true_eq] at hab
      exact fun r hr q hq => hab.2.2 r (by omega) q (by omega)
    obtain ⟨d, -, e, -, -, -, z, ez, zr, zc, hz⟩ := images_mem hc hsm
    rw [← e] at zr zc hz
    refine ⟨?_, fun k hk => ?_⟩
    · rw [ez, H.loss_ok zr zc (completes_valid hz) ar ac av, H.loss_ok zr zc (completes_valid hz) br bc bv]
      exact wrongPixels_congr hag
    · rw [H.feat, H.feat]
      exact H.feature_congr ht ar ac av br bc bv hag hk
  · obtain ⟨d, hd⟩ := List.exists_mem_of_ne_nil _ h.ne
    refine ⟨d, hd, fun g hg => ?_⟩
    obtain ⟨z, hz, h1⟩ := H.confusable h.states h.labels hg
    exact ⟨z, hz, le_trans (by norm_num) h1⟩

end Generic

/-- **C131 (LatentGridCRF).** With an inference method that finds the best states of grids, `LatentSSVM` trains a `LatentGridCRF` with
4 or 8 neighbours with either cutting-plane learner. -/
theorem C131_grid (backend : Bool → Infer) (nb : ℕ) (hnb : nb = 4 ∨ nb = 8) (m : LatentGraph.Model) (A : ℕ → Edges → Prop)
    (hdec : Decodes m.nStates A backend) (pred : List (Ten × Grid.NMat) → ℕ → ℕ → ℕ → ℕ) (data : List (Ten × Grid.NMat))
    (hInit : Option (List ImageVal)) (R : ℚ)
    (h : ImageSetup m (GridGood nb m.nFeatures A) (fun t => featureBound m.graph (gridView nb m.nFeatures t)) pred data hInit R) :
    LatentOneSlackTrains (latentGrid backend nb m pred) m (GridGood nb m.nFeatures A) data hInit R (2 * nb) ∧
    LatentNSlackTrains (latentGrid backend nb m pred) m (GridGood nb m.nFeatures A) data hInit R (2 * nb) :=
  ⟨image_one_slack h (grid_imageLatent hnb h.states h.nStates hdec pred),
    image_n_slack h (grid_imageLatent hnb h.states h.nStates hdec pred)⟩

/-- **C131 (LatentDirectionalGridCRF).** 4-neighbourhood, the only one that the constructor accepts (C89). -/
theorem C131_directional (backend : Bool → Infer) (m : LatentGraph.Model) (A : ℕ → Edges → Prop)
    (hdec : ∀ relaxed, SolvesEdges m.nStates (AllOrNone m.nStates A) (backend relaxed))
    (pred : List (Ten × Grid.NMat) → ℕ → ℕ → ℕ → ℕ) (data : List (Ten × Grid.NMat))
    (hInit : Option (List ImageVal)) (R : ℚ)
    (h : ImageSetup m (GridGood 4 m.nFeatures A) (fun t => edgeBound (directional 4 m) (directionalView 4 m.nFeatures t)) pred data
      hInit R) :
    LatentOneSlackTrains (latentDirectional backend 4 m pred) m (GridGood 4 m.nFeatures A) data hInit R 8 ∧
    LatentNSlackTrains (latentDirectional backend 4 m pred) m (GridGood 4 m.nFeatures A) data hInit R 8 :=
  ⟨image_one_slack h (directional_imageLatent h.states h.nStates hdec pred),
    image_n_slack h (directional_imageLatent h.states h.nStates hdec pred)⟩

/-! ### an image of two by three pixels -/

/-- the image of C115 with the labels of C129. -/
def latentImageData : List (Ten × Grid.NMat) := [(gridImage, latentImageLabels)]

theorem latentImage_setup : ImageSetup latentImageModel (GridGood 8 1 fun _ _ => True)
    (fun t => featureBound latentImageModel.graph (gridView 8 1 t)) (fun _ _ _ _ => 0) latentImageData none 3000 where
  states := latentImage_pos
  labels := by decide
  ne := by decide
  samples := by
    intro d hd
    rw [latentImageData, List.mem_singleton] at hd
    subst hd
    exact ⟨⟨latentImage_fits, fun _ _ => trivial⟩, rfl, rfl, latentImage_valid⟩
  given := by
    intro hs h
    cases h
  clusters := by
    intro _ label k r hl
    change label < 2 at hl
    change 0 < [2, 1].getD label 0
    interval_cases label <;> decide
  bound := by
    intro d hd
    rw [latentImageData, List.mem_singleton] at hd
    subst hd
    unfold featureBound
    decide +kernel

theorem latentImage_directional_setup : ImageSetup latentImageModel (GridGood 4 1 fun _ _ => True)
    (fun t => edgeBound (directional 4 latentImageModel) (directionalView 4 1 t)) (fun _ _ _ _ => 0) latentImageData none 400 where
  states := latentImage_pos
  labels := by decide
  ne := by decide
  samples := by
    intro d hd
    rw [latentImageData, List.mem_singleton] at hd
    subst hd
    exact ⟨⟨latentImage_fits, fun _ _ => trivial⟩, rfl, rfl, latentImage_valid⟩
  given := by
    intro hs h
    cases h
  clusters := latentImage_setup.clusters
  bound := by
    intro d hd
    rw [latentImageData, List.mem_singleton] at hd
    subst hd
    unfold edgeBound
    decide +kernel

/-- one-slack learner of the example, 10 ^ 7 iterations with tolerance 1/10. -/
def latentImageOS : OneSlack.Obj ImageVal :=
  ⟨⟨10000000, 1, false, none, false, 0, 1 / 10, 0, 1 / 10 ^ 5, 0, .auto⟩, none, []⟩

/-- n-slack learner of the example, 10 ^ 8 iterations with tolerance 10 ^ (-6). -/
def latentImageNS : NSlack.Obj ImageVal :=
  ⟨⟨100000000, 1, false, none, false, 0, -1, 1 / 10 ^ 6, 1 / 10 ^ 5, 0⟩, none, []⟩

theorem latentImage_small : ∀ d ∈ latentImageData, SmallFeatures 1 4 (2 * (8 : ℕ)) d.1 := by
  intro d hd
  rw [latentImageData, List.mem_singleton] at hd
  subst hd
  unfold SmallFeatures
  decide +kernel

theorem latentImage_small' : ∀ d ∈ latentImageData, SmallFeatures 1 4 8 d.1 := by
  intro d hd
  rw [latentImageData, List.mem_singleton] at hd
  subst hd
  unfold SmallFeatures
  decide +kernel

/-- an exact AD3 and an exact QP solver, 8 neighbours and 4 neighbours with directions. -/
example (n : ℕ) : ∃ P : Packages,
    (∃ st fl, LatentSSVM.fit (latentGrid (backend P (.name "ad3")) 8 latentImageModel fun _ _ _ _ => 0)
      (oneSlackBase (latentGridModel (backend P (.name "ad3")) 8 latentImageModel) QP.ideal fun a b => .ok (imageEq a b)) imageEq
        (n + 1) latentImageOS latentImageData none = .ok (st, fl)) ∧
    (∃ st fl, LatentSSVM.fit (latentDirectional (backend P (.name "ad3")) 4 latentImageModel fun _ _ _ _ => 0)
      (nSlackBase (latentDirectionalModel (backend P (.name "ad3")) 4 latentImageModel) QP.ideal imageEq) imageEq
        (n + 1) latentImageNS latentImageData none = .ok (st, fl)) := by
  obtain ⟨solve, hs⟩ := exact_ad3_exists
  let P : Packages := { idealPackages with ad3 := some (solve, fun U edges _ _ r => solve U edges ⟨0, 0, 0, fun _ _ _ => 0⟩ r) }
  refine ⟨P, ?_, ?_⟩
  · obtain ⟨st, fl, h, -⟩ := (C131_grid (backend P (.name "ad3")) 8 (.inr rfl) latentImageModel (fun _ _ => True)
      (C128_ad3 P (by decide) rfl hs) (fun _ _ _ _ => 0) latentImageData none 3000 latentImage_setup).1 QP.ideal QP.ideal_exact.1
      QP.ideal_exact.2 (fun a b => .ok (imageEq a b)) imageEq n latentImageOS rfl (by decide +kernel) (by decide +kernel)
      (by decide +kernel) rfl (by decide +kernel) rfl rfl (by decide +kernel) (1 / 10 ^ 6) (by norm_num) (by decide +kernel)
      (by decide +kernel) (by decide +kernel) 4 (by norm_num) (by decide +kernel) latentImage_small
    exact ⟨st, fl, h⟩
  · obtain ⟨st, fl, h, -⟩ := (C131_directional (backend P (.name "ad3")) latentImageModel (fun _ _ => True)
      (fun r => ad3_decodes_edges P (by decide) rfl hs r) (fun _ _ _ _ => 0) latentImageData none 400
      latentImage_directional_setup).2 QP.ideal QP.ideal_exact.1
      QP.ideal_exact.2 imageEq n latentImageNS (by decide +kernel) (by decide +kernel) rfl rfl (.inl rfl) rfl
      (by decide +kernel) (1 / 10) (by norm_num) (by decide +kernel) (by decide +kernel) (by decide +kernel) 4 (by norm_num)
      (by decide +kernel) latentImage_small'
    exact ⟨st, fl, h⟩

/-- two images of states that differ in two pixels, one of which keeps its label. -/
example (w : ℕ → ℚ) : (problemOf (latentGridModel (fun _ _ _ _ => .error .valueError) 8 latentImageModel) fun _ => ∅).loss
      (.discrete ⟨2, 3, fun _ _ => 0⟩) (.discrete ⟨2, 3, fun r c => if c = 0 then r + 1 else 0⟩) = 1 ∧
    (problemOf (latentDirectionalModel (fun _ _ _ _ => .error .valueError) 4 latentImageModel) fun _ => ∅).loss
      (.discrete ⟨2, 3, fun _ _ => 0⟩) (.discrete ⟨2, 3, fun r c => if c = 0 then r + 1 else 0⟩) = 1 := by
  have e : wrongPixels [2, 1] 2 3 (fun _ _ => 0) (fun r c => if c = 0 then r + 1 else 0) = 1 := by
    unfold wrongPixels
    decide +kernel
  constructor
  · have := (C131_grid_problem (fun _ _ _ _ => .error .valueError) 8 (.inr rfl) latentImageModel (fun _ => ∅) gridImage latentImage_fits
      ⟨2, 3, fun _ _ => 0⟩ ⟨2, 3, fun r c => if c = 0 then r + 1 else 0⟩ rfl rfl (show ValidImage 2 3 3 _ by unfold ValidImage; decide)
      rfl rfl (show ValidImage 2 3 3 _ by unfold ValidImage; decide) w).2
    exact this.trans e
  · have := (C131_directional_problem (fun _ _ _ _ => .error .valueError) latentImageModel (fun _ => ∅) gridImage latentImage_fits
      ⟨2, 3, fun _ _ => 0⟩ ⟨2, 3, fun r c => if c = 0 then r + 1 else 0⟩ rfl rfl (show ValidImage 2 3 3 _ by unfold ValidImage; decide)
      rfl rfl (show ValidImage 2 3 3 _ by unfold ValidImage; decide) w).2
    exact this.trans e

end Verif.Props
