import Verif.Lemmas.LatentTraining
import Verif.Props.C91
import Verif.Props.C88
import Verif.Props.C121

/-!
# C128: training a `LatentGraphCRF` with `LatentSSVM`
-/

namespace Verif.Props

open Finset Verif.Common Verif.Spec Verif.Learner Verif.LatentSSVM Verif.Dispatch Verif.MaxProd
open Verif.GraphCRF (Infer)

/-- The inference method finds the best latent labelling of every graph with `A`, whether asked for relaxed results or
not. -/
def Decodes (S : ℕ) (A : ℕ → Edges → Prop) (backend : Bool → Infer) : Prop :=
  ∀ relaxed, SolvesOver S (AllOrNone S A) (backend relaxed)

/-- An exact AD3 on arbitrary graphs. -/
theorem C128_ad3 (P : Packages) {S : ℕ} (hS : 1 ≤ S) {solve solve'} (hP : P.ad3 = some (solve, solve'))
    (hex : Ad3AlwaysExact solve) : Decodes S (fun _ _ => True) (backend P (.name "ad3")) := by
  intro relaxed n edges hn hE hne U Q
  obtain ⟨v, h1, h2, h3⟩ := ad3_exact_solves P hS hP hex relaxed n edges hn hE (by
    obtain ⟨v, -, h⟩ := hne
    exact ⟨v, h⟩) U Q
  exact ⟨v, ⟨trivial, h1⟩, h2, fun z hz => h3 z hz.2⟩

/-- Max-product on chains. -/
theorem C128_chain (opts : Opts) {S : ℕ} (hS : 1 ≤ S) :
    Decodes S (fun n edges => edges = chainEdges n) fun _ => maxProductInfer opts :=
  fun _ => chain_solves opts hS

/-- The learning problem that a `LatentGraphCRF` poses, in its own terms: scores of latent labellings are those of a
graph with node features and couplings, and the loss is the number of vertices whose states belong to different labels. -/
theorem C128_problem (backend : Bool → Infer) (m : LatentGraph.Model) (outputs : GraphCRF.X → Set YVal) (x : GraphCRF.X)
    (hx : Fits m.graph x) (h g : Labels) (hs : h.size = x.features.rows) (hv : Valid x.features.rows m.nStates h.get)
    (gs : g.size = x.features.rows) (gv : Valid x.features.rows m.nStates g.get) (w : ℕ → ℚ) :
    (problemOf (latentGraphModel backend m) outputs).value w x (.discrete h) (.discrete g) =
      graphScore m.nStates m.nFeatures m.directed x.features.get x.features.rows x.edges w g.get ∧
    ∃ D : Finset ℕ, (∀ i, i ∈ D ↔ i < x.features.rows ∧ Differ m.nStatesPerLabel h g i) ∧
      (problemOf (latentGraphModel backend m) outputs).loss (.discrete h) (.discrete g) = D.card := by
  have hS : 1 ≤ m.nStates := by
    have := hv 0 hx.1
    omega
  refine ⟨?_, (range x.features.rows).filter (fun i => labelOf m (h.get i) ≠ labelOf m (g.get i)), fun i => ?_, ?_⟩
  · rw [latent_value hx hS gs gv]
    exact score_eq_graphScore m.graph x.features x.edges w g.get
  · rw [mem_filter, mem_range]
    refine and_congr_right fun hi => ⟨fun hne l hl ⟨h1, h2⟩ => hne ?_, fun hD heq => ?_⟩
    · rw [(labelOf_owns hl h1).1, (labelOf_owns hl h2).1]
    · obtain ⟨a1, a2⟩ := labelOf_spec (hv i hi)
      obtain ⟨-, b2⟩ := labelOf_spec (gv i hi)
      exact hD _ a1 ⟨a2, heq ▸ b2⟩
  · change (latentGraphModel backend m).lossOf (.discrete h) (.discrete g) = _
    rw [latent_loss_ok hs hv gs gv, card_filter]
    push_cast
    exact sum_congr rfl fun i _ => by by_cases hc : labelOf m (h.get i) = labelOf m (g.get i) <;> simp [hc]

/-- What the theorems below assume of model, data and initial completions. -/
structure LatentSetup (backend : Bool → Infer) (m : LatentGraph.Model)
    (pred : List (GraphCRF.X × Labels) → ℕ → ℕ → ℕ → ℕ) (A : ℕ → Edges → Prop) (data : List (GraphCRF.X × Labels))
    (hInit : Option (List YVal)) (R : ℚ) : Prop where
  states : ∀ l < m.nLabels, 0 < m.nStatesPerLabel.getD l 0
  labels : 2 ≤ m.nLabels
  decodes : Decodes m.nStates A backend
  ne : data ≠ []
  samples : LatentData m.nStatesPerLabel m.nFeatures data
  graphs : ∀ d ∈ data, A d.1.features.rows d.1.edges
  given : ∀ hs, hInit = some hs → List.Forall₂ (fun d h => Completes m.nStatesPerLabel d.1.features.rows d.2 h) data hs
  clusters : hInit = none → ∀ label k r, label < m.nLabels → pred data label k r < m.nStatesPerLabel.getD label 0
  bound : ∀ d ∈ data, featureBound m.graph d.1 ≤ R

theorem LatentSetup.init {backend : Bool → Infer} {m : LatentGraph.Model}
    {pred : List (GraphCRF.X × Labels) → ℕ → ℕ → ℕ → ℕ} {A : ℕ → Edges → Prop} {data : List (GraphCRF.X × Labels)}
    {hInit : Option (List YVal)} {R : ℚ} (h : LatentSetup backend m pred A data hInit R) :
    CompletedBy m A data (hInit.getD ((latentGraph backend m pred).initLatent data)) := by
  cases hI : hInit with
  | none => exact latent_init h.samples h.graphs (h.clusters hI)
  | some hs =>
    have h1 := h.given hs hI
    change List.Forall₂ _ data hs
    refine List.forall₂_iff_get.mpr ⟨h1.length_eq, fun k hk hk' => ?_⟩
    obtain ⟨g1, g2, g3, g4, -⟩ := h.samples _ (List.getElem_mem hk)
    exact ⟨⟨g1, g2, g3⟩, h.graphs _ (List.getElem_mem hk), g4, (List.forall₂_iff_get.mp h1).2 k hk hk'⟩

/-- **C128, OneSlackSSVM as base learner.** `LatentSSVM` returns; the weights of every call of the base learner are optimal for
the completed data up to `C n tol`; the latent objective rises by at most this from call to call; and if the loop ends by
itself, the last completions are those that the weights choose. The features must be so small that `latent` cannot fail,
see `hsmall`. -/
theorem C128_one_slack (backend : Bool → Infer) (m : LatentGraph.Model)
    (pred : List (GraphCRF.X × Labels) → ℕ → ℕ → ℕ → ℕ) (A : ℕ → Edges → Prop) (data : List (GraphCRF.X × Labels))
    (hInit : Option (List YVal)) (R : ℚ) (hset : LatentSetup backend m pred A data hInit R)
    (qp : QP.Solver) (hqp : QP.Exact qp) (hcomp : QP.Complete qp) (eq : YVal → YVal → Except PyErr Bool)
    (same : YVal → YVal → Bool) (n : ℕ) (o : OneSlack.Obj YVal) (hcache : o.cfg.inferenceCache = 0) (hC : 0 < o.cfg.C)
    (htol : 0 < o.cfg.tol) (htol1 : o.cfg.tol ≤ 1) (hneg : o.cfg.negativity = none) (hthr : o.cfg.inactiveThreshold ≤ 1)
    (hbr : o.cfg.breakOnBad = false) (hwin : o.cfg.inactiveWindow = 0) (hmi : o.cfg.maxIter ≠ 0) (μ : ℚ) (hμ : 0 ≤ μ)
    (hμ1 : 2 * μ ≤ o.cfg.C * data.length * o.cfg.tol) (hμ2 : 2 * R * μ ≤ o.cfg.tol ^ 2)
    (hmax : o.cfg.C * nodeCount data < ((o.cfg.maxIter : ℚ) - 1) * μ) (ρ : ℚ) (hρ : 0 ≤ ρ)
    (hρ2 : 2 * (o.cfg.C * nodeCount data + o.cfg.C * data.length * o.cfg.tol) ≤ ρ ^ 2)
    (hsmall : ∀ d ∈ data, ∀ i < d.1.features.rows,
      ρ * (∑ f ∈ range m.nFeatures, |d.1.features.get i f| + 2 * degree d.1.edges i) < 100) :
    let L := latentGraph backend m pred
    let P := problemOf L.m (outputsOver m.graph (AllOrNone m.nStates A))
    ∃ st fl, LatentSSVM.fit L (oneSlackBase L.m qp eq) same (n + 1) o data hInit = .ok (st, fl) ∧
      LatentDescent L (oneSlackBase L.m qp eq) same P o.cfg.C (o.cfg.C * data.length * o.cfg.tol)
        data (latentCompletions m A) (n + 1) st fl ∧
      ∀ a ∈ st.hist, P.NearOptimal o.cfg.C ((data.map Prod.fst).zip a.1)
        (o.cfg.C * data.length * o.cfg.tol) ((oneSlackBase (X := GraphCRF.X) L.m qp eq).w a.2) := by
  have htr := fun hs (hc : CompletedBy m A data hs) =>
    latent_trainable (backend := backend) hset.states hset.labels (hset.decodes true) data hset.ne R hset.bound hc
  exact C121_one_slack (latentGraph backend m pred) qp hqp hcomp eq same n data hInit _ (latentCompletions m A)
    (latent_labelOnly data) (Short m ρ)
    (fun w hw => latent_completion pred hset.states (by have := hset.labels; omega) (hset.decodes false) data hset.samples
      hset.graphs hρ hsmall w hw) hset.init R (nodeCount data) htr o
    (fun hs hc w hw => latent_short (htr hs hc) hC.le hρ2 hw) hcache hC htol htol1 hneg hthr hbr hwin hmi μ hμ hμ1 hμ2 hmax

/-- **C128, NSlackSSVM as base learner.** Although `NSlackSSVM` ignores outputs without loss, the latent objective rises by at most
`2 C n δ` from call to call. -/
theorem C128_n_slack (backend : Bool → Infer) (m : LatentGraph.Model)
    (pred : List (GraphCRF.X × Labels) → ℕ → ℕ → ℕ → ℕ) (A : ℕ → Edges → Prop) (data : List (GraphCRF.X × Labels))
    (hInit : Option (List YVal)) (R : ℚ) (hset : LatentSetup backend m pred A data hInit R)
    (qp : QP.Solver) (hqp : QP.Exact qp) (hcomp : QP.Complete qp) (same : YVal → YVal → Bool) (n : ℕ) (o : NSlack.Obj YVal)
    (hC : 0 < o.cfg.C) (htol : 0 < o.cfg.tol) (hneg : o.cfg.negativity = none) (hbr : o.cfg.breakOnBad = false)
    (hbat : o.cfg.batchSize = -1 ∨ 0 < o.cfg.batchSize) (hwin : o.cfg.inactiveWindow = 0) (hmi : o.cfg.maxIter ≠ 0)
    (δ : ℚ) (hδ : 1 / 10 ^ 5 ≤ δ) (h1 : 2 * o.cfg.tol ≤ o.cfg.C * δ) (h2 : 2 * R * o.cfg.tol ≤ δ ^ 2)
    (hmax : o.cfg.C * nodeCount data < ((o.cfg.maxIter : ℚ) - 2) * o.cfg.tol) (ρ : ℚ) (hρ : 0 ≤ ρ)
    (hρ2 : 2 * (o.cfg.C * nodeCount data + 2 * o.cfg.C * data.length * δ) ≤ ρ ^ 2)
    (hsmall : ∀ d ∈ data, ∀ i < d.1.features.rows,
      ρ * (∑ f ∈ range m.nFeatures, |d.1.features.get i f| + 2 * degree d.1.edges i) < 100) :
    let L := latentGraph backend m pred
    ∃ st fl, LatentSSVM.fit L (nSlackBase L.m qp graphEq) same (n + 1) o data hInit = .ok (st, fl) ∧
      LatentDescent L (nSlackBase L.m qp graphEq) same (problemOf L.m (outputsOver m.graph (AllOrNone m.nStates A))) o.cfg.C
        (2 * o.cfg.C * data.length * δ) data (latentCompletions m A) (n + 1) st fl := by
  have htr := fun hs (hc : CompletedBy m A data hs) =>
    latent_trainable (backend := backend) hset.states hset.labels (hset.decodes true) data hset.ne R hset.bound hc
  have hS : 1 ≤ m.nStates := by
    have := (first_state hset.states (l := 0) (by have := hset.labels; omega)).2.2
    omega
  refine C121_n_slack (latentGraph backend m pred) qp hqp hcomp graphEq same n data hInit _ (latentCompletions m A)
    (latent_labelOnly data) (Short m ρ)
    (fun w hw => latent_completion pred hset.states (by have := hset.labels; omega) (hset.decodes false) data hset.samples
      hset.graphs hρ hsmall w hw) ?_ hset.init R (nodeCount data) htr ?_ ?_ o hC htol hneg hbr hbat hwin hmi δ hδ h1 h2 hmax
    (fun hs hc w hw => latent_short (htr hs hc) hC.le hρ2 hw)
  · rintro ⟨x, y⟩ - h ⟨hx, hA, hys, hc⟩ z ⟨-, -, z, rfl, zs, zv⟩ hle
    obtain ⟨t, rfl, -, hc2⟩ := id hc
    obtain ⟨ts, tv, tl⟩ := completes_labels hc
    refine ⟨hx, hA, hys, z, rfl, zs, fun i hi => ⟨(hc2 i hi).1, ?_⟩⟩
    change (latentGraphModel backend m).lossOf (.discrete t) (.discrete z) ≤ 0 at hle
    rw [latent_loss_ok ts tv zs zv] at hle
    have h0 := (sum_eq_zero_iff_of_nonneg (fun i _ => by split <;> norm_num)).mp
      (le_antisymm hle (sum_nonneg fun i _ => by split <;> norm_num)) i (mem_range.mpr hi)
    have heq : labelOf m (t.get i) = labelOf m (z.get i) := by
      by_contra hne
      rw [if_neg hne] at h0
      norm_num at h0
    rw [← tl i hi, heq]
    exact (labelOf_spec (zv i hi)).2
  · intro hs hc s hsm a ha b hb hab
    obtain ⟨hx, -, a, rfl, as, av⟩ := ha
    obtain ⟨-, -, b, rfl, bs, bv⟩ := hb
    have hag : ∀ i < s.1.features.rows, a.get i = b.get i := by
      unfold graphEq at hab
      simp only [decide_eq_true_eq] at hab
      exact fun i hi => hab.2 i (by omega)
    obtain ⟨d, -, e, hx', hA, hys, hcm⟩ := completed_mem hc hsm
    obtain ⟨t, et, -⟩ := id hcm
    rw [et, ← e] at hcm
    obtain ⟨ts, tv, -⟩ := completes_labels hcm
    refine ⟨?_, fun k _ => congrFun (graphFeature_congr (m := m.graph) hx hS ⟨a, rfl, as, av⟩ ⟨b, rfl, bs, bv⟩ hag) k⟩
    change (latentGraphModel backend m).lossOf s.2 (.discrete a) = (latentGraphModel backend m).lossOf s.2 (.discrete b)
    rw [et, latent_loss_ok ts tv as av, latent_loss_ok ts tv bs bv]
    exact sum_congr rfl fun i hi => by rw [hag i (mem_range.mp hi)]
  · obtain ⟨d, hd⟩ := List.exists_mem_of_ne_nil _ hset.ne
    refine ⟨d, hd, fun h hh => ?_⟩
    obtain ⟨z, hz, h1⟩ := latent_confusable (backend := backend) hset.states hset.labels hh
    exact ⟨z, hz, le_trans (by norm_num) h1⟩

/-! ### a chain of two vertices: label 0 has two states, label 1 has one -/

/-- two labels with two states and one state, one feature. -/
def latentTwoOne : LatentGraph.Model := ⟨[2, 1], 1, false⟩

/-- one chain of two vertices with features 1 and 2 and labels 0 and 1. -/
def latentTwoOneData : List (GraphCRF.X × Labels) :=
  [(⟨⟨2, 1, fun i _ => i + 1⟩, chainEdges 2⟩, ⟨2, fun i => i⟩)]

theorem latentTwoOne_setup : LatentSetup (fun _ => maxProductInfer {}) latentTwoOne (fun _ _ _ _ => 0)
    (fun n edges => edges = chainEdges n) latentTwoOneData none 51 where
  states := by decide
  labels := by decide
  decodes := C128_chain {} (by decide)
  ne := by decide
  samples := by
    intro d hd
    rw [latentTwoOneData, List.mem_singleton] at hd
    subst hd
    exact ⟨by decide, rfl, by unfold EdgesIn; decide, rfl, by decide⟩
  graphs := by
    intro d hd
    rw [latentTwoOneData, List.mem_singleton] at hd
    subst hd
    rfl
  given := by
    intro hs h
    cases h
  clusters := by
    intro _ label k r hl
    change label < 2 at hl
    change 0 < [2, 1].getD label 0
    interval_cases label <;> decide
  bound := by
    intro d hd
    rw [latentTwoOneData, List.mem_singleton] at hd
    subst hd
    unfold featureBound
    decide +kernel

theorem latentTwoOne_small : ∀ d ∈ latentTwoOneData, ∀ i < d.1.features.rows,
    (3 : ℚ) * (∑ f ∈ range latentTwoOne.nFeatures, |d.1.features.get i f| + 2 * degree d.1.edges i) < 100 := by
  decide +kernel

/-- one-slack learner of the example, 30000 iterations with tolerance 1/10. -/
def latentTwoOneOS : OneSlack.Obj YVal :=
  ⟨⟨30000, 1, false, none, false, 0, 1 / 10, 0, 1 / 10 ^ 5, 0, .auto⟩, none, []⟩

/-- n-slack learner of the example, 10 ^ 6 iterations with tolerance 1/100000. -/
def latentTwoOneNS : NSlack.Obj YVal :=
  ⟨⟨1000000, 1, false, none, false, 0, -1, 1 / 100000, 1 / 10 ^ 5, 0⟩, none, []⟩

example (n : ℕ) : ∃ st fl, LatentSSVM.fit (latentGraph (fun _ => maxProductInfer {}) latentTwoOne fun _ _ _ _ => 0)
    (oneSlackBase (latentGraphModel (fun _ => maxProductInfer {}) latentTwoOne) QP.ideal fun a b => .ok (graphEq a b)) graphEq (n + 1) latentTwoOneOS latentTwoOneData none = .ok (st, fl) := by
  obtain ⟨st, fl, h, -⟩ := C128_one_slack (fun _ => maxProductInfer {}) latentTwoOne (fun _ _ _ _ => 0)
    (fun n edges => edges = chainEdges n) latentTwoOneData none 51 latentTwoOne_setup QP.ideal QP.ideal_exact.1
    QP.ideal_exact.2 (fun a b => .ok (graphEq a b)) graphEq n latentTwoOneOS rfl (by decide +kernel) (by decide +kernel)
    (by decide +kernel) rfl (by decide +kernel) rfl rfl (by decide +kernel) (1 / 10200) (by norm_num) (by decide +kernel)
    (by decide +kernel) (by decide +kernel) 3 (by norm_num) (by decide +kernel) latentTwoOne_small
  exact ⟨st, fl, h⟩

example (n : ℕ) : ∃ st fl, LatentSSVM.fit (latentGraph (fun _ => maxProductInfer {}) latentTwoOne fun _ _ _ _ => 0)
    (nSlackBase (latentGraphModel (fun _ => maxProductInfer {}) latentTwoOne) QP.ideal graphEq) graphEq (n + 1) latentTwoOneNS latentTwoOneData none = .ok (st, fl) := by
  obtain ⟨st, fl, h, -⟩ := C128_n_slack (fun _ => maxProductInfer {}) latentTwoOne (fun _ _ _ _ => 0)
    (fun n edges => edges = chainEdges n) latentTwoOneData none 51 latentTwoOne_setup QP.ideal QP.ideal_exact.1
    QP.ideal_exact.2 graphEq n latentTwoOneNS (by decide +kernel) (by decide +kernel) rfl rfl (.inl rfl) rfl
    (by decide +kernel) (1 / 10) (by norm_num) (by decide +kernel) (by decide +kernel) (by decide +kernel) 3 (by norm_num)
    (by decide +kernel) latentTwoOne_small
  exact ⟨st, fl, h⟩

/-- An exact AD3 decodes latent states of arbitrary graphs. -/
example : ∃ P : Packages, Decodes 3 (fun _ _ => True) (backend P (.name "ad3")) := by
  obtain ⟨solve, hs⟩ := exact_ad3_exists
  exact ⟨{ idealPackages with ad3 := some (solve, fun U edges _ _ r => solve U edges ⟨0, 0, 0, fun _ _ _ => 0⟩ r) }, C128_ad3 _ (by norm_num) rfl hs⟩

end Verif.Props
