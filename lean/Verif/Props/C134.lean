import Verif.Lemmas.NodeTraining
import Verif.Props.C128

/-!
# C134: training `LatentNodeCRF` with `LatentSSVM`
-/

namespace Verif.Props

open Finset Verif.Common Verif.Spec Verif.Learner Verif.LatentSSVM Verif.LatentNode Verif.MaxProd
open Verif.GraphCRF (Infer)

/-- The learning problem that a `LatentNodeCRF` poses, in its own terms: scores of legal labellings are those of a graph with hidden
nodes, and the loss is the class-weighted number of wrong labels at visible nodes. -/
theorem C134_latent_node_problem (backend : Bool → Infer) (cw : Vec) (m : LatentNode.Model) (hcw : cw.size = m.nLabels)
    (outputs : LatentNode.X → Set YVal) (x : LatentNode.X) (y h g : Labels) (hfit : NodeFits m x y)
    (hs : h.size = y.size + x.nHidden) (hl : Legal y.size x.nHidden m.nLabels m.nStates h.get)
    (gs : g.size = y.size + x.nHidden) (gl : Legal y.size x.nHidden m.nLabels m.nStates g.get) (w : ℕ → ℚ) :
    (problemOf (latentNodeModel backend cw m) outputs).value w x (.discrete h) (.discrete g) =
      latentNodeScore m.nStates m.nLabels m.nFeatures m.latentFeatures x.features.get y.size x.nHidden x.edges w g.get ∧
    (problemOf (latentNodeModel backend cw m) outputs).loss (.discrete h) (.discrete g) =
      weightedHamming y.size cw.get h.get g.get := by
  obtain ⟨ha, hF, hr, hE, -⟩ := hfit
  refine ⟨?_, node_loss_ok (S := m.nStates) hcw hs gs hl gl⟩
  obtain ⟨-, -, ψ, -, -, h3, h4, -, h6⟩ := C20_latent_node_energy m x ⟨sizeJointFeature m, w⟩ g y.size hF hr (by omega) rfl gs gl hE
  unfold Vec.dot at h6
  rw [if_pos h4.symm] at h6
  simp only [Except.ok.injEq] at h6
  rw [← h6]
  change dot (sizeJointFeature m) w (okD _ (LatentNode.jointFeature m x (.discrete g))).get = _
  rw [h3]
  rfl

/-- What the theorems below assume of model, data and initial completions. Without initial completions, `KMeans` must find clusters, and
every instance must have hidden nodes (`init_latent` fails otherwise, C133). -/
structure NodeSetup (backend : Bool → Infer) (cw : Vec) (m : LatentNode.Model) (km : KMeans) (A : ℕ → Edges → Prop)
    (data : List (LatentNode.X × Labels)) (hInit : Option (List YVal)) (κ R : ℚ) : Prop where
  labels : 2 ≤ m.nLabels
  hidden : 0 < m.nHiddenStates
  weights : cw.size = m.nLabels
  positive : ∀ l : ℕ, l < m.nLabels → 0 < cw.get l
  weights_le : ∀ l : ℕ, l < m.nLabels → cw.get l ≤ κ
  decodes : Decodes m.nStates A backend
  ne : data ≠ []
  samples : ∀ d ∈ data, NodeFits m d.1 d.2
  graphs : ∀ d ∈ data, A (d.2.size + d.1.nHidden) d.1.edges
  given : ∀ hs, hInit = some hs → List.Forall₂ (fun (d : LatentNode.X × Labels) h => ∃ t : Labels, h = YVal.discrete t ∧
    t.size = d.2.size + d.1.nHidden ∧ Legal d.2.size d.1.nHidden m.nLabels m.nStates t.get ∧
    ∀ i < d.2.size, t.get i = d.2.get i) data hs
  clusters : hInit = none → KMeansOk km m.nLabels m.nHiddenStates ∧ (∀ d ∈ data, 0 < d.1.nHidden) ∧
    ∃ H, LatentNode.initLatent km m.nLabels m.nHiddenStates m.latentFeatures (data.map fun d => d.1.sample d.2) = .ok H
  bound : ∀ d ∈ data, nodeBound m d.1 ≤ R

variable {backend : Bool → Infer} {cw : Vec} {m : LatentNode.Model} {km : KMeans} {A : ℕ → Edges → Prop}
  {data : List (LatentNode.X × Labels)} {hInit : Option (List YVal)} {κ R : ℚ}

theorem NodeSetup.model (h : NodeSetup backend cw m km A data hInit κ R) :
    HiddenNodes (latentNodeModel backend cw m) m.nLabels m.nStates cw (xVisible m) LatentNode.X.nHidden data R :=
  node_hidden h.labels h.hidden h.weights h.positive h.ne h.samples h.bound

theorem NodeSetup.bound_nonneg (h : NodeSetup backend cw m km A data hInit κ R) : 0 ≤ κ := by
  have h0 : 0 < m.nLabels := by have := h.labels; omega
  exact ((h.positive 0 h0).trans_le (h.weights_le 0 h0)).le

theorem NodeSetup.init (h : NodeSetup backend cw m km A data hInit κ R) :
    List.Forall₂ (fun s v => v ∈ legalCompletions m.nLabels m.nStates (xVisible m) LatentNode.X.nHidden data s.1 s.2) data
      (hInit.getD ((latentNode backend cw m km).initLatent data)) := by
  cases hI : hInit with
  | none =>
    obtain ⟨h1, h2, H, h3⟩ := h.clusters hI
    have := node_init (sample := LatentNode.X.sample) (nv := xVisible m) (nh := LatentNode.X.nHidden) (fun _ _ => rfl) (fun _ _ => rfl)
      h1 h3 h2 (fun d hd => (h.samples d hd).visible.symm)
    have e : (latentNode backend cw m km).initLatent data = H.map .discrete := by
      change (okD [] (LatentNode.initLatent km m.nLabels m.nHiddenStates m.latentFeatures (data.map fun d => d.1.sample d.2))).map _ = _
      rw [h3]
      rfl
    rw [Option.getD_none, e]
    have hS : m.nHiddenStates + m.nLabels = m.nStates := rfl
    rw [hS] at this
    exact this
  | some hs =>
    have h1 := h.given hs hI
    rw [Option.getD_some]
    refine List.forall₂_iff_get.mpr ⟨h1.length_eq, fun k hk hk' => ?_⟩
    have hd : data.get ⟨k, hk⟩ ∈ data := List.getElem_mem hk
    obtain ⟨t, g1, g2, g3, g4⟩ := (List.forall₂_iff_get.mp h1).2 k hk hk'
    have hv := (h.samples _ hd).visible
    exact ⟨hd, t, g1, by rw [hv]; exact g2, by rw [hv]; exact g3, by rw [hv]; exact g4⟩

theorem NodeSetup.trainable (h : NodeSetup backend cw m km A data hInit κ R) {ρ : ℚ} (hρ : 0 ≤ ρ)
    (hsmall : ∀ d ∈ data, NodeSmall ρ κ (d.2.size + d.1.nHidden) d.1) (hs : List YVal)
    (hc : List.Forall₂ (fun s v => v ∈ legalCompletions m.nLabels m.nStates (xVisible m) LatentNode.X.nHidden data s.1 s.2) data hs) :
    TrainableOn (InBall (latentNodeModel backend cw m).dim (ρ ^ 2)) (latentNodeModel backend cw m)
      (legalOutputs m.nLabels m.nStates (xVisible m) LatentNode.X.nHidden data) ((data.map Prod.fst).zip hs) R
      (totalWeight cw data) :=
  h.model.trainable (fun x y w hy hw => node_exact (h.decodes true) h.weights h.bound_nonneg h.weights_le h.samples h.graphs hρ
    hsmall x y w hy hw) hc

/-- **C134, `LatentNodeCRF` with OneSlackSSVM as base learner.** `LatentSSVM` returns; the weights of every call of the base learner are
optimal for the completed data up to `C n tol`; the latent objective rises by at most this from call to call; and if the loop ends by
itself, the last completions are those that the weights choose. The features must be so small that the penalty of wrong kinds of states
outweighs all scores, see `hsmall`. -/
theorem C134_latent_node_one_slack (backend : Bool → Infer) (cw : Vec) (m : LatentNode.Model) (km : KMeans) (A : ℕ → Edges → Prop)
    (data : List (LatentNode.X × Labels)) (hInit : Option (List YVal)) (κ R : ℚ)
    (hset : NodeSetup backend cw m km A data hInit κ R)
    (qp : QP.Solver) (hqp : QP.Exact qp) (hcomp : QP.Complete qp) (eq : YVal → YVal → Except PyErr Bool)
    (same : YVal → YVal → Bool) (n : ℕ) (o : OneSlack.Obj YVal) (hcache : o.cfg.inferenceCache = 0) (hC : 0 < o.cfg.C)
    (htol : 0 < o.cfg.tol) (htol1 : o.cfg.tol ≤ 1) (hneg : o.cfg.negativity = none) (hthr : o.cfg.inactiveThreshold ≤ 1)
    (hbr : o.cfg.breakOnBad = false) (hwin : o.cfg.inactiveWindow = 0) (hmi : o.cfg.maxIter ≠ 0) (μ : ℚ) (hμ : 0 ≤ μ)
    (hμ1 : 2 * μ ≤ o.cfg.C * data.length * o.cfg.tol) (hμ2 : 2 * R * μ ≤ o.cfg.tol ^ 2)
    (hmax : o.cfg.C * totalWeight cw data < ((o.cfg.maxIter : ℚ) - 1) * μ) (ρ : ℚ) (hρ : 0 ≤ ρ)
    (hρ2 : 2 * (o.cfg.C * totalWeight cw data + o.cfg.C * data.length * o.cfg.tol) ≤ ρ ^ 2)
    (hsmall : ∀ d ∈ data, NodeSmall ρ κ (d.2.size + d.1.nHidden) d.1) :
    let L := latentNode backend cw m km
    let P := problemOf L.m (legalOutputs m.nLabels m.nStates (xVisible m) LatentNode.X.nHidden data)
    ∃ st fl, LatentSSVM.fit L (oneSlackBase L.m qp eq) same (n + 1) o data hInit = .ok (st, fl) ∧
      LatentDescent L (oneSlackBase L.m qp eq) same P o.cfg.C (o.cfg.C * data.length * o.cfg.tol)
        data (legalCompletions m.nLabels m.nStates (xVisible m) LatentNode.X.nHidden data) (n + 1) st fl ∧
      ∀ a ∈ st.hist, P.NearOptimal o.cfg.C ((data.map Prod.fst).zip a.1)
        (o.cfg.C * data.length * o.cfg.tol) ((oneSlackBase (X := LatentNode.X) L.m qp eq).w a.2) :=
  C134_one_slack (latentNode backend cw m km) qp hqp hcomp eq same n data hInit _ _ hset.model.labelOnly o R (totalWeight cw data)
    (ρ ^ 2) hρ2 (fun w hw => node_completion hset.hidden (hset.decodes false) hset.samples hset.graphs hρ hset.bound_nonneg hsmall
      w hw) hset.init (hset.trainable hρ hsmall) hcache hC htol htol1 hneg hthr hbr hwin hmi μ hμ hμ1 hμ2 hmax

/-- **C134, `LatentNodeCRF` with NSlackSSVM as base learner.** The latent objective rises by at most `2 C n δ` from call to call. -/
theorem C134_latent_node_n_slack (backend : Bool → Infer) (cw : Vec) (m : LatentNode.Model) (km : KMeans) (A : ℕ → Edges → Prop)
    (data : List (LatentNode.X × Labels)) (hInit : Option (List YVal)) (κ R : ℚ)
    (hset : NodeSetup backend cw m km A data hInit κ R)
    (hbig : ∃ d ∈ data, ∃ i < d.2.size, 1 / 10 ^ 5 ≤ cw.get (d.2.get i))
    (qp : QP.Solver) (hqp : QP.Exact qp) (hcomp : QP.Complete qp) (same : YVal → YVal → Bool) (n : ℕ) (o : NSlack.Obj YVal)
    (hC : 0 < o.cfg.C) (htol : 0 < o.cfg.tol) (hneg : o.cfg.negativity = none) (hbr : o.cfg.breakOnBad = false)
    (hbat : o.cfg.batchSize = -1 ∨ 0 < o.cfg.batchSize) (hwin : o.cfg.inactiveWindow = 0) (hmi : o.cfg.maxIter ≠ 0)
    (δ : ℚ) (hδ : 1 / 10 ^ 5 ≤ δ) (h1 : 2 * o.cfg.tol ≤ o.cfg.C * δ) (h2 : 2 * R * o.cfg.tol ≤ δ ^ 2)
    (hmax : o.cfg.C * totalWeight cw data < ((o.cfg.maxIter : ℚ) - 2) * o.cfg.tol) (ρ : ℚ) (hρ : 0 ≤ ρ)
    (hρ2 : 2 * (o.cfg.C * totalWeight cw data + 2 * o.cfg.C * data.length * δ) ≤ ρ ^ 2)
    (hsmall : ∀ d ∈ data, NodeSmall ρ κ (d.2.size + d.1.nHidden) d.1) :
    let L := latentNode backend cw m km
    ∃ st fl, LatentSSVM.fit L (nSlackBase L.m qp graphEq) same (n + 1) o data hInit = .ok (st, fl) ∧
      LatentDescent L (nSlackBase L.m qp graphEq) same
        (problemOf L.m (legalOutputs m.nLabels m.nStates (xVisible m) LatentNode.X.nHidden data)) o.cfg.C
        (2 * o.cfg.C * data.length * δ) data (legalCompletions m.nLabels m.nStates (xVisible m) LatentNode.X.nHidden data)
        (n + 1) st fl := by
  refine C134_n_slack (latentNode backend cw m km) qp hqp hcomp graphEq same n data hInit _ _ hset.model.labelOnly o R
    (totalWeight cw data) (ρ ^ 2) δ hρ2 (fun w hw => node_completion hset.hidden (hset.decodes false) hset.samples hset.graphs hρ
      hset.bound_nonneg hsmall w hw) hset.model.zero hset.init (hset.trainable hρ hsmall) (fun _ hc => hset.model.eqSound hc) ?_
    hC htol hneg hbr hbat hwin hmi hδ h1 h2 hmax
  obtain ⟨d, hd, i, hi, hw⟩ := hbig
  refine ⟨d, hd, fun h hh => ?_⟩
  obtain ⟨z, hz, hl⟩ := hset.model.confuse hh (i := i) (by rw [(hset.samples d hd).visible]; exact hi)
  refine ⟨z, hz, ?_⟩
  change _ ≤ (latentNodeModel backend cw m).lossOf h z
  rw [hl]
  exact hw

/-! ### a chain of two visible nodes and a hidden one -/

/-- two labels, two hidden states, one feature. -/
def nodeChain : LatentNode.Model := ⟨2, 2, 1, false⟩

/-- visible nodes with features 1 and 2 and labels 0 and 1, and one hidden node at the end of the chain. -/
def nodeChainData : List (LatentNode.X × Labels) :=
  [(⟨⟨2, 1, fun i _ => i + 1⟩, chainEdges 3, 1⟩, ⟨2, fun i => i⟩)]

/-- class weights 1 and 2. -/
def nodeChainWeights : Vec := ⟨2, fun c => c + 1⟩

theorem nodeChain_setup : NodeSetup (fun _ => maxProductInfer {}) nodeChainWeights nodeChain splitKMeans
    (fun n edges => edges = chainEdges n) nodeChainData none 2 178 where
  labels := by decide
  hidden := by decide
  weights := rfl
  positive := by
    intro l hl
    change (0 : ℚ) < l + 1
    positivity
  weights_le := by
    intro l hl
    change l < 2 at hl
    change (l : ℚ) + 1 ≤ 2
    interval_cases l <;> norm_num
  decodes := C128_chain {} (by decide)
  ne := by decide
  samples := by
    intro d hd
    rw [nodeChainData, List.mem_singleton] at hd
    subst hd
    exact ⟨by decide, rfl, rfl, by unfold EdgesIn; decide, by decide⟩
  graphs := by
    intro d hd
    rw [nodeChainData, List.mem_singleton] at hd
    subst hd
    rfl
  given := by
    intro hs h
    cases h
  clusters := by
    intro _
    refine ⟨splitKMeans_ok, by decide, _, rfl⟩
  bound := by
    intro d hd
    rw [nodeChainData, List.mem_singleton] at hd
    subst hd
    unfold nodeBound
    decide +kernel

theorem nodeChain_small : ∀ d ∈ nodeChainData, NodeSmall 3 2 (d.2.size + d.1.nHidden) d.1 := by
  unfold NodeSmall
  decide +kernel

/-- one-slack learner of the example, 200000 iterations with tolerance 1/10. -/
def nodeChainOS : OneSlack.Obj YVal :=
  ⟨⟨200000, 1, false, none, false, 0, 1 / 10, 0, 1 / 10 ^ 5, 0, .auto⟩, none, []⟩

/-- n-slack learner of the example, 10 ^ 6 iterations with tolerance 1/40000. -/
def nodeChainNS : NSlack.Obj YVal :=
  ⟨⟨1000000, 1, false, none, false, 0, -1, 1 / 40000, 1 / 10 ^ 5, 0⟩, none, []⟩

example (n : ℕ) : ∃ st fl, LatentSSVM.fit (latentNode (fun _ => maxProductInfer {}) nodeChainWeights nodeChain splitKMeans)
    (oneSlackBase (latentNodeModel (fun _ => maxProductInfer {}) nodeChainWeights nodeChain) QP.ideal fun a b => .ok (graphEq a b))
    graphEq (n + 1) nodeChainOS nodeChainData none = .ok (st, fl) := by
  obtain ⟨st, fl, h, -⟩ := C134_latent_node_one_slack (fun _ => maxProductInfer {}) nodeChainWeights nodeChain splitKMeans
    (fun n edges => edges = chainEdges n) nodeChainData none 2 178 nodeChain_setup QP.ideal QP.ideal_exact.1
    QP.ideal_exact.2 (fun a b => .ok (graphEq a b)) graphEq n nodeChainOS rfl (by decide +kernel) (by decide +kernel)
    (by decide +kernel) rfl (by decide +kernel) rfl rfl (by decide +kernel) (1 / 35600) (by norm_num) (by decide +kernel)
    (by decide +kernel) (by decide +kernel) 3 (by norm_num) (by decide +kernel) nodeChain_small
  exact ⟨st, fl, h⟩

example (n : ℕ) : ∃ st fl, LatentSSVM.fit (latentNode (fun _ => maxProductInfer {}) nodeChainWeights nodeChain splitKMeans)
    (nSlackBase (latentNodeModel (fun _ => maxProductInfer {}) nodeChainWeights nodeChain) QP.ideal graphEq) graphEq (n + 1)
    nodeChainNS nodeChainData none = .ok (st, fl) := by
  obtain ⟨st, fl, h, -⟩ := C134_latent_node_n_slack (fun _ => maxProductInfer {}) nodeChainWeights nodeChain splitKMeans
    (fun n edges => edges = chainEdges n) nodeChainData none 2 178 nodeChain_setup
    ⟨_, List.mem_singleton.mpr rfl, 0, by decide, by decide +kernel⟩ QP.ideal QP.ideal_exact.1
    QP.ideal_exact.2 graphEq n nodeChainNS (by decide +kernel) (by decide +kernel) rfl rfl (.inl rfl) rfl
    (by decide +kernel) (1 / 10) (by norm_num) (by decide +kernel) (by decide +kernel) (by decide +kernel) 3 (by norm_num)
    (by decide +kernel) nodeChain_small
  exact ⟨st, fl, h⟩

/-- The legal labelling with hidden state 3 of the example. -/
example (outputs : LatentNode.X → Set YVal) (w : ℕ → ℚ) :
    (problemOf (latentNodeModel (fun _ => maxProductInfer {}) nodeChainWeights nodeChain) outputs).loss
      (.discrete ⟨3, fun i => if i = 2 then 3 else i⟩) (.discrete ⟨3, fun i => if i = 2 then 2 else 0⟩) = 2 := by
  have hd : nodeChainData[0] ∈ nodeChainData := List.getElem_mem (by decide)
  refine ((C134_latent_node_problem (fun _ => maxProductInfer {}) nodeChainWeights nodeChain rfl outputs _ _
    ⟨3, fun i => if i = 2 then 3 else i⟩ ⟨3, fun i => if i = 2 then 2 else 0⟩ (nodeChain_setup.samples _ hd) rfl ?_ rfl ?_ w).2).trans ?_
  · refine ⟨?_, ?_⟩ <;> decide
  · refine ⟨?_, ?_⟩ <;> decide
  · decide +kernel

end Verif.Props
