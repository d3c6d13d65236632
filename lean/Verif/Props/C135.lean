import Verif.Lemmas.EdgeNodeTraining
import Verif.Props.C134
import Verif.Props.C111

/-!
# C135: training `EdgeFeatureLatentNodeCRF` with `LatentSSVM`
-/

namespace Verif.Props

open Finset Verif.Common Verif.Spec Verif.Learner Verif.LatentSSVM Verif.LatentNode Verif.MaxProd
open Verif.GraphCRF (Infer)

/-- The learning problem that an `EdgeFeatureLatentNodeCRF` poses, in its own terms: for weights with the declared symmetries, scores of
legal labellings are those of a graph with hidden nodes and features at edges, and the loss is the class-weighted number of wrong labels
at visible nodes. All joint features have the declared symmetries. -/
theorem C135_edge_latent_node_problem (backend : Bool → Infer) (cw : Vec) (m : EModel) (hm : EdgeNodeModel m) (hcw : cw.size = m.base.nLabels)
    (outputs : EX → Set YVal) (x : EX) (y h g : Labels) (hfit : EdgeNodeFits m x y)
    (hs : h.size = y.size + x.nHidden) (hl : Legal y.size x.nHidden m.base.nLabels m.base.nStates h.get)
    (gs : g.size = y.size + x.nHidden) (gl : Legal y.size x.nHidden m.base.nLabels m.base.nStates g.get) (w : ℕ → ℚ)
    (hw : EdgeSymmetric m.base.nStates (m.base.nInput * m.base.nFeatures) m.sym m.anti w) :
    (problemOf (edgeLatentNodeModel backend cw m) outputs).value w x (.discrete h) (.discrete g) =
      latentEdgeScore m.base.nStates m.base.nLabels m.base.nFeatures m.nEdgeFeatures m.base.latentFeatures x.features.get y.size x.nHidden
        x.edges x.edgeFeatures.get w g.get ∧
    (problemOf (edgeLatentNodeModel backend cw m) outputs).loss (.discrete h) (.discrete g) =
      weightedHamming y.size cw.get h.get g.get ∧
    ∀ v, EdgeSymmetric m.base.nStates (m.base.nInput * m.base.nFeatures) m.sym m.anti
      ((edgeLatentNodeModel backend cw m).jointFeature x v) := by
  obtain ⟨ha, hF, hr, hE, hne, hEf, hK, -⟩ := hfit
  refine ⟨?_, node_loss_ok (S := m.base.nStates) hcw hs gs hl gl, eJointFeature_symmetric hm.disjoint x⟩
  obtain ⟨-, -, ψ, -, -, h3, h4, -, h6⟩ := C20_edge_latent_node_energy_partial m x ⟨eSize m, w⟩ g y.size hm.disjoint hm.declared hF hEf hK
    hm.features hr hne rfl gs gl hE hw
  unfold Vec.dot at h6
  rw [if_pos h4.symm] at h6
  simp only [Except.ok.injEq] at h6
  rw [← h6]
  change dot (eSize m) w (okD _ (eJointFeature m x (.discrete g))).get = _
  rw [h3]
  rfl

/-- What the theorems below assume of model, data and initial completions. Without initial completions, `KMeans` must find clusters, and
every instance must have hidden nodes (`init_latent` fails otherwise, C133). Edge features may be declared symmetric or antisymmetric. -/
structure EdgeNodeSetup (backend : Bool → Infer) (cw : Vec) (m : EModel) (km : KMeans) (A : ℕ → Edges → Prop)
    (data : List (EX × Labels)) (hInit : Option (List YVal)) (κ R : ℚ) : Prop where
  labels : 2 ≤ m.base.nLabels
  hidden : 0 < m.base.nHiddenStates
  weights : cw.size = m.base.nLabels
  positive : ∀ l : ℕ, l < m.base.nLabels → 0 < cw.get l
  weights_le : ∀ l : ℕ, l < m.base.nLabels → cw.get l ≤ κ
  spec : EdgeNodeModel m
  decodes : ∀ relaxed, SolvesEdges m.base.nStates (AllOrNone m.base.nStates A) (backend relaxed)
  ne : data ≠ []
  samples : ∀ d ∈ data, EdgeNodeFits m d.1 d.2
  graphs : ∀ d ∈ data, A (d.2.size + d.1.nHidden) d.1.edges
  given : ∀ hs, hInit = some hs → List.Forall₂ (fun (d : EX × Labels) h => ∃ t : Labels, h = YVal.discrete t ∧
    t.size = d.2.size + d.1.nHidden ∧ Legal d.2.size d.1.nHidden m.base.nLabels m.base.nStates t.get ∧
    ∀ i < d.2.size, t.get i = d.2.get i) data hs
  clusters : hInit = none → KMeansOk km m.base.nLabels m.base.nHiddenStates ∧ (∀ d ∈ data, 0 < d.1.nHidden) ∧
    ∃ H, LatentNode.initLatent km m.base.nLabels m.base.nHiddenStates m.base.latentFeatures (data.map fun d => d.1.sample d.2) = .ok H
  bound : ∀ d ∈ data, edgeNodeBound m d.1 ≤ R

variable {backend : Bool → Infer} {cw : Vec} {m : EModel} {km : KMeans} {A : ℕ → Edges → Prop}
  {data : List (EX × Labels)} {hInit : Option (List YVal)} {κ R : ℚ}

theorem EdgeNodeSetup.model (h : EdgeNodeSetup backend cw m km A data hInit κ R) :
    HiddenNodes (edgeLatentNodeModel backend cw m) m.base.nLabels m.base.nStates cw (exVisible m) EX.nHidden data R :=
  edgeNode_hidden h.spec h.labels h.hidden h.weights h.positive h.ne h.samples h.bound

theorem EdgeNodeSetup.bound_nonneg (h : EdgeNodeSetup backend cw m km A data hInit κ R) : 0 ≤ κ := by
  have h0 : 0 < m.base.nLabels := by have := h.labels; omega
  exact ((h.positive 0 h0).trans_le (h.weights_le 0 h0)).le

theorem EdgeNodeSetup.init (h : EdgeNodeSetup backend cw m km A data hInit κ R) :
    List.Forall₂ (fun s v => v ∈ legalCompletions m.base.nLabels m.base.nStates (exVisible m) EX.nHidden data s.1 s.2) data
      (hInit.getD ((edgeLatentNode backend cw m km).initLatent data)) := by
  cases hI : hInit with
  | none =>
    obtain ⟨h1, h2, H, h3⟩ := h.clusters hI
    have := node_init (sample := EX.sample) (nv := exVisible m) (nh := EX.nHidden) (fun _ _ => rfl) (fun _ _ => rfl)
      h1 h3 h2 (fun d hd => (h.samples d hd).visible.symm)
    have e : (edgeLatentNode backend cw m km).initLatent data = H.map .discrete := by
      change (okD [] (LatentNode.initLatent km m.base.nLabels m.base.nHiddenStates m.base.latentFeatures (data.map fun d => d.1.sample d.2))).map _ = _
      rw [h3]
      rfl
    rw [Option.getD_none, e]
    have hS : m.base.nHiddenStates + m.base.nLabels = m.base.nStates := rfl
    rw [hS] at this
    exact this
  | some hs =>
    have h1 := h.given hs hI
    rw [Option.getD_some]
    refine List.forall₂_iff_get.mpr ⟨h1.length_eq, fun k hk hk' => ?_⟩
    have hd : data.get ⟨k, hk⟩ ∈ data := List.getElem_mem hk
    obtain ⟨t, g1, g2, g3, g4⟩ := (List.forall₂_iff_get.mp h1).2 k hk hk'
    have hv := (h.samples _ hd).visible
    exact ⟨hd, t, g1, by rw [hv]; exact g2, by rw [hv]; exact g3, by rw [hv]; exact g4⟩

theorem EdgeNodeSetup.trainable (h : EdgeNodeSetup backend cw m km A data hInit κ R) {ρ : ℚ} (hρ : 0 ≤ ρ)
    (hsmall : ∀ d ∈ data, EdgeNodeSmall ρ κ (d.2.size + d.1.nHidden) d.1) (hs : List YVal)
    (hc : List.Forall₂ (fun s v => v ∈ legalCompletions m.base.nLabels m.base.nStates (exVisible m) EX.nHidden data s.1 s.2) data hs) :
    TrainableOn (fun w => InBall (edgeLatentNodeModel backend cw m).dim (ρ ^ 2) w ∧ NodeSymmetric m w) (edgeLatentNodeModel backend cw m)
      (legalOutputs m.base.nLabels m.base.nStates (exVisible m) EX.nHidden data) ((data.map Prod.fst).zip hs) R
      (totalWeight cw data) :=
  h.model.trainable (fun x y w hy hw => edgeNode_exact h.spec (h.decodes true) h.weights h.bound_nonneg h.weights_le h.samples h.graphs hρ
    hsmall x y w hy hw.1 hw.2) hc

/-- **C135, `EdgeFeatureLatentNodeCRF` with OneSlackSSVM as base learner.** `LatentSSVM` returns; the weights of every call of the base learner are
optimal for the completed data up to `C n tol`; the latent objective rises by at most this from call to call; and if the loop ends by
itself, the last completions are those that the weights choose. The features must be so small that the penalty of wrong kinds of states
outweighs all scores, see `hsmall`. -/
theorem C135_edge_latent_node_one_slack (backend : Bool → Infer) (cw : Vec) (m : EModel) (km : KMeans) (A : ℕ → Edges → Prop)
    (data : List (EX × Labels)) (hInit : Option (List YVal)) (κ R : ℚ)
    (hset : EdgeNodeSetup backend cw m km A data hInit κ R)
    (qp : QP.Solver) (hqp : QP.Exact qp) (hcomp : QP.Complete qp) (eq : YVal → YVal → Except PyErr Bool)
    (same : YVal → YVal → Bool) (n : ℕ) (o : OneSlack.Obj YVal) (hcache : o.cfg.inferenceCache = 0) (hC : 0 < o.cfg.C)
    (htol : 0 < o.cfg.tol) (htol1 : o.cfg.tol ≤ 1) (hneg : o.cfg.negativity = none) (hthr : o.cfg.inactiveThreshold ≤ 1)
    (hbr : o.cfg.breakOnBad = false) (hwin : o.cfg.inactiveWindow = 0) (hmi : o.cfg.maxIter ≠ 0) (μ : ℚ) (hμ : 0 ≤ μ)
    (hμ1 : 2 * μ ≤ o.cfg.C * data.length * o.cfg.tol) (hμ2 : 2 * R * μ ≤ o.cfg.tol ^ 2)
    (hmax : o.cfg.C * totalWeight cw data < ((o.cfg.maxIter : ℚ) - 1) * μ) (ρ : ℚ) (hρ : 0 ≤ ρ)
    (hρ2 : 2 * (o.cfg.C * totalWeight cw data + o.cfg.C * data.length * o.cfg.tol) ≤ ρ ^ 2)
    (hsmall : ∀ d ∈ data, EdgeNodeSmall ρ κ (d.2.size + d.1.nHidden) d.1) :
    let L := edgeLatentNode backend cw m km
    let P := problemOf L.m (legalOutputs m.base.nLabels m.base.nStates (exVisible m) EX.nHidden data)
    ∃ st fl, LatentSSVM.fit L (oneSlackBase L.m qp eq) same (n + 1) o data hInit = .ok (st, fl) ∧
      LatentDescent L (oneSlackBase L.m qp eq) same P o.cfg.C (o.cfg.C * data.length * o.cfg.tol)
        data (legalCompletions m.base.nLabels m.base.nStates (exVisible m) EX.nHidden data) (n + 1) st fl ∧
      ∀ a ∈ st.hist, P.NearOptimal o.cfg.C ((data.map Prod.fst).zip a.1)
        (o.cfg.C * data.length * o.cfg.tol) ((oneSlackBase (X := EX) L.m qp eq).w a.2) :=
  C135_one_slack (edgeLatentNode backend cw m km) qp hqp hcomp eq same n data hInit _ _ hset.model.labelOnly o R (totalWeight cw data)
    (ρ ^ 2) hρ2 (NodeSymmetric m) (nodeSymmetric_linear m) (eJointFeature_symmetric hset.spec.disjoint)
    (fun w hw hsym => edgeNode_completion hset.spec hset.hidden (hset.decodes false) hset.samples hset.graphs hρ hset.bound_nonneg hsmall
      w hw hsym) hset.model.completes hset.init (hset.trainable hρ hsmall) hcache hC htol htol1 hneg hthr hbr hwin hmi μ hμ hμ1 hμ2 hmax

/-- **C135, `EdgeFeatureLatentNodeCRF` with NSlackSSVM as base learner.** The latent objective rises by at most `2 C n δ` from call to call. -/
theorem C135_edge_latent_node_n_slack (backend : Bool → Infer) (cw : Vec) (m : EModel) (km : KMeans) (A : ℕ → Edges → Prop)
    (data : List (EX × Labels)) (hInit : Option (List YVal)) (κ R : ℚ)
    (hset : EdgeNodeSetup backend cw m km A data hInit κ R)
    (hbig : ∃ d ∈ data, ∃ i < d.2.size, 1 / 10 ^ 5 ≤ cw.get (d.2.get i))
    (qp : QP.Solver) (hqp : QP.Exact qp) (hcomp : QP.Complete qp) (same : YVal → YVal → Bool) (n : ℕ) (o : NSlack.Obj YVal)
    (hC : 0 < o.cfg.C) (htol : 0 < o.cfg.tol) (hneg : o.cfg.negativity = none) (hbr : o.cfg.breakOnBad = false)
    (hbat : o.cfg.batchSize = -1 ∨ 0 < o.cfg.batchSize) (hwin : o.cfg.inactiveWindow = 0) (hmi : o.cfg.maxIter ≠ 0)
    (δ : ℚ) (hδ : 1 / 10 ^ 5 ≤ δ) (h1 : 2 * o.cfg.tol ≤ o.cfg.C * δ) (h2 : 2 * R * o.cfg.tol ≤ δ ^ 2)
    (hmax : o.cfg.C * totalWeight cw data < ((o.cfg.maxIter : ℚ) - 2) * o.cfg.tol) (ρ : ℚ) (hρ : 0 ≤ ρ)
    (hρ2 : 2 * (o.cfg.C * totalWeight cw data + 2 * o.cfg.C * data.length * δ) ≤ ρ ^ 2)
    (hsmall : ∀ d ∈ data, EdgeNodeSmall ρ κ (d.2.size + d.1.nHidden) d.1) :
    let L := edgeLatentNode backend cw m km
    ∃ st fl, LatentSSVM.fit L (nSlackBase L.m qp graphEq) same (n + 1) o data hInit = .ok (st, fl) ∧
      LatentDescent L (nSlackBase L.m qp graphEq) same
        (problemOf L.m (legalOutputs m.base.nLabels m.base.nStates (exVisible m) EX.nHidden data)) o.cfg.C
        (2 * o.cfg.C * data.length * δ) data (legalCompletions m.base.nLabels m.base.nStates (exVisible m) EX.nHidden data)
        (n + 1) st fl := by
  refine C135_n_slack (edgeLatentNode backend cw m km) qp hqp hcomp graphEq same n data hInit _ _ hset.model.labelOnly o R
    (totalWeight cw data) (ρ ^ 2) δ hρ2 (NodeSymmetric m) (nodeSymmetric_linear m) (eJointFeature_symmetric hset.spec.disjoint)
    (fun w hw hsym => edgeNode_completion hset.spec hset.hidden (hset.decodes false) hset.samples hset.graphs hρ
      hset.bound_nonneg hsmall w hw hsym) hset.model.completes hset.model.zero hset.init (hset.trainable hρ hsmall) (fun _ hc => hset.model.eqSound hc) ?_
    hC htol hneg hbr hbat hwin hmi hδ h1 h2 hmax
  obtain ⟨d, hd, i, hi, hw⟩ := hbig
  refine ⟨d, hd, fun h hh => ?_⟩
  obtain ⟨z, hz, hl⟩ := hset.model.confuse hh (i := i) (by rw [(hset.samples d hd).visible]; exact hi)
  refine ⟨z, hz, ?_⟩
  change _ ≤ (edgeLatentNodeModel backend cw m).lossOf h z
  rw [hl]
  exact hw

/-! ### a chain of two visible nodes and a hidden one, with edge features -/

/-- two labels, two hidden states, one node feature; a symmetric and an antisymmetric edge feature. -/
def edgeChain : EModel := ⟨⟨2, 2, 1, false⟩, 2, [0], [1]⟩

/-- visible nodes with features 1 and 2 and labels 0 and 1, and one hidden node at the end of the chain; edge features 1 and 1/2. -/
def edgeChainData : List (EX × Labels) :=
  [(⟨⟨2, 1, fun i _ => i + 1⟩, chainEdges 3, ⟨2, 2, fun _ k => if k = 0 then 1 else 1 / 2⟩, 1⟩, ⟨2, fun i => i⟩)]

theorem edgeChain_setup : EdgeNodeSetup (fun _ => maxProductInfer {}) nodeChainWeights edgeChain splitKMeans
    (fun n edges => edges = chainEdges n) edgeChainData none 2 98 where
  labels := by decide
  hidden := by decide
  weights := rfl
  positive := nodeChain_setup.positive
  weights_le := nodeChain_setup.weights_le
  spec := ⟨rfl, by decide, by decide⟩
  decodes := fun _ => chain_solves_edges {} (by decide)
  ne := by simp [edgeChainData]
  samples := by
    intro d hd
    rw [edgeChainData, List.mem_singleton] at hd
    subst hd
    exact ⟨by decide, rfl, rfl, by unfold EdgesIn; decide, by decide, rfl, rfl, by decide⟩
  graphs := by
    intro d hd
    rw [edgeChainData, List.mem_singleton] at hd
    subst hd
    rfl
  given := by
    intro hs h
    cases h
  clusters := by
    intro _
    refine ⟨splitKMeans_ok, ?_, _, rfl⟩
    intro d hd
    rw [edgeChainData, List.mem_singleton] at hd
    subst hd
    exact Nat.one_pos
  bound := by
    intro d hd
    rw [edgeChainData, List.mem_singleton] at hd
    subst hd
    unfold edgeNodeBound
    decide +kernel

theorem edgeChain_small : ∀ d ∈ edgeChainData, EdgeNodeSmall 3 2 (d.2.size + d.1.nHidden) d.1 := by
  intro d hd
  rw [edgeChainData, List.mem_singleton] at hd
  subst hd
  unfold EdgeNodeSmall
  decide +kernel

example (n : ℕ) : ∃ st fl, LatentSSVM.fit (edgeLatentNode (fun _ => maxProductInfer {}) nodeChainWeights edgeChain splitKMeans)
    (oneSlackBase (edgeLatentNodeModel (fun _ => maxProductInfer {}) nodeChainWeights edgeChain) QP.ideal fun a b => .ok (graphEq a b))
    graphEq (n + 1) nodeChainOS edgeChainData none = .ok (st, fl) := by
  obtain ⟨st, fl, h, -⟩ := C135_edge_latent_node_one_slack (fun _ => maxProductInfer {}) nodeChainWeights edgeChain splitKMeans
    (fun n edges => edges = chainEdges n) edgeChainData none 2 98 edgeChain_setup QP.ideal QP.ideal_exact.1
    QP.ideal_exact.2 (fun a b => .ok (graphEq a b)) graphEq n nodeChainOS rfl (by decide +kernel) (by decide +kernel)
    (by decide +kernel) rfl (by decide +kernel) rfl rfl (by decide +kernel) (1 / 35600) (by norm_num) (by decide +kernel)
    (by decide +kernel) (by decide +kernel) 3 (by norm_num) (by decide +kernel) edgeChain_small
  exact ⟨st, fl, h⟩

example (n : ℕ) : ∃ st fl, LatentSSVM.fit (edgeLatentNode (fun _ => maxProductInfer {}) nodeChainWeights edgeChain splitKMeans)
    (nSlackBase (edgeLatentNodeModel (fun _ => maxProductInfer {}) nodeChainWeights edgeChain) QP.ideal graphEq) graphEq (n + 1)
    nodeChainNS edgeChainData none = .ok (st, fl) := by
  obtain ⟨st, fl, h, -⟩ := C135_edge_latent_node_n_slack (fun _ => maxProductInfer {}) nodeChainWeights edgeChain splitKMeans
    (fun n edges => edges = chainEdges n) edgeChainData none 2 98 edgeChain_setup
    ⟨_, List.mem_singleton.mpr rfl, 0, by decide, by decide +kernel⟩ QP.ideal QP.ideal_exact.1
    QP.ideal_exact.2 graphEq n nodeChainNS (by decide +kernel) (by decide +kernel) rfl rfl (.inl rfl) rfl
    (by decide +kernel) (1 / 10) (by norm_num) (by decide +kernel) (by decide +kernel) (by decide +kernel) 3 (by norm_num)
    (by decide +kernel) edgeChain_small
  exact ⟨st, fl, h⟩

/-- The legal labelling with hidden state 3 of the example. -/
example (outputs : EX → Set YVal) :
    (problemOf (edgeLatentNodeModel (fun _ => maxProductInfer {}) nodeChainWeights edgeChain) outputs).loss
      (.discrete ⟨3, fun i => if i = 2 then 3 else i⟩) (.discrete ⟨3, fun i => if i = 2 then 2 else 0⟩) = 2 := by
  have hd : edgeChainData[0] ∈ edgeChainData := List.getElem_mem (by decide)
  refine ((C135_edge_latent_node_problem (fun _ => maxProductInfer {}) nodeChainWeights edgeChain edgeChain_setup.spec rfl outputs _ _
    ⟨3, fun i => if i = 2 then 3 else i⟩ ⟨3, fun i => if i = 2 then 2 else 0⟩ (edgeChain_setup.samples _ hd) rfl ?_ rfl ?_ (fun _ => 0)
    (nodeSymmetric_linear edgeChain).zero).2.1).trans ?_
  · refine ⟨?_, ?_⟩ <;> decide
  · refine ⟨?_, ?_⟩ <;> decide
  · decide +kernel

end Verif.Props
