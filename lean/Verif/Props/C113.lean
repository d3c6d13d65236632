import Verif.Props.C112

/-!
# C113: training an `EdgeFeatureGraphCRF` with symmetric and antisymmetric edge features
-/

namespace Verif.Props

open Finset Verif.Common Verif.Spec Verif.Learner Verif.Dispatch Verif.EdgeFeature Verif.Lemmas
open Verif.GraphCRF (Infer)
open Verif.MaxProd (maxProductInfer)

/-! ### models that agree on a linear space -/

section transfer

variable {X Y : Type} {V : W → Prop} {M M' : SModel X Y} {samples : List (X × Y)} {outputs : X → Set Y}

theorem agree_problem (h : Agree V samples M M') : problemOf M' outputs = problemOf M outputs := by
  unfold problemOf
  rw [h.dim, h.feat, h.lossOf]

theorem oneslack_transfer (hV : LinearSpace V) (h : Agree V samples M M') (hm : SpanIn V M samples) {R L : ℚ}
    (ht : OneSlackTrains M' outputs samples R L) : OneSlackTrains M outputs samples R L := by
  intro qp h1 h2 eq o h3 h4 h5 h6 h7 h8 h9 h10 h11 μ h12 h13 h14 h15
  obtain ⟨o', a, hf, ha, hn⟩ := ht qp h1 h2 eq o h3 h4 h5 h6 h7 h8 h9 h10 h11 μ h12 h13 h14 h15
  rw [h.one_fit hV hm (.inl rfl)] at hf
  rw [agree_problem h] at hn
  exact ⟨o', a, hf, ha, hn⟩

theorem nslack_transfer (hV : LinearSpace V) (h : Agree V samples M M') (hm : SpanIn V M samples) {eq : Y → Y → Bool} {R L : ℚ}
    (ht : NSlackTrains M' outputs eq samples R L) : NSlackTrains M outputs eq samples R L := by
  intro qp h1 h2 o h3 h4 h5 h6 h7 h8 h9 δ h10 h11 h12 h13
  obtain ⟨o', b, a, hf, ha, hn⟩ := ht qp h1 h2 o h3 h4 h5 h6 h7 h8 h9 δ h10 h11 h12 h13
  rw [h.n_fit hV hm] at hf
  rw [agree_problem h] at hn
  exact ⟨o', b, a, hf, ha, hn⟩

theorem frankwolfe_transfer (hV : LinearSpace V) (h : Agree V samples M M') (hm : SpanIn V M samples) {R L : ℚ}
    (ht : FrankWolfeTrains M' outputs samples R L) : FrankWolfeTrains M outputs samples R L := by
  intro order h1 o h2 h3 h4 h5 h6 h7 h8 h9 h10 h11
  obtain ⟨o', w, hf, hw, hn⟩ := ht order h1 o h2 h3 h4 h5 h6 h7 h8 h9 h10 h11
  rw [h.fw_fit hV hm (by rw [h2]; simp)] at hf
  rw [agree_problem h] at hn
  exact ⟨o', w, hf, hw, hn⟩

/-- `SubgradientTrains` for learners whose weights from an earlier fit, if there are any, satisfy `V`. -/
def SubgradientTrainsFrom (V : W → Prop) (m : SModel X Y) (outputs : X → Set Y) (samples : List (X × Y)) : Prop :=
  ∀ (o : Subgradient.Obj) (t0 : ℚ), (∀ w, o.w = some w → V w) → Pegasos o.cfg t0 → (o.cfg.averaging = .none ∨ o.t = 0) →
    EvenBatches o.cfg samples.length → ModeOk m o.cfg →
    ∃ u a, (problemOf m outputs).IsRiskMin o.cfg.C samples u a ∧ ∀ ε : ℚ, 0 < ε → ∃ N₀, ∀ N ≥ N₀,
      ∀ order : ℕ → List (X × Y), (∀ it, (order it).Perm samples) →
      ∃ o' w obj, Subgradient.fit m order (withMaxIter o N) samples false = .ok o' ∧ o'.w = some w ∧
        o'.curves.objective.getLast? = some obj ∧ (problemOf m outputs).IsObjective o.cfg.C samples w obj ∧
        ∑ k ∈ range m.dim, (w k - u k) ^ 2 ≤ ε ∧ obj ≤ a + ε

theorem subgradient_transfer (hV : LinearSpace V) (h : Agree V samples M M') (hm : SpanIn V M samples)
    (ht : SubgradientTrains M' outputs samples) : SubgradientTrainsFrom V M outputs samples := by
  intro o t0 ho h1 h2 h3 h4
  have h4' : ModeOk M' o.cfg := by
    unfold ModeOk
    rw [h.rescaleC]
    exact h4
  obtain ⟨u, a, hmin, hconv⟩ := ht o t0 h1 h2 h3 h4'
  rw [agree_problem h] at hmin
  refine ⟨u, a, hmin, fun ε hε => ?_⟩
  obtain ⟨N₀, hN⟩ := hconv ε hε
  refine ⟨N₀, fun N hge order hord => ?_⟩
  obtain ⟨o', w, obj, hf, hw, hl, hobj, hd, ha⟩ := hN N hge order hord
  rw [h.sub_fit hV hm (fun it s hs => (hord it).mem_iff.mp hs) (o := withMaxIter o N) ho] at hf
  rw [agree_problem h] at hobj
  rw [h.dim] at hd
  exact ⟨o', w, obj, hf, hw, hl, hobj, hd, ha⟩

end transfer

/-! ### symmetrised weights -/

/-- weights with the blocks of the features declared (anti)symmetric replaced by their (anti)symmetric parts. -/
def symW (m : EdgeFeature.Model) (w : W) : W := fun i =>
  if i < m.nStates * m.nFeatures then w i
  else proj m.sym m.anti ((i - m.nStates * m.nFeatures) / m.nStates ^ 2)
    (EW m w ((i - m.nStates * m.nFeatures) / m.nStates ^ 2))
    ((i - m.nStates * m.nFeatures) % m.nStates ^ 2 / m.nStates) ((i - m.nStates * m.nFeatures) % m.nStates)

theorem EW_symW (m : EdgeFeature.Model) (w : W) (k : ℕ) {a b : ℕ} (ha : a < m.nStates) (hb : b < m.nStates) :
    EW m (symW m w) k a b = proj m.sym m.anti k (EW m w k) a b := by
  have hlt : a * m.nStates + b < m.nStates ^ 2 := by
    rw [sq]
    exact flat_lt ha hb
  have hmod : (k * m.nStates ^ 2 + (a * m.nStates + b)) % m.nStates = b := by
    rw [sq, ← mul_assoc, ← add_assoc, ← add_mul, flat_mod hb]
  rw [EW]
  unfold symW
  rw [if_neg (by omega), Nat.add_sub_cancel_left, flat_div hlt, flat_mod hlt, flat_div hb, hmod]

theorem proj_respects {m : EdgeFeature.Model} {w : W} (h : RespectsSymmetry m.nStates m.nFeatures m.sym m.anti w) (k : ℕ) {a b : ℕ}
    (ha : a < m.nStates) (hb : b < m.nStates) : proj m.sym m.anti k (EW m w k) a b = EW m w k a b := by
  unfold proj
  split
  · rename_i hk
    have := h.2 k hk _ ha _ hb
    rw [← EW_flat m w k, ← EW_flat m w k] at this
    rw [this]; ring
  · split
    · rename_i hk
      have := h.1 k hk _ ha _ hb
      rw [← EW_flat m w k, ← EW_flat m w k] at this
      rw [this]; ring
    · rfl

theorem symW_of_respects {m : EdgeFeature.Model} (hS : 1 ≤ m.nStates) {w : W}
    (h : RespectsSymmetry m.nStates m.nFeatures m.sym m.anti w) : symW m w = w := by
  funext i
  by_cases hi : i < m.nStates * m.nFeatures
  · unfold symW
    rw [if_pos hi]
  · obtain ⟨j, rfl⟩ : ∃ j, i = m.nStates * m.nFeatures + j := ⟨i - m.nStates * m.nFeatures, by omega⟩
    have hj : j / m.nStates ^ 2 * m.nStates ^ 2 + (j % m.nStates ^ 2 / m.nStates * m.nStates + j % m.nStates) = j := by
      have h1 : j % m.nStates ^ 2 % m.nStates = j % m.nStates := Nat.mod_mod_of_dvd _ (Dvd.intro_left _ (sq _).symm)
      rw [← h1, mul_comm (j % m.nStates ^ 2 / m.nStates), Nat.div_add_mod, mul_comm, Nat.div_add_mod]
    have hp : 0 < m.nStates ^ 2 := by positivity
    have ha : j % m.nStates ^ 2 / m.nStates < m.nStates := by
      rw [Nat.div_lt_iff_lt_mul hS, ← sq]
      exact Nat.mod_lt _ hp
    have hb : j % m.nStates < m.nStates := Nat.mod_lt _ hS
    have h1 : EW m (symW m w) (j / m.nStates ^ 2) (j % m.nStates ^ 2 / m.nStates) (j % m.nStates) =
        EW m w (j / m.nStates ^ 2) (j % m.nStates ^ 2 / m.nStates) (j % m.nStates) := by
      rw [EW_symW m w _ ha hb, proj_respects h _ ha hb]
    unfold EW at h1
    rwa [hj] at h1

theorem symW_respects (m : EdgeFeature.Model) (hdis : ∀ i ∈ m.sym, i ∉ m.anti) (w : W) :
    RespectsSymmetry m.nStates m.nFeatures m.sym m.anti (symW m w) := by
  refine ⟨fun k hk a ha b hb => ?_, fun k hk a ha b hb => ?_⟩
  · rw [← EW_flat m (symW m w), ← EW_flat m (symW m w), EW_symW m w k ha hb, EW_symW m w k hb ha]
    unfold proj
    rw [if_neg (hdis k hk), if_pos hk, if_neg (hdis k hk), if_pos hk, add_comm]
  · rw [← EW_flat m (symW m w), ← EW_flat m (symW m w), EW_symW m w k ha hb, EW_symW m w k hb ha]
    unfold proj
    rw [if_pos hk, if_pos hk]
    ring

theorem EU_symW (m : EdgeFeature.Model) (w : W) (x : Mat) (i : ℕ) {s : ℕ} (hs : s < m.nStates) : EU m x (symW m w) i s = EU m x w i s := by
  unfold EU symW
  exact sum_congr rfl fun f hf => by simp only [if_pos (flat_lt hs (mem_range.mp hf))]

/-- Symmetrising the weights does not change the score of any output. -/
theorem value_symW {m : EdgeFeature.Model} (hmod : checkModel m = .ok ()) {x : EdgeFeature.X} (h : EdgeFits m x) {v : YVal}
    (hv : IsRelaxed x.features.rows m.nStates x.edges v) (w : W) :
    dot (EdgeFeature.sizeJointFeature m) (symW m w) (edgeFeature m x v) =
      dot (EdgeFeature.sizeJointFeature m) w (edgeFeature m x v) := by
  rw [edge_value hmod h hv, edge_value hmod h hv]
  refine edgeScore_congr (fun i _ s hs => EU_symW m w _ i hs) (fun e _ a ha b hb => ?_) v
  rw [symEP_eq (symW_respects m (checkModel_ok hmod).2 w) _ e a b ha hb]
  unfold EP symEP
  exact sum_congr rfl fun k _ => by rw [EW_symW m w k ha hb]

/-! ### the model with symmetrised weights -/

/-- the model that symmetrises the weights before inference. -/
def symmetrisedModel (backend : Bool → Infer) (cw : Vec) (m : EdgeFeature.Model) : SModel EdgeFeature.X YVal :=
  { edgeModel backend cw m with
    lossAug := fun x y w r => (edgeModel backend cw m).lossAug x y (symW m w) r
    inference := fun x w => (edgeModel backend cw m).inference x (symW m w) }

theorem symmetrised_agree (backend : Bool → Infer) (cw : Vec) (m : EdgeFeature.Model) (hS : 1 ≤ m.nStates)
    (samples : List (EdgeFeature.X × YVal)) :
    Agree (RespectsSymmetry m.nStates m.nFeatures m.sym m.anti) samples (edgeModel backend cw m) (symmetrisedModel backend cw m) where
  dim := rfl
  jointFeature := rfl
  rescaleC := rfl
  jointFeatureR := rfl
  isTuple := rfl
  loss := rfl
  continuousLoss := rfl
  maxLoss := rfl
  lossAug := fun s _ w hw r => by
    change (edgeModel backend cw m).lossAug s.1 s.2 (symW m w) r = _
    rw [symW_of_respects hS hw]
  inference := fun s _ w hw => by
    change (edgeModel backend cw m).inference s.1 (symW m w) = _
    rw [symW_of_respects hS hw]

theorem edge_span (backend : Bool → Infer) (cw : Vec) (m : EdgeFeature.Model) (hmod : checkModel m = .ok ())
    (samples : List (EdgeFeature.X × YVal)) :
    SpanIn (RespectsSymmetry m.nStates m.nFeatures m.sym m.anti) (edgeModel backend cw m) samples :=
  fun s _ _ => edge_diff_in hmod s _

/-- An `EdgeFeatureGraphCRF` that symmetrises its weights, with an inference method that finds the best output. -/
theorem symmetrised_learner {backend : Bool → Infer} {cw : Vec} {m : EdgeFeature.Model} (hmod : checkModel m = .ok ())
    (hpos : 0 < m.nEdgeFeatures) (hS : 2 ≤ m.nStates) (hc : cw.size = m.nStates) (hcw : ∀ c < m.nStates, 0 < cw.get c)
    {O : ℕ → Edges → Set YVal} (hO : ∀ n edges, ∀ v ∈ O n edges, IsRelaxed n m.nStates edges v)
    (hsolve : SolvesEdges m.nStates O (backend true)) :
    PairwiseLearner (symmetrisedModel backend cw m) m.nStates cw (fun x => x.features.rows) (fun x => x.edges) (EdgeFits m)
      (fun x => O x.features.rows x.edges) (edgeBound m) := by
  have hS1 : 1 ≤ m.nStates := by omega
  have hval : ∀ w x y ŷ, y ∈ edgeOutputs m O x → ŷ ∈ edgeOutputs m O x →
      (problemOf (edgeModel backend cw m) (edgeOutputs m O)).violation (symW m w) x y ŷ =
        (problemOf (symmetrisedModel backend cw m) (edgeOutputs m O)).violation w x y ŷ := by
    intro w x y ŷ hy hŷ
    have h1 : dot (EdgeFeature.sizeJointFeature m) (symW m w) (edgeFeature m x y) = _ := value_symW hmod hy.1 (hO _ _ _ hy.2) w
    have h2 : dot (EdgeFeature.sizeJointFeature m) (symW m w) (edgeFeature m x ŷ) = _ := value_symW hmod hy.1 (hO _ _ _ hŷ.2) w
    change (edgeModel backend cw m).lossOf y ŷ + dot (EdgeFeature.sizeJointFeature m) (symW m w) (edgeFeature m x ŷ) -
      dot (EdgeFeature.sizeJointFeature m) (symW m w) (edgeFeature m x y) = _
    rw [h1, h2]
    rfl
  exact {
    plain := rfl
    states := hS
    weights := hc
    weights_pos := hcw
    nodes_pos := fun x hx => hx.1
    edges_in := fun x hx => hx.2.2.1
    outputs := fun x _ v hv => hO _ _ v hv
    exact_lossAug := fun x y w hy h0 => by
      obtain ⟨h1, h2⟩ := edge_exact_at hmod hpos hS1 hc hO true hsolve x y (symW m w) (symW_respects m (checkModel_ok hmod).2 w) hy h0
      refine ⟨h1, fun ŷ hŷ => ?_⟩
      have h3 := h2 ŷ hŷ
      rw [hval w x y ŷ hy hŷ, hval w x y _ hy h1] at h3
      exact h3
    lossOf := fun x _ t v ht htv hv => (edge_lossOf (backend := backend) hS1 hc ht htv hv :)
    feature := fun x hx y z hy hz hag k hk => edge_feature_congr hmod hx hy hz hag k hk
    bound_nonneg := edgeBound_nonneg m
    range := fun x hx y hy z hz =>
      edge_range (backend := backend) (cw := cw) hmod hO [(x, y)] (edgeBound m x) (by simp) (x, y) (by simp) y ⟨hx, hy⟩ z ⟨hx, hz⟩ }

/-! ### training -/

/-- **C113 (relaxed inference).** An `EdgeFeatureGraphCRF` with any symmetric and antisymmetric edge features that its constructor
accepts, on arbitrary graphs, with LP inference or AD3: the one-slack learner and the Frank-Wolfe learner return weights whose risk,
with relaxed labellings as competitors, is close to the minimum over all weights, symmetric or not. -/
theorem C113_relaxed (P : Packages) (method : Method) (cw : Vec) (m : EdgeFeature.Model) (hmod : checkModel m = .ok ())
    (hpos : 0 < m.nEdgeFeatures) (hS : 2 ≤ m.nStates) (hc : cw.size = m.nStates) (hcw : ∀ c < m.nStates, 0 < cw.get c)
    (hP : Relaxes m.nStates P method) (data : List (EdgeFeature.X × Labels)) (hne : data ≠ []) (hd : EdgeData m data)
    (R : ℚ) (hR : ∀ d ∈ data, edgeBound m d.1 ≤ R) :
    OneSlackTrains (edgeModel (backend P method) cw m) (edgeOutputs m (relaxedOutputs m.nStates)) (labelled data) R
      (totalWeight cw data) ∧
    FrankWolfeTrains (edgeModel (backend P method) cw m) (edgeOutputs m (relaxedOutputs m.nStates)) (labelled data) R
      (totalWeight cw data) := by
  obtain ⟨h1, h2⟩ := (symmetrised_learner (backend := backend P method) hmod hpos hS hc hcw (fun _ _ _ h => h)
    (relaxes_solves_edges (by omega) hP)).trains data hne
    (fun d hdm => ⟨(hd d hdm).1, (hd d hdm).2.1, (hd d hdm).2.2, fun _ hv => .inl hv⟩) R hR
  have hV := respects_linear m.nStates m.nFeatures m.sym m.anti
  have hag := symmetrised_agree (backend P method) cw m (by omega) (labelled data)
  have hsp := edge_span (backend P method) cw m hmod (labelled data)
  exact ⟨oneslack_transfer hV hag hsp h1, frankwolfe_transfer hV hag hsp h2⟩

/-- What all four learners achieve for discrete competitors. -/
def AllTrain (M : SModel EdgeFeature.X YVal) (V : W → Prop) (outputs : EdgeFeature.X → Set YVal) (cw : Vec)
    (data : List (EdgeFeature.X × Labels)) (R : ℚ) : Prop :=
  OneSlackTrains M outputs (labelled data) R (totalWeight cw data) ∧
  ((∃ d ∈ data, 1 / 10 ^ 5 ≤ ∑ i ∈ range d.2.size, cw.get (d.2.get i)) →
    NSlackTrains M outputs graphEq (labelled data) R (totalWeight cw data)) ∧
  FrankWolfeTrains M outputs (labelled data) R (totalWeight cw data) ∧ SubgradientTrainsFrom V M outputs (labelled data)

theorem sym_all_train {backend : Bool → Infer} {cw : Vec} {m : EdgeFeature.Model} (hmod : checkModel m = .ok ())
    (hpos : 0 < m.nEdgeFeatures) (hS : 2 ≤ m.nStates) (hc : cw.size = m.nStates) (hcw : ∀ c < m.nStates, 0 < cw.get c)
    {O : ℕ → Edges → Set YVal} (hO : ∀ n edges, ∀ v ∈ O n edges, IsLabelling n m.nStates v)
    (hsolve : SolvesEdges m.nStates O (backend true))
    (data : List (EdgeFeature.X × Labels)) (hne : data ≠ []) (hd : EdgeData m data)
    (hall : ∀ d ∈ data, ∀ v, IsLabelling d.1.features.rows m.nStates v → v ∈ O d.1.features.rows d.1.edges)
    (R : ℚ) (hR : ∀ d ∈ data, edgeBound m d.1 ≤ R) :
    AllTrain (edgeModel backend cw m) (RespectsSymmetry m.nStates m.nFeatures m.sym m.anti) (edgeOutputs m O) cw data R := by
  have h := symmetrised_learner (backend := backend) hmod hpos hS hc hcw (fun n edges v hv => .inl (hO n edges v hv)) hsolve
  have hd' : LabelledData m.nStates (fun x : EdgeFeature.X => x.features.rows) (EdgeFits m)
      (fun x => O x.features.rows x.edges) data :=
    fun d hdm => ⟨(hd d hdm).1, (hd d hdm).2.1, (hd d hdm).2.2, hall d hdm⟩
  obtain ⟨h1, h2⟩ := h.trains data hne hd' R hR
  obtain ⟨h3, h4⟩ := h.trains_discrete (fun x _ v hv => hO _ _ v hv) data hne hd' R hR
  have hV := respects_linear m.nStates m.nFeatures m.sym m.anti
  have hag := symmetrised_agree backend cw m (by omega) (labelled data)
  have hsp := edge_span backend cw m hmod (labelled data)
  exact ⟨oneslack_transfer hV hag hsp h1, fun hex => nslack_transfer hV hag hsp (h3 hex), frankwolfe_transfer hV hag hsp h2,
    subgradient_transfer hV hag hsp h4⟩

/-- **C113 (exact inference).** With an exact AD3, on arbitrary graphs, all four learners return weights whose risk is close to the
minimum over all weights; competitors are all labellings. -/
theorem C113_exact (P : Packages) (solve solve') (hP : P.ad3 = some (solve, solve')) (hex : Ad3AlwaysExact solve) (cw : Vec)
    (m : EdgeFeature.Model) (hmod : checkModel m = .ok ()) (hpos : 0 < m.nEdgeFeatures) (hS : 2 ≤ m.nStates)
    (hc : cw.size = m.nStates) (hcw : ∀ c < m.nStates, 0 < cw.get c) (data : List (EdgeFeature.X × Labels)) (hne : data ≠ [])
    (hd : EdgeData m data) (R : ℚ) (hR : ∀ d ∈ data, edgeBound m d.1 ≤ R) :
    AllTrain (edgeModel (backend P (.name "ad3")) cw m) (RespectsSymmetry m.nStates m.nFeatures m.sym m.anti)
      (edgeOutputs m (labellings m.nStates)) cw data R :=
  sym_all_train hmod hpos hS hc hcw (fun _ _ _ hv => hv) (ad3_exact_solves_edges P (S := m.nStates) (by omega) hP hex true) data hne hd
    (fun _ _ _ hv => hv) R hR

/-- **C113 (chains).** With max-product, on chains, all four learners return weights whose risk is close to the minimum over all
weights. -/
theorem C113_chain (opts : MaxProd.Opts) (cw : Vec) (m : EdgeFeature.Model) (hmod : checkModel m = .ok ())
    (hpos : 0 < m.nEdgeFeatures) (hS : 2 ≤ m.nStates) (hc : cw.size = m.nStates) (hcw : ∀ c < m.nStates, 0 < cw.get c)
    (data : List (EdgeFeature.X × Labels)) (hne : data ≠ []) (hd : EdgeData m data)
    (hchain : ∀ d ∈ data, d.1.edges = chainEdges d.1.features.rows) (R : ℚ) (hR : ∀ d ∈ data, edgeBound m d.1 ≤ R) :
    AllTrain (edgeModel (fun _ => maxProductInfer opts) cw m) (RespectsSymmetry m.nStates m.nFeatures m.sym m.anti)
      (edgeOutputs m (chainOutputs m.nStates)) cw data R :=
  sym_all_train (O := chainOutputs m.nStates) hmod hpos hS hc hcw (fun _ _ _ hv => hv.2) (chain_solves_edges opts (S := m.nStates) (by omega)) data hne hd
    (fun d hdm _ hv => ⟨hchain d hdm, hv⟩) R hR

/-! ### the hypotheses can be met -/

/-- the training data of `efChain` fits a model with a symmetric and an antisymmetric feature. -/
theorem sym_chain : EdgeData symModel efChain := by
  intro d hd
  rw [efChain, List.mem_singleton] at hd
  subst hd
  refine ⟨⟨by decide, rfl, ?_, rfl, rfl⟩, rfl, ?_⟩
  · unfold EdgesIn; decide
  · unfold Valid; decide

theorem sym_data : EdgeData symModel efData := by
  intro d hd
  rw [efData, List.mem_singleton] at hd
  subst hd
  refine ⟨⟨by decide, rfl, ?_, rfl, rfl⟩, rfl, ?_⟩
  · unfold EdgesIn; decide
  · unfold Valid; decide

theorem sym_bound : ∀ d ∈ efData, edgeBound symModel d.1 ≤ 198 := by
  intro d hd
  rw [efData, List.mem_singleton] at hd
  subst hd
  decide +kernel

theorem sym_chain_bound : ∀ d ∈ efChain, edgeBound symModel d.1 ≤ 58 := by
  intro d hd
  rw [efChain, List.mem_singleton] at hd
  subst hd
  decide +kernel

/-- one-slack training with LP inference returns near-optimal weights, and they respect the declared symmetries. -/
example : ∃ o' a, OneSlack.fit (edgeModel (backend idealPackages (.name "lp")) ⟨2, fun _ => 1⟩ symModel) QP.ideal
    (fun _ _ => .error .typeError) none (fun _ => none)
    ⟨⟨10000, 1, false, none, false, 0, 1 / 2, 0, 1 / 10 ^ 5, 0, .auto⟩, none, []⟩ (labelled efData) .no = .ok o' ∧
    o'.attrs = some a ∧ RespectsSymmetry 2 1 [0] [1] a.w ∧
    (problemOf (edgeModel (backend idealPackages (.name "lp")) ⟨2, fun _ => 1⟩ symModel)
      (edgeOutputs symModel (relaxedOutputs 2))).NearOptimal 1 (labelled efData) (1 / 2) a.w := by
  obtain ⟨h, -⟩ := C113_relaxed idealPackages (.name "lp") ⟨2, fun _ => 1⟩ symModel rfl (by decide) (by decide) rfl
    (by decide +kernel) (idealPackages_relaxes _ (by decide)) efData (by decide) sym_data 198 sym_bound
  obtain ⟨o', a, h1, h2, h3⟩ := h QP.ideal QP.ideal_exact.1 QP.ideal_exact.2 (fun _ _ => .error .typeError)
    ⟨⟨10000, 1, false, none, false, 0, 1 / 2, 0, 1 / 10 ^ 5, 0, .auto⟩, none, []⟩ (.inl rfl) (by norm_num) (by norm_num)
    (by norm_num) rfl (by norm_num) rfl rfl (by norm_num) (1 / 1584) (by norm_num)
    (by decide +kernel) (by decide +kernel) (by decide +kernel)
  refine ⟨o', a, h1, h2, C112_edge_symmetry _ _ symModel rfl none _ _ (.oneslack _ _ _ _ _ h1 _ h2), ?_⟩
  have : (1 : ℚ) * (labelled efData).length * (1 / 2) = 1 / 2 := by decide +kernel
  rw [← this]
  exact h3

example : ∃ P : Packages, AllTrain (edgeModel (backend P (.name "ad3")) ⟨2, fun _ => 1⟩ symModel) (RespectsSymmetry 2 1 [0] [1])
    (edgeOutputs symModel (labellings 2)) ⟨2, fun _ => 1⟩ efData 198 := by
  obtain ⟨solve, hsolve⟩ := exact_ad3_exists
  refine ⟨⟨none, LP.ideal, some (solve, fun U edges _ _ r => solve U edges ⟨0, 0, 0, fun _ _ _ => 0⟩ r), none⟩, ?_⟩
  exact C113_exact _ solve _ rfl hsolve ⟨2, fun _ => 1⟩ symModel rfl (by decide) (by decide) rfl (by decide +kernel) efData (by decide) sym_data
    198 sym_bound

example : AllTrain (edgeModel (fun _ => maxProductInfer {}) ⟨2, fun _ => 1⟩ symModel) (RespectsSymmetry 2 1 [0] [1])
    (edgeOutputs symModel (chainOutputs 2)) ⟨2, fun _ => 1⟩ efChain 58 :=
  C113_chain {} ⟨2, fun _ => 1⟩ symModel rfl (by decide) (by decide) rfl (by decide +kernel) efChain (by decide) sym_chain (by decide)
    58 sym_chain_bound

end Verif.Props
