import Verif.Lemmas.SpanLatent
import Verif.Lemmas.NodeTraining
import Verif.Props.C129

/-!
# `EdgeFeatureLatentNodeCRF` behind the interface of the latent learners
-/

namespace Verif.Props

open Finset Verif.Common Verif.Spec Verif.Learner Verif.LatentNode Verif.Lemmas
open Verif.GraphCRF (Infer)

/-! ### completions of maximal score exist -/

theorem HiddenNodes.completes {X : Type} {m : SModel X YVal} {L S : ℕ} {cw : Vec} {nv nh : X → ℕ} {data : List (X × Labels)} {R : ℚ}
    (hm : HiddenNodes m L S cw nv nh data R) :
    ∃ lat, ∀ w, (problemOf m (legalOutputs L S nv nh data)).ExactCompletionAt (legalCompletions L S nv nh data) lat data w := by
  classical
  have key : ∀ x (y : Labels) w, ∃ v, (x, y) ∈ data → v ∈ legalCompletions L S nv nh data x y ∧
      ∀ v' ∈ legalCompletions L S nv nh data x y, (problemOf m (legalOutputs L S nv nh data)).value w x v' v' ≤
        (problemOf m (legalOutputs L S nv nh data)).value w x v v := by
    intro x y w
    by_cases hd : (x, y) ∈ data
    swap
    · exact ⟨.discrete y, fun h => absurd h hd⟩
    set n := nv x + nh x with hn
    have hval : ∀ h : ℕ → ℕ, Legal (nv x) (nh x) L S h → ∀ i < n, h i < S + L := by
      intro h hl i hi
      by_cases h1 : i < nv x
      · have := hl.1 i h1
        omega
      · have := (hl.2 i (by omega) (by omega)).2
        omega
    let toL : (Fin n → Fin (S + L)) → Labels := fun f => ⟨n, fun i => if h : i < n then (f ⟨i, h⟩ : ℕ) else 0⟩
    let fin : Set (Fin n → Fin (S + L)) := {f | Legal (nv x) (nh x) L S (toL f).get ∧ ∀ i < nv x, (toL f).get i = y.get i}
    have hpos : ∀ f : Fin n → Fin (S + L), ∀ i, (h : i < n) → (toL f).get i = f ⟨i, h⟩ := by
      intro f i h
      change (if h : i < n then (f ⟨i, h⟩ : ℕ) else 0) = _
      rw [dif_pos h]
    have hof : ∀ h : Labels, Legal (nv x) (nh x) L S h.get → (∀ i < nv x, h.get i = y.get i) →
        ∃ f ∈ fin, ∀ i < n, (toL f).get i = h.get i := by
      intro h hl hy
      let f : Fin n → Fin (S + L) := fun i => ⟨h.get i, hval _ hl i i.2⟩
      have e : ∀ i < n, (toL f).get i = h.get i := fun i hi => hpos f i hi
      refine ⟨f, ⟨⟨fun i hi => ?_, fun i hi hi' => ?_⟩, fun i hi => ?_⟩, e⟩
      · rw [e i (by omega)]
        exact hl.1 i hi
      · rw [e i (by omega)]
        exact hl.2 i hi hi'
      · rw [e i (by omega)]
        exact hy i hi
    obtain ⟨-, -, hyl⟩ := hm.samples _ hd
    have hh := hm.hidden _ hd
    simp only at hyl hh
    obtain ⟨f0, hf0, -⟩ := hof ⟨n, fun i => if i < nv x then y.get i else L⟩ ⟨fun i hi => by simp only [if_pos hi]; exact hyl i hi,
      fun i hi hi' => by simp only [if_neg (by omega : ¬ i < nv x)]; exact ⟨le_rfl, hh (by omega)⟩⟩
      (fun i hi => by simp only [if_pos hi])
    obtain ⟨f, hf, hmax⟩ := Set.exists_max_image fin
      (fun f => (problemOf m (legalOutputs L S nv nh data)).value w x (.discrete (toL f)) (.discrete (toL f))) (Set.toFinite _) ⟨f0, hf0⟩
    refine ⟨.discrete (toL f), fun _ => ⟨⟨hd, _, rfl, rfl, hf.1, hf.2⟩, ?_⟩⟩
    rintro z ⟨-, z, rfl, zs, zl, zy⟩
    obtain ⟨g, hg, hgz⟩ := hof z zl zy
    refine le_trans (le_of_eq ?_) (hmax g hg)
    unfold Problem.value
    refine sum_congr rfl fun k hk => ?_
    change w k * m.feat _ _ _ k = w k * m.feat _ _ _ k
    rw [hm.feat_eq, hm.feat_eq]
    congr 1
    exact hm.feature _ hd z (toL g) zs rfl zl hg.1 (fun i hi => (hgz i hi).symm) k (mem_range.mp hk)
  choose lat hlat using key
  exact ⟨lat, fun w s hs => hlat s.1 s.2 w hs⟩

/-! ### the symmetries of joint features -/

/-- Weights that have the declared symmetries. -/
def NodeSymmetric (m : EModel) (w : W) : Prop :=
  EdgeSymmetric m.base.nStates (m.base.nInput * m.base.nFeatures) m.sym m.anti w

theorem nodeSymmetric_linear (m : EModel) : LinearSpace (NodeSymmetric m) where
  zero := ⟨fun _ _ _ _ _ _ => rfl, fun _ _ _ _ _ _ => by simp⟩
  add u v hu hv := by
    refine ⟨fun k hk a ha b hb => ?_, fun k hk a ha b hb => ?_⟩
    · simp only
      rw [hu.1 k hk a ha b hb, hv.1 k hk a ha b hb]
    · simp only
      rw [hu.2 k hk a ha b hb, hv.2 k hk a ha b hb]
      ring
  smul c u hu := by
    refine ⟨fun k hk a ha b hb => ?_, fun k hk a ha b hb => ?_⟩
    · simp only
      rw [hu.1 k hk a ha b hb]
    · simp only
      rw [hu.2 k hk a ha b hb]
      ring

theorem eMarginals_cols {S : ℕ} {x : EX} {y : YVal} {r : Mat × Mat} (h : eMarginals S x y = .ok r) :
    r.1.cols = S ∧ r.2.cols = S ^ 2 := by
  unfold eMarginals at h
  cases y with
  | relaxed u p =>
    simp only [bind, Except.bind, Vec.reshape2] at h
    by_cases h1 : u.size = u.size / S * S
    · rw [if_pos h1] at h
      by_cases h2 : p.size = x.edgeFeatures.rows * S ^ 2
      · rw [if_pos h2] at h
        cases h
        exact ⟨rfl, rfl⟩
      · rw [if_neg h2] at h
        cases h
    · rw [if_neg h1] at h
      cases h
  | discrete l =>
    simp only [bind, Except.bind] at h
    cases ho : GraphCRF.oneHot l.size S l with
    | error e => rw [ho] at h; cases h
    | ok U =>
      rw [ho] at h
      simp only at h
      have hU : U.cols = S := by
        unfold GraphCRF.oneHot at ho
        split at ho
        · cases ho
        · split at ho
          · cases ho
          · cases ho
            rfl
      split at h
      · cases h
      · split at h
        · cases h
        · cases h
          exact ⟨hU, rfl⟩

theorem flat_offset {S a b k : ℕ} (ha : a < S) (hb : b < S) :
    (k * S ^ 2 + a * S + b) / S ^ 2 = k ∧ (k * S ^ 2 + a * S + b) % S ^ 2 = a * S + b := by
  have h1 : a * S + b < S ^ 2 := by rw [pow_two]; exact flat_lt ha hb
  rw [add_assoc]
  exact ⟨flat_div h1, flat_mod h1⟩

/-- Joint features have the declared symmetries, whatever the output. -/
theorem eJointFeature_symmetric {m : EModel} (hmod : eCheckModel m = .ok ()) (x : EX) (y : YVal) :
    NodeSymmetric m (okD ⟨0, fun _ => 0⟩ (eJointFeature m x y)).get := by
  have hdis : ∀ i ∈ m.sym, i ∉ m.anti := by
    unfold eCheckModel at hmod
    split at hmod
    · cases hmod
    · rename_i h1; exact not_not.mp h1
  cases hj : eJointFeature m x y with
  | error e => exact (nodeSymmetric_linear m).zero
  | ok ψ =>
    change NodeSymmetric m ψ.get
    unfold eJointFeature at hj
    simp only [bind, Except.bind] at hj
    cases hcx : eCheckSizeX m x with
    | error e => rw [hcx] at hj; cases hj
    | ok u =>
    rw [hcx] at hj
    simp only at hj
    have hF : x.features.cols = m.base.nFeatures := by
      unfold eCheckSizeX at hcx
      split at hcx
      · cases hcx
      · rename_i h; exact not_not.mp h
    cases hmg : eMarginals m.base.nStates x y with
    | error e => rw [hmg] at hj; cases hj
    | ok r =>
    rw [hmg] at hj
    obtain ⟨hc1, hc2⟩ := eMarginals_cols hmg
    obtain ⟨um, pm⟩ := r
    simp only at hj hc1 hc2
    cases hpw : x.edgeFeatures.T.mul pm with
    | error e => rw [hpw] at hj; cases hj
    | ok pw =>
    rw [hpw] at hj
    simp only at hj
    have hpc : pw.cols = m.base.nStates ^ 2 := by
      unfold Mat.mul at hpw
      split at hpw
      · cases hpw; exact hc2
      · cases hpw
    split at hj
    · cases hj
    cases hacc : accumulate um m.base.nInput x.features with
    | error e => rw [hacc] at hj; cases hj
    | ok acc =>
    rw [hacc] at hj
    simp only [pure, Except.pure, Except.ok.injEq] at hj
    have hsz : acc.ravel.size = m.base.nInput * m.base.nFeatures := by
      unfold accumulate Mat.mul Mat.T at hacc
      simp only at hacc
      split at hacc
      · cases hacc
        unfold Mat.ravel
        simp only [hc1, hF]
        rw [Nat.min_eq_left (nInput_le m.base)]
      · cases hacc
    have hget : ∀ k, ∀ a < m.base.nStates, ∀ b < m.base.nStates,
        ψ.get (m.base.nInput * m.base.nFeatures + k * m.base.nStates ^ 2 + a * m.base.nStates + b) =
        EdgeFeature.proj m.sym m.anti k (fun a b => pw.get k (a * m.base.nStates + b)) a b := by
      intro k a ha b hb
      rw [← hj, ← EdgeFeature.symmetrise_get _ _ _ hdis _ _ _ _ ha hb]
      unfold Vec.append
      simp only
      rw [if_neg (by rw [hsz]; omega), hsz]
      unfold Mat.ravel
      simp only
      rw [hpc]
      obtain ⟨h1, h2⟩ := flat_offset (k := k) ha hb
      have e : m.base.nInput * m.base.nFeatures + k * m.base.nStates ^ 2 + a * m.base.nStates + b - m.base.nInput * m.base.nFeatures =
          k * m.base.nStates ^ 2 + a * m.base.nStates + b := by omega
      rw [e, h1, h2]
    refine ⟨fun k hk a ha b hb => ?_, fun k hk a ha b hb => ?_⟩
    · rw [hget k a ha b hb, hget k b hb a ha]
      unfold EdgeFeature.proj
      rw [if_neg (hdis k hk), if_neg (hdis k hk), if_pos hk, if_pos hk]
      ring
    · rw [hget k a ha b hb, hget k b hb a ha]
      unfold EdgeFeature.proj
      rw [if_pos hk, if_pos hk]
      ring

/-! ### potentials and scores -/

/-- The instance is well formed for the label array: features of the right size, edges between its nodes and features for them. There
must be edges, `joint_feature` fails otherwise. -/
def EdgeNodeFits (m : EModel) (x : EX) (y : Labels) : Prop :=
  1 ≤ y.size ∧ x.features.cols = m.base.nFeatures ∧
    x.features.rows = (if m.base.latentFeatures then y.size + x.nHidden else y.size) ∧ EdgesIn (y.size + x.nHidden) x.edges ∧
    x.edges ≠ [] ∧ x.edgeFeatures.rows = x.edges.length ∧ x.edgeFeatures.cols = m.nEdgeFeatures ∧ ∀ i < y.size, y.get i < m.base.nLabels

/-- number of visible nodes of an instance of an `EdgeFeatureLatentNodeCRF`. -/
def exVisible (m : EModel) (x : EX) : ℕ := visibleNodes m.base.latentFeatures x.features.rows x.nHidden

theorem EdgeNodeFits.visible {m : EModel} {x : EX} {y : Labels} (h : EdgeNodeFits m x y) : exVisible m x = y.size :=
  visibleNodes_eq h.2.2.1

/-- The model is one that the constructor accepts, and the declared edge features exist. -/
structure EdgeNodeModel (m : EModel) : Prop where
  disjoint : eCheckModel m = .ok ()
  declared : ∀ i ∈ m.sym ++ m.anti, i < m.nEdgeFeatures
  features : 0 < m.nEdgeFeatures

/-- sum of the sizes of the features of an edge. -/
def edgeMass (ef : Mat) (e : ℕ) : ℚ := ∑ k ∈ range ef.cols, |ef.get e k|

theorem edgeNode_pairwise_le {m : EModel} {ρ : ℚ} (hρ : 0 ≤ ρ) {w : W} (hw : InBall (eSize m) (ρ ^ 2) w) {ef : Mat}
    (hK : ef.cols = m.nEdgeFeatures) {e a b : ℕ} (ha : a < m.base.nStates) (hb : b < m.base.nStates) :
    |EdgeFeature.EP (edgePart m) ef (fun k => w (m.base.nInput * m.base.nFeatures + k)) e a b| ≤ ρ * edgeMass ef e := by
  unfold EdgeFeature.EP edgeMass
  rw [hK, mul_sum]
  refine (abs_sum_le_sum_abs _ _).trans (sum_le_sum fun k hk => ?_)
  rw [abs_mul, mul_comm ρ]
  refine mul_le_mul_of_nonneg_left ?_ (abs_nonneg _)
  unfold EdgeFeature.EW
  refine hw.abs_le hρ ?_
  have h1 : a * m.base.nStates + b < m.base.nStates ^ 2 := by rw [pow_two]; exact flat_lt ha hb
  have h2 := flat_lt (mem_range.mp hk) h1
  unfold eSize
  simp only [Nat.mul_zero, Nat.zero_add]
  exact Nat.add_lt_add_left h2 _

theorem load_smul (c : ℚ) (edges : Edges) (q : ℕ → ℚ) (i : ℕ) : load edges (fun e => c * q e) i = c * load edges q i := by
  unfold load
  rw [mul_sum]
  exact sum_congr rfl fun e _ => by split <;> simp

/-- scores of legal labellings. -/
theorem edgeNode_value {backend : Bool → Infer} {cw : Vec} {m : EModel} (hm : EdgeNodeModel m) {outputs : EX → Set YVal}
    {x : EX} {a : ℕ} (hF : x.features.cols = m.base.nFeatures) (hEf : x.edgeFeatures.rows = x.edges.length)
    (hK : x.edgeFeatures.cols = m.nEdgeFeatures) (hne : x.edges ≠ [])
    (hr : x.features.rows = if m.base.latentFeatures then a + x.nHidden else a) {h : Labels} (hs : h.size = a + x.nHidden)
    (hl : Legal a x.nHidden m.base.nLabels m.base.nStates h.get) (hE : EdgesIn (a + x.nHidden) x.edges) (y : YVal) (w : ℕ → ℚ)
    (hw : NodeSymmetric m w) {U : Mat} {M : ℚ} (hU : UnarySpec m.base x.features w a x.nHidden U M) {P : ℕ → ℕ → ℕ → ℚ}
    (hP : ∀ e < x.edges.length, ∀ a < m.base.nStates, ∀ b < m.base.nStates, P e a b =
      EdgeFeature.EP (edgePart m) x.edgeFeatures (fun k => w (m.base.nInput * m.base.nFeatures + k)) e a b) :
    (problemOf (edgeLatentNodeModel backend cw m) outputs).value w x y (.discrete h) =
      Spec.score (a + x.nHidden) x.edges U.get P h.get := by
  obtain ⟨-, -, ψ, -, -, h3, h4, -, h6⟩ := C20_edge_latent_node_energy_partial m x ⟨eSize m, w⟩ h a hm.disjoint hm.declared hF hEf hK
    hm.features hr hne rfl hs hl hE hw
  have e : (problemOf (edgeLatentNodeModel backend cw m) outputs).value w x y (.discrete h) = dot (eSize m) w ψ.get := by
    change dot (eSize m) w (okD _ (eJointFeature m x (.discrete h))).get = _
    rw [h3]
    rfl
  unfold Vec.dot at h6
  rw [if_pos h4.symm] at h6
  simp only [Except.ok.injEq] at h6
  rw [e, h6]
  unfold Spec.score latentEdgeScore
  rw [unary_sum hU hl]
  congr 1
  have hv := hl.valid (nLabels_le m.base)
  refine sum_congr rfl fun e he => ?_
  have hm := hE _ (getD_mem (mem_range.mp he))
  rw [hP e (mem_range.mp he) _ (hv _ hm.1) _ (hv _ hm.2)]
  unfold EdgeFeature.EP
  refine sum_congr rfl fun k _ => ?_
  rw [mul_comm]
  unfold EdgeFeature.EW LatentNode.Model.nInput
  simp only
  congr 2
  ring

/-- The features of the instance are so small that weights of norm at most `ρ` cannot outweigh a penalty of 99 together with class
weights up to `κ`. -/
def EdgeNodeSmall (ρ κ : ℚ) (n : ℕ) (x : EX) : Prop :=
  ∀ i < n, ρ * (featureMass x.features i + 2 * load x.edges (edgeMass x.edgeFeatures) i) + κ < 99

/-- For short weights with the declared symmetries, loss-augmented inference is exact. -/
theorem edgeNode_exact {backend : Bool → Infer} {cw : Vec} {m : EModel} (hm : EdgeNodeModel m) {A : ℕ → Edges → Prop}
    {data : List (EX × Labels)}
    (hsolve : SolvesEdges m.base.nStates (AllOrNone m.base.nStates A) (backend true)) (hcw : cw.size = m.base.nLabels) {κ : ℚ} (hκ0 : 0 ≤ κ)
    (hκ : ∀ l : ℕ, l < m.base.nLabels → cw.get l ≤ κ) (hd : ∀ d ∈ data, EdgeNodeFits m d.1 d.2)
    (hA : ∀ d ∈ data, A (d.2.size + d.1.nHidden) d.1.edges) {ρ : ℚ} (hρ : 0 ≤ ρ)
    (hsmall : ∀ d ∈ data, EdgeNodeSmall ρ κ (d.2.size + d.1.nHidden) d.1) (x : EX) (y : YVal) (w : W)
    (hy : y ∈ legalOutputs m.base.nLabels m.base.nStates (exVisible m) EX.nHidden data x)
    (hw : InBall (eSize m) (ρ ^ 2) w) (hsym : NodeSymmetric m w) :
    (edgeLatentNodeModel backend cw m).lossAug x y w true ∈ legalOutputs m.base.nLabels m.base.nStates (exVisible m) EX.nHidden data x ∧
    ∀ z ∈ legalOutputs m.base.nLabels m.base.nStates (exVisible m) EX.nHidden data x,
      (problemOf (edgeLatentNodeModel backend cw m) (legalOutputs m.base.nLabels m.base.nStates (exVisible m) EX.nHidden data)).violation
        w x y z ≤
      (problemOf (edgeLatentNodeModel backend cw m) (legalOutputs m.base.nLabels m.base.nStates (exVisible m) EX.nHidden data)).violation
        w x y ((edgeLatentNodeModel backend cw m).lossAug x y w true) := by
  obtain ⟨⟨l, hl⟩, t, rfl, ts, tl⟩ := hy
  have hfit := hd _ hl
  have hAd := hA _ hl
  have hsm := hsmall _ hl
  have hvis := hfit.visible
  simp only at hfit hAd hsm hvis
  rw [hvis] at ts tl
  obtain ⟨ha, hF, hr, hE, hne, hEf, hK, -⟩ := hfit
  generalize l.size = a at *
  have hLS := nLabels_le m.base
  have hn : 0 < a + x.nHidden := by omega
  have hS := states_pos tl hn
  obtain ⟨U, M, hU, hs⟩ := eUnary_ok (w := ⟨eSize m, w⟩) hF hEf hK hr hn hS rfl
  obtain ⟨T, hT, hT0, hT1, hT2, hTe⟩ := ePairwise_ok (w := ⟨eSize m, w⟩) hF hEf hK hm.features rfl
  obtain ⟨d0, d1, d2, P⟩ := T
  simp only at hT0 hT1 hT2 hTe
  subst hT0 hT1 hT2
  obtain ⟨g, hinf, gs, gv, hbest⟩ := findsBest_edges hsolve hn hE hAd hS P (augmented m.base.nStates a cw.get t.get U.get)
  obtain ⟨hv1, hv2⟩ := node_unary_ge hs hF hr (ρ := ρ)
    (fun k hk => hw.abs_le hρ (lt_of_lt_of_le hk (Nat.le_add_right _ _)))
  have gl := visible_augmented_legal hs hE (P := P) (q := fun e => ρ * edgeMass x.edgeFeatures e)
    (fun e he _ ha _ hb => by rw [hTe e he _ ha _ hb]; exact edgeNode_pairwise_le hρ hw hK ha hb) hv1 hv2 hκ0 hκ tl (by
      intro i hi
      have := hsm i hi
      rw [load_smul]
      linarith) gv hbest
  have hla : (edgeLatentNodeModel backend cw m).lossAug x (.discrete t) w true = .discrete g := by
    change okD _ (eLossAugmentedInference (backend true) cw m x t ⟨eSize m, w⟩) = _
    unfold eLossAugmentedInference
    rw [GraphCRF.checkSizeW_ok (w := ⟨eSize m, w⟩) rfl, hU, hT]
    simp only [bind, Except.bind]
    rw [augment_legal hcw ts tl hs.rows]
    simp only
    rw [hs.rows, hs.cols, hinf]
    rfl
  simp only [hla]
  refine ⟨⟨⟨l, hl⟩, g, rfl, by rw [hvis]; exact gs, by rw [hvis]; exact gl⟩, ?_⟩
  rintro z ⟨-, z, rfl, zs, zl⟩
  rw [hvis] at zs zl
  have h1 := hbest z.get (zl.valid hLS)
  rw [visible_augmented_score hLS zl, visible_augmented_score hLS gl] at h1
  unfold Problem.violation
  rw [edgeNode_value hm hF hEf hK hne hr zs zl hE _ w hsym hs hTe, edgeNode_value hm hF hEf hK hne hr gs gl hE _ w hsym hs hTe]
  have l1 : (problemOf (edgeLatentNodeModel backend cw m)
      (legalOutputs m.base.nLabels m.base.nStates (exVisible m) EX.nHidden data)).loss
      (.discrete t) (.discrete z) = _ := node_loss_ok (S := m.base.nStates) hcw ts zs tl zl
  have l2 : (problemOf (edgeLatentNodeModel backend cw m)
      (legalOutputs m.base.nLabels m.base.nStates (exVisible m) EX.nHidden data)).loss
      (.discrete t) (.discrete g) = _ := node_loss_ok (S := m.base.nStates) hcw ts gs tl gl
  rw [l1, l2]
  linarith

/-- For short weights with the declared symmetries, `latent` returns a completion of maximal score. -/
theorem edgeNode_completion {backend : Bool → Infer} {cw : Vec} {m : EModel} (hm : EdgeNodeModel m) {km : KMeans} {A : ℕ → Edges → Prop}
    {data : List (EX × Labels)} (hhid : 0 < m.base.nHiddenStates)
    (hsolve : SolvesEdges m.base.nStates (AllOrNone m.base.nStates A) (backend false)) (hd : ∀ d ∈ data, EdgeNodeFits m d.1 d.2)
    (hA : ∀ d ∈ data, A (d.2.size + d.1.nHidden) d.1.edges) {ρ κ : ℚ} (hρ : 0 ≤ ρ) (hκ0 : 0 ≤ κ)
    (hsmall : ∀ d ∈ data, EdgeNodeSmall ρ κ (d.2.size + d.1.nHidden) d.1) (w : W) (hw : InBall (eSize m) (ρ ^ 2) w)
    (hsym : NodeSymmetric m w) :
    (problemOf (edgeLatentNodeModel backend cw m)
      (legalOutputs m.base.nLabels m.base.nStates (exVisible m) EX.nHidden data)).ExactCompletionAt
      (legalCompletions m.base.nLabels m.base.nStates (exVisible m) EX.nHidden data) (edgeLatentNode backend cw m km).latent data w := by
  rintro ⟨x, y⟩ hdm
  have hfit := hd _ hdm
  have hAd := hA _ hdm
  have hsm := hsmall _ hdm
  have hvis := hfit.visible
  simp only at hfit hAd hsm hvis
  obtain ⟨ha, hF, hr, hE, hne, hEf, hK, hyl⟩ := hfit
  have hLS := nLabels_le m.base
  have hn : 0 < y.size + x.nHidden := by omega
  have hS : 0 < m.base.nStates := by unfold LatentNode.Model.nStates; omega
  obtain ⟨U, M, hU, hs⟩ := eUnary_ok (w := ⟨eSize m, w⟩) hF hEf hK hr hn hS rfl
  obtain ⟨T, hT, hT0, hT1, hT2, hTe⟩ := ePairwise_ok (w := ⟨eSize m, w⟩) hF hEf hK hm.features rfl
  obtain ⟨d0, d1, d2, P⟩ := T
  simp only at hT0 hT1 hT2 hTe
  subst hT0 hT1 hT2
  set M' := max (LatentGraph.matMax U) 1 with hM'
  obtain ⟨g, hinf, gs, gv, hbest⟩ := findsBest_edges hsolve hn hE hAd hS P (rewarded y.size y.get M' U.get)
  obtain ⟨-, hv2⟩ := node_unary_ge hs hF hr (ρ := ρ) (fun k hk => hw.abs_le hρ (lt_of_lt_of_le hk (Nat.le_add_right _ _)))
  obtain ⟨gl, gy⟩ := clamped_legal hs hE (P := P) (q := fun e => ρ * edgeMass x.edgeFeatures e)
    (fun e he _ ha _ hb => by rw [hTe e he _ ha _ hb]; exact edgeNode_pairwise_le hρ hw hK ha hb)
    (fun i _ => mul_nonneg hρ (featureMass_nonneg _ _)) hv2
    (fun _ => by unfold LatentNode.Model.nStates; omega) hyl (by
      intro i hi
      have := hsm i hi
      rw [load_smul]
      linarith) (le_max_right _ _ : 1 ≤ M') (by
      have := le_rewardMax U
      rw [hs.rows, hs.cols] at this
      exact this) gv hbest
  have hlat : (edgeLatentNode backend cw m km).latent x y w = .discrete g := by
    change YVal.discrete (okD _ (eLatent (backend false) m x y ⟨eSize m, w⟩)) = _
    unfold eLatent
    rw [hU]
    simp only [bind, Except.bind]
    rw [clamp_ok (by rw [hs.rows, hs.cols]; exact Nat.mul_pos hn hS) (by rw [hs.rows]; omega)
      (by intro i hi; rw [hs.cols]; exact lt_of_lt_of_le (hyl i hi) hLS)]
    simp only
    rw [hT]
    simp only
    rw [hs.rows, hs.cols]
    have e2 : backend false ⟨y.size + x.nHidden, m.base.nStates, fun i s => if i < y.size ∧ s = y.get i then
        100 * max (LatentGraph.matMax U) 1 else U.get i s⟩ (.ten ⟨x.edges.length, m.base.nStates, m.base.nStates, P⟩) x.edges =
        .ok (.discrete g) := hinf
    rw [e2]
    simp only
    have h1 : ¬ g.size < y.size := by omega
    have h2 : ¬ LatentNode.Inconsistent y g := by
      rintro ⟨i, hi, hne⟩
      exact hne (gy i hi)
    rw [if_neg h1, if_neg h2]
    rfl
  simp only [hlat]
  refine ⟨⟨hdm, g, rfl, by rw [hvis]; exact gs, by rw [hvis]; exact gl, by rw [hvis]; exact gy⟩, ?_⟩
  rintro _ ⟨-, z, rfl, zs, zl, zy⟩
  rw [hvis] at zs zl zy
  rw [edgeNode_value hm hF hEf hK hne hr zs zl hE _ w hsym hs hTe, edgeNode_value hm hF hEf hK hne hr gs gl hE _ w hsym hs hTe]
  have h1 := hbest z.get (zl.valid hLS)
  have h2 := clamped_score (b := x.nHidden) (M := M') (U := U.get) (edges := x.edges) (P := P) zy gy
  linarith

/-! ### joint features -/

/-- Bound on the squared distance between joint features of two legal labellings. -/
def edgeNodeBound (m : EModel) (x : EX) : ℚ :=
  ∑ k ∈ range (eSize m),
    (if k < m.base.nInput * m.base.nFeatures then ∑ i ∈ range x.features.rows, |x.features.get i (k % m.base.nFeatures)|
      else ∑ e ∈ range x.edges.length,
        |x.edgeFeatures.get e ((k - m.base.nInput * m.base.nFeatures) / m.base.nStates ^ 2)|) ^ 2

/-- one if edge `e` has the pair of states `k`. -/
def edgeHot (S : ℕ) (edges : Edges) (h : ℕ → ℕ) (e k : ℕ) : ℚ :=
  (if k / S = h (edge edges e).1 then 1 else 0) * (if k % S = h (edge edges e).2 then 1 else 0)

theorem edgeHot_range (S : ℕ) (edges : Edges) (h : ℕ → ℕ) (e k : ℕ) : 0 ≤ edgeHot S edges h e k ∧ edgeHot S edges h e k ≤ 1 := by
  unfold edgeHot
  split <;> split <;> norm_num

theorem edgeNode_feature {m : EModel} (hm : EdgeNodeModel m) {x : EX} {a : ℕ} (hF : x.features.cols = m.base.nFeatures)
    (hEf : x.edgeFeatures.rows = x.edges.length) (hK : x.edgeFeatures.cols = m.nEdgeFeatures) (hne : x.edges ≠ [])
    (hr : x.features.rows = if m.base.latentFeatures then a + x.nHidden else a) {h : Labels} (hs : h.size = a + x.nHidden)
    (hl : Legal a x.nHidden m.base.nLabels m.base.nStates h.get) (hE : EdgesIn (a + x.nHidden) x.edges) :
    eJointFeature m x (.discrete h) = .ok
      ((Mat.ravel ⟨m.base.nInput, x.features.cols, fun s f => ∑ i ∈ range x.features.rows,
        (if s = h.get i then 1 else 0) * x.features.get i f⟩).append
      (Mat.ravel ⟨m.nEdgeFeatures, m.base.nStates ^ 2, EdgeFeature.symmetrise m.base.nStates m.sym m.anti
        (fun r k => ∑ e ∈ range x.edges.length, x.edgeFeatures.get e r * edgeHot m.base.nStates x.edges h.get e k)⟩)) := by
  have hv := hl.valid (nLabels_le m.base)
  have hrows : x.features.rows ≤ a + x.nHidden := by rw [hr]; split <;> omega
  unfold eJointFeature
  rw [eCheckSizeX_ok hF hEf hK, eMarginals_ok (by rw [hs]; exact hv) (by rw [hs]; exact hE) hne]
  simp only [bind, Except.bind, Mat.mul, Mat.T, hEf, if_true, hK]
  rw [if_neg (not_not.mpr hm.declared), accumulate_ok (by simp only [hs]; exact hrows) (nInput_le m.base)]
  rfl

theorem proj_dist {sym anti : List ℕ} {r : ℕ} {M M' : ℕ → ℕ → ℚ} {B : ℚ} (h : ∀ a b, |M a b - M' a b| ≤ B) (a b : ℕ) :
    |EdgeFeature.proj sym anti r M a b - EdgeFeature.proj sym anti r M' a b| ≤ B := by
  have h1 := abs_le.mp (h a b)
  have h2 := abs_le.mp (h b a)
  unfold EdgeFeature.proj
  rw [abs_le]
  split
  · constructor <;> linarith
  · split
    · constructor <;> linarith
    · exact h1

theorem edgeHot_dist (S : ℕ) (edges : Edges) (ef : ℕ → ℚ) (h g : ℕ → ℕ) (k : ℕ) :
    |∑ e ∈ range edges.length, ef e * edgeHot S edges h e k - ∑ e ∈ range edges.length, ef e * edgeHot S edges g e k| ≤
      ∑ e ∈ range edges.length, |ef e| := by
  rw [← sum_sub_distrib]
  refine (abs_sum_le_sum_abs _ _).trans (sum_le_sum fun e _ => ?_)
  rw [← mul_sub, abs_mul]
  refine mul_le_of_le_one_right (abs_nonneg _) ?_
  have h1 := edgeHot_range S edges h e k
  have h2 := edgeHot_range S edges g e k
  rw [abs_le]
  constructor <;> linarith

theorem edgeNode_range {m : EModel} (hm : EdgeNodeModel m) {x : EX} {a : ℕ} (ha : 1 ≤ a) (hF : x.features.cols = m.base.nFeatures)
    (hEf : x.edgeFeatures.rows = x.edges.length) (hK : x.edgeFeatures.cols = m.nEdgeFeatures) (hne : x.edges ≠ [])
    (hr : x.features.rows = if m.base.latentFeatures then a + x.nHidden else a) {h g : Labels} (hs : h.size = a + x.nHidden)
    (hl : Legal a x.nHidden m.base.nLabels m.base.nStates h.get) (gs : g.size = a + x.nHidden)
    (gl : Legal a x.nHidden m.base.nLabels m.base.nStates g.get) (hE : EdgesIn (a + x.nHidden) x.edges) :
    ∑ k ∈ range (eSize m), ((okD ⟨0, fun _ => 0⟩ (eJointFeature m x (.discrete h))).get k -
      (okD ⟨0, fun _ => 0⟩ (eJointFeature m x (.discrete g))).get k) ^ 2 ≤ edgeNodeBound m x := by
  have hdis : ∀ i ∈ m.sym, i ∉ m.anti := by
    have := hm.disjoint
    unfold eCheckModel at this
    split at this
    · cases this
    · rename_i h1; exact not_not.mp h1
  have hS : 0 < m.base.nStates := states_pos hl (by omega)
  unfold edgeNodeBound
  refine sum_le_sum fun k _ => ?_
  rw [← sq_abs]
  refine pow_le_pow_left₀ (abs_nonneg _) ?_ 2
  rw [edgeNode_feature hm hF hEf hK hne hr hs hl hE, edgeNode_feature hm hF hEf hK hne hr gs gl hE]
  unfold okD Vec.append Mat.ravel
  simp only [hF]
  by_cases hlt : k < m.base.nInput * m.base.nFeatures
  · simp only [if_pos hlt]
    rw [← sum_sub_distrib]
    refine (abs_sum_le_sum_abs _ _).trans (sum_le_sum fun i hi => ?_)
    rw [← sub_mul, abs_mul]
    refine mul_le_of_le_one_left (abs_nonneg _) ?_
    split <;> split <;> norm_num
  · simp only [if_neg hlt]
    have hj : (k - m.base.nInput * m.base.nFeatures) % m.base.nStates ^ 2 < m.base.nStates ^ 2 := Nat.mod_lt _ (by positivity)
    generalize (k - m.base.nInput * m.base.nFeatures) % m.base.nStates ^ 2 = j at hj
    generalize (k - m.base.nInput * m.base.nFeatures) / m.base.nStates ^ 2 = r
    have h1 : j / m.base.nStates < m.base.nStates := by rw [Nat.div_lt_iff_lt_mul hS, ← pow_two]; exact hj
    have h2 : j % m.base.nStates < m.base.nStates := Nat.mod_lt _ hS
    have e : j = j / m.base.nStates * m.base.nStates + j % m.base.nStates := (Nat.div_add_mod' _ _).symm
    rw [e, EdgeFeature.symmetrise_get _ _ _ hdis _ _ _ _ h1 h2, EdgeFeature.symmetrise_get _ _ _ hdis _ _ _ _ h1 h2]
    exact proj_dist (fun a b => edgeHot_dist _ _ (fun e => x.edgeFeatures.get e r) _ _ _) _ _

theorem edgeNode_feature_congr {m : EModel} (hm : EdgeNodeModel m) {x : EX} {a : ℕ} (hF : x.features.cols = m.base.nFeatures)
    (hEf : x.edgeFeatures.rows = x.edges.length) (hK : x.edgeFeatures.cols = m.nEdgeFeatures) (hne : x.edges ≠ [])
    (hr : x.features.rows = if m.base.latentFeatures then a + x.nHidden else a) {h g : Labels} (hs : h.size = a + x.nHidden)
    (hl : Legal a x.nHidden m.base.nLabels m.base.nStates h.get) (gs : g.size = a + x.nHidden)
    (gl : Legal a x.nHidden m.base.nLabels m.base.nStates g.get) (hE : EdgesIn (a + x.nHidden) x.edges)
    (hag : ∀ i < a + x.nHidden, h.get i = g.get i) :
    eJointFeature m x (.discrete h) = eJointFeature m x (.discrete g) := by
  rw [edgeNode_feature hm hF hEf hK hne hr hs hl hE, edgeNode_feature hm hF hEf hK hne hr gs gl hE]
  have hrows : x.features.rows ≤ a + x.nHidden := by rw [hr]; split <;> omega
  congr 2
  · congr 2
    funext s f
    exact sum_congr rfl fun i hi => by rw [hag i (lt_of_lt_of_le (mem_range.mp hi) hrows)]
  · congr 3
    funext r k
    refine sum_congr rfl fun e he => ?_
    have := hE _ (getD_mem (mem_range.mp he))
    unfold edgeHot edge
    rw [hag _ this.1, hag _ this.2]

/-- An `EdgeFeatureLatentNodeCRF` with its training data is a model with hidden nodes. -/
theorem edgeNode_hidden {backend : Bool → Infer} {cw : Vec} {m : EModel} (hm : EdgeNodeModel m) {data : List (EX × Labels)} {R : ℚ}
    (hL : 2 ≤ m.base.nLabels) (hhid : 0 < m.base.nHiddenStates) (hcw : cw.size = m.base.nLabels)
    (hpos : ∀ c : ℕ, c < m.base.nLabels → 0 < cw.get c)
    (hne : data ≠ []) (hd : ∀ d ∈ data, EdgeNodeFits m d.1 d.2) (hR : ∀ d ∈ data, edgeNodeBound m d.1 ≤ R) :
    HiddenNodes (edgeLatentNodeModel backend cw m) m.base.nLabels m.base.nStates cw (exVisible m) EX.nHidden data R where
  plain := rfl
  labels := hL
  weights := hpos
  ne := hne
  samples := by
    intro d hdm
    obtain ⟨h1, -, -, -, -, -, -, h2⟩ := hd d hdm
    rw [(hd d hdm).visible]
    exact ⟨h1, rfl, h2⟩
  hidden := by
    intro _ _ _
    unfold LatentNode.Model.nStates
    omega
  loss := fun a b h g hs gs hl gl => node_loss_ok hcw hs gs hl gl
  loss_labels := by
    intro a b h h' hs hs' hl hl' hag o
    obtain ⟨h1, h2⟩ := node_loss_labels (cw := cw) hs hs' hl hl' hag o
    unfold SModel.lossOf
    change (if _ then nodeContinuousLoss _ _ _ _ _ else nodeLoss _ _ _ _ _) = (if _ then nodeContinuousLoss _ _ _ _ _ else nodeLoss _ _ _ _ _)
    rw [h1, h2]
  feature := by
    intro d hdm a b as bs al bl hag k _
    obtain ⟨-, hF, hr, hE, hne, hEf, hK, -⟩ := hd d hdm
    rw [(hd d hdm).visible] at as bs al bl hag
    change (okD _ (eJointFeature m d.1 (.discrete a))).get k = (okD _ (eJointFeature m d.1 (.discrete b))).get k
    rw [edgeNode_feature_congr hm hF hEf hK hne hr as al bs bl hE hag]
  range := by
    intro d hdm a b as bs al bl
    obtain ⟨h1, hF, hr, hE, hne, hEf, hK, -⟩ := hd d hdm
    rw [(hd d hdm).visible] at as bs al bl
    exact (edgeNode_range hm h1 hF hEf hK hne hr as al bs bl hE).trans (hR d hdm)

end Verif.Props
