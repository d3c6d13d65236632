import Verif.Props.C159
import Verif.Lemmas.LatentTraining
import Verif.Props.C128
import Verif.Props.C120
import Verif.Model.LatentBases
import Verif.Model.LatentGraphSL

/-!
# C159 for `LatentGraphCRF` with one state per label
-/

namespace Verif.Props

open Finset Verif.Common Verif.Spec Verif.Learner Verif.LatentGraph
open Verif.GraphCRF (Infer UN PW sizeJointFeature)

/-- An inference method that returns labellings and looks at the potentials of existing vertices and states
only, on the graphs that satisfy `A`. -/
def LabelsLocally (K : ℕ) (A : ℕ → Edges → Prop) (inf : Infer) : Prop :=
  ∀ n edges, 1 ≤ n → EdgesIn n edges → A n edges → ∀ U U' P : ℕ → ℕ → ℚ,
    (∀ i < n, ∀ s < K, U i s = U' i s) →
    ∃ h h', inf ⟨n, K, U⟩ (.mat ⟨K, K, P⟩) edges = .ok (.discrete h) ∧
      inf ⟨n, K, U'⟩ (.mat ⟨K, K, P⟩) edges = .ok (.discrete h') ∧
      (h.size = n ∧ Valid n K h.get) ∧ (h'.size = n ∧ Valid n K h'.get) ∧ ∀ i < n, h.get i = h'.get i

/-- the unary method is one. -/
theorem unaries_locally (K : ℕ) (hK : 1 ≤ K) : LabelsLocally K (fun _ _ => True) (fun U pw edges =>
    match Dispatch.inferenceUnaries U pw edges with
    | .error err => .error err
    | .ok y => .ok (.discrete y)) := by
  intro n edges hn hE _ U U' P hU
  refine ⟨⟨n, fun i => argmaxN (U i) K⟩, ⟨n, fun i => argmaxN (U' i) K⟩, ?_, ?_, ⟨rfl, ?_⟩, ⟨rfl, ?_⟩, ?_⟩
  · simp [Dispatch.inferenceUnaries, validateParams, show K ≠ 0 by omega]
  · simp [Dispatch.inferenceUnaries, validateParams, show K ≠ 0 by omega]
  · exact fun i _ => argmaxN_lt _ (by omega)
  · exact fun i _ => argmaxN_lt _ (by omega)
  · exact fun i hi => argmaxN_congr fun s hs => hU i hi s hs

/-! ### max-product on chains -/

theorem viterbi_bestPrev_lt {S : ℕ} (hS : 0 < S) (score : ℕ → ℕ → WithBot ℚ) (trans : ℕ → ℕ → ℕ → WithBot ℚ) (i k : ℕ) :
    (Viterbi.bestPrev S score trans i k).1 < S := by
  unfold Viterbi.bestPrev
  have : ∀ (l : List ℕ) (acc : ℕ × WithBot ℚ), (∀ j ∈ l, j < S) → acc.1 < S →
      (l.foldl (fun acc j =>
        let candidate := score (i - 1) j + score i k + trans (i - 1) j k
        if acc.2 < candidate then (j, candidate) else acc) acc).1 < S := by
    intro l
    induction l with
    | nil => intro acc _ h; exact h
    | cons j l ih =>
      intro acc hl h
      rw [List.foldl_cons]
      refine ih _ (fun j' hj' => hl j' (List.mem_cons_of_mem _ hj')) ?_
      simp only
      split
      · exact hl j List.mem_cons_self
      · exact h
  exact this _ _ (fun j hj => List.mem_range.mp hj) hS

/-- two tables that agree on the cells of the array. -/
structure SameTables (n S : ℕ) (a b : Viterbi.State) : Prop where
  score : ∀ i < n, ∀ k < S, a.score i k = b.score i k
  backp : ∀ i k, a.backp i k = b.backp i k
  range : ∀ i k, a.backp i k < S

theorem stepCell_same {n S : ℕ} (hS : 0 < S) (trans : ℕ → ℕ → ℕ → WithBot ℚ) {i k : ℕ} (hi : i < n) (hk : k < S)
    {a b : Viterbi.State} (h : SameTables n S a b) :
    SameTables n S (Viterbi.stepCell S trans i a k) (Viterbi.stepCell S trans i b k) := by
  have e : Viterbi.bestPrev S a.score trans i k = Viterbi.bestPrev S b.score trans i k := by
    unfold Viterbi.bestPrev
    apply List.foldl_ext
    intro acc j hj
    have hj := List.mem_range.mp hj
    simp only
    rw [h.score (i - 1) (by omega) j hj, h.score i hi k hk]
  unfold Viterbi.stepCell Viterbi.upd2
  refine ⟨fun i' hi' k' hk' => ?_, fun i' k' => ?_, fun i' k' => ?_⟩
  · simp only
    split
    · rw [e]
    · exact h.score i' hi' k' hk'
  · simp only
    split
    · rw [e]
    · exact h.backp i' k'
  · simp only
    split
    · exact viterbi_bestPrev_lt hS _ _ _ _
    · exact h.range i' k'

theorem forward_same {n S : ℕ} (hS : 0 < S) (trans : ℕ → ℕ → ℕ → WithBot ℚ) {f g : ℕ → ℕ → WithBot ℚ}
    (h : ∀ i < n, ∀ k < S, f i k = g i k) :
    SameTables n S (Viterbi.forward n S f trans) (Viterbi.forward n S g trans) := by
  have row : ∀ (l : List ℕ) (i : ℕ), (∀ k ∈ l, k < S) → i < n → ∀ a b, SameTables n S a b →
      SameTables n S (l.foldl (Viterbi.stepCell S trans i) a) (l.foldl (Viterbi.stepCell S trans i) b) := by
    intro l i
    induction l with
    | nil => intro _ _ a b hab; exact hab
    | cons k l ih =>
      intro hl hi a b hab
      exact ih (fun k' hk' => hl k' (List.mem_cons_of_mem _ hk')) hi _ _
        (stepCell_same hS trans hi (hl k List.mem_cons_self) hab)
  have rows : ∀ (l : List ℕ), (∀ i ∈ l, i < n) → ∀ a b, SameTables n S a b →
      SameTables n S (l.foldl (Viterbi.stepRow S trans) a) (l.foldl (Viterbi.stepRow S trans) b) := by
    intro l
    induction l with
    | nil => intro _ a b hab; exact hab
    | cons i l ih =>
      intro hl a b hab
      exact ih (fun i' hi' => hl i' (List.mem_cons_of_mem _ hi')) _ _
        (row _ i (fun k hk => List.mem_range.mp hk) (hl i List.mem_cons_self) a b hab)
  apply rows
  · intro i hi
    obtain ⟨j, hj, rfl⟩ := List.mem_map.mp hi
    have := List.mem_range.mp hj
    omega
  · exact ⟨h, fun _ _ => rfl, fun _ _ => hS⟩

theorem backtrack_same {n S : ℕ} (hn : 0 < n) {a b : Viterbi.State} (h : SameTables n S a b) :
    Viterbi.backtrack n S a = Viterbi.backtrack n S b := by
  unfold Viterbi.backtrack
  have hb : a.backp = b.backp := by funext i k; exact h.backp i k
  rw [hb, argmaxN_congr fun k hk => h.score (n - 1) (by omega) k hk]

/-- max-product is one on chains. -/
theorem chain_locally (opts : MaxProd.Opts) {K : ℕ} (hK : 1 ≤ K) :
    LabelsLocally K (fun n edges => edges = chainEdges n) (MaxProd.maxProductInfer opts) := by
  rintro n edges hn hE rfl U U' P hU
  obtain ⟨y, hy, hys, hyv, -⟩ := MaxProd.inferenceMaxProduct_chain opts ⟨n, K, U⟩ (.mat ⟨K, K, P⟩)
    ⟨n - 1, K, K, fun _ => P⟩ (by simp [validateParams, MaxProd.chainEdges_length]) hn hK
  obtain ⟨y', hy', hys', hyv', -⟩ := MaxProd.inferenceMaxProduct_chain opts ⟨n, K, U'⟩ (.mat ⟨K, K, P⟩)
    ⟨n - 1, K, K, fun _ => P⟩ (by simp [validateParams, MaxProd.chainEdges_length]) hn hK
  simp only at hy hy' hys hys' hyv hyv'
  refine ⟨y, y', ?_, ?_, ⟨hys, hyv⟩, ⟨hys', hyv'⟩, ?_⟩
  · unfold MaxProd.maxProductInfer; rw [hy]
  · unfold MaxProd.maxProductInfer; rw [hy']
  · have hp := backtrack_same (show 0 < n by omega)
      (forward_same (n := n) (show 0 < K by omega) (fun _ a b => ((P a b : ℚ) : WithBot ℚ))
        (f := fun i s => ((U i s : ℚ) : WithBot ℚ)) (g := fun i s => ((U' i s : ℚ) : WithBot ℚ))
        (fun i hi k hk => by rw [hU i hi k hk]))
    have e : MaxProd.inferenceMaxProduct opts ⟨n, K, U⟩ (.mat ⟨K, K, P⟩) (chainEdges n) =
        MaxProd.inferenceMaxProduct opts ⟨n, K, U'⟩ (.mat ⟨K, K, P⟩) (chainEdges n) := by
      unfold MaxProd.inferenceMaxProduct
      simp only [validateParams, and_self, if_true]
      have hc : MaxProd.isChain (chainEdges n) n = true := MaxProd.isChain_chainEdges n
      simp only [hc, if_true]
      unfold Viterbi.viterbi
      simp only [hp]
    rw [hy, hy'] at e
    injection e with e
    intro i _
    rw [e]

/-! ### one state per label -/

/-- `LatentGraphCRF(n_labels=K, n_states_per_label=1)`. -/
def oneState (K F : ℕ) (directed : Bool) : LatentGraph.Model := ⟨List.replicate K 1, F, directed⟩

theorem oneState_nStates (K F : ℕ) (d : Bool) : (oneState K F d).nStates = K := by
  simp [oneState, LatentGraph.Model.nStates]

theorem oneState_nLabels (K F : ℕ) (d : Bool) : (oneState K F d).nLabels = K := by
  simp [oneState, LatentGraph.Model.nLabels]

theorem oneState_graph (K F : ℕ) (d : Bool) : (oneState K F d).graph = ⟨K, F, d⟩ := by
  unfold LatentGraph.Model.graph
  rw [oneState_nStates]
  rfl

theorem oneState_label {K F : ℕ} {d : Bool} {s : ℕ} (hs : s < K) : labelOf (oneState K F d) s = s := by
  refine (labelOf_owns (by rw [oneState_nLabels]; exact hs) ?_).1
  unfold OwnsState oneState
  simp only [List.take_replicate, List.sum_replicate, smul_eq_mul, mul_one]
  rw [List.getD_eq_getElem _ _ (by simpa using hs)]
  simp [hs.le]

section

variable {backend : Bool → Infer} {K F : ℕ} {d : Bool} {A : ℕ → Edges → Prop}

/-- decoding two potentials that agree in range. -/
theorem oneState_local (hb : ∀ r, LabelsLocally K A (backend r)) (r : Bool) {n : ℕ} {edges : Edges} (hn : 1 ≤ n)
    (hE : EdgesIn n edges) (hA : A n edges) (U U' P : ℕ → ℕ → ℚ)
    (hU : ∀ i < n, ∀ s < K, U i s = U' i s) :
    ∃ h h', backend r ⟨n, (oneState K F d).nStates, U⟩
        (.mat ⟨(oneState K F d).nStates, (oneState K F d).nStates, P⟩) edges = .ok (.discrete h) ∧
      backend r ⟨n, (oneState K F d).nStates, U'⟩
        (.mat ⟨(oneState K F d).nStates, (oneState K F d).nStates, P⟩) edges = .ok (.discrete h') ∧
      (h.size = n ∧ Valid n (oneState K F d).nStates h.get) ∧
      (h'.size = n ∧ Valid n (oneState K F d).nStates h'.get) ∧ ∀ i < n, h.get i = h'.get i := by
  rw [oneState_nStates]
  exact hb r n edges hn hE hA U U' P hU

theorem oneState_firstStates {y : Labels} (hv : Valid y.size K y.get) :
    ∃ t, firstStates (oneState K F d) y = .ok t ∧ t.size = y.size ∧ ∀ i < y.size, t.get i = y.get i := by
  refine ⟨⟨y.size, fun i => ((oneState K F d).nStatesPerLabel.take (y.get i)).sum⟩, ?_, rfl, ?_⟩
  · unfold firstStates
    rw [if_neg (not_not.mpr fun i hi => by rw [oneState_nLabels]; have := hv i hi; omega)]
  · intro i hi
    have := hv i hi
    simp [oneState, List.take_replicate, this.le]

/-- the completion of a label array is the label array. -/
theorem oneState_latent (hK : 1 ≤ K) (hb : ∀ r, LabelsLocally K A (backend r)) {x : GraphCRF.X}
    (hx : Fits (oneState K F d).graph x) (hA : A x.features.rows x.edges) {y : Labels} (hs : y.size = x.features.rows)
    (hv : Valid x.features.rows K y.get) (w : W) :
    ∃ t, LatentGraph.latent (backend false) (oneState K F d) x y ⟨sizeJointFeature (oneState K F d).graph, w⟩ = .ok t ∧
      t.size = x.features.rows ∧ ∀ i < x.features.rows, t.get i = y.get i := by
  obtain ⟨hn, hF, hE⟩ := hx
  have hmask : maskedUnaries (oneState K F d) ⟨x.features.rows, (oneState K F d).nStates,
      UN (oneState K F d).graph x.features w⟩ y = .ok ⟨x.features.rows, (oneState K F d).nStates, fun i s =>
        if (statesMap (oneState K F d).nStatesPerLabel).get s ≠ y.get i then
          -100 * max (matMax ⟨x.features.rows, (oneState K F d).nStates, UN (oneState K F d).graph x.features w⟩) 1
        else UN (oneState K F d).graph x.features w i s⟩ := by
    unfold maskedUnaries
    rw [if_neg (Nat.mul_pos hn (by rw [oneState_nStates]; exact hK)).ne', if_neg (by rw [hs]; simp)]
  obtain ⟨h, -, h1, -, ⟨hhs, hhv⟩, -⟩ := oneState_local (F := F) (d := d) hb false hn hE hA (fun i s =>
        if (statesMap (oneState K F d).nStatesPerLabel).get s ≠ y.get i then
          -100 * max (matMax ⟨x.features.rows, (oneState K F d).nStates, UN (oneState K F d).graph x.features w⟩) 1
        else UN (oneState K F d).graph x.features w i s) _ (PW (oneState K F d).graph w) (fun _ _ _ _ => rfl)
  unfold LatentGraph.latent
  rw [GraphCRF.unary_ok (m := (oneState K F d).graph) (w := ⟨sizeJointFeature (oneState K F d).graph, w⟩) hF rfl,
      GraphCRF.pairwise_ok (m := (oneState K F d).graph) (w := ⟨sizeJointFeature (oneState K F d).graph, w⟩) hF rfl]
  simp only [bind, Except.bind]
  change maskedUnaries (oneState K F d) ⟨x.features.rows, (oneState K F d).graph.nStates,
      UN (oneState K F d).graph x.features w⟩ y = _ at hmask
  rw [hmask]
  simp only
  rw [show (oneState K F d).graph.nStates = (oneState K F d).nStates from rfl, h1]
  simp only
  rw [labelFromLatent_ok hhs hhv]
  simp only
  rw [if_neg (by rw [hhs, hs]; simp)]
  by_cases hc : ∃ i, i < y.size ∧ labelOf (oneState K F d) (h.get i) ≠ y.get i
  · rw [if_pos hc]
    obtain ⟨t, e, h2, h3⟩ := oneState_firstStates (F := F) (d := d) (y := y) (by rw [hs]; exact hv)
    exact ⟨t, e, h2.trans hs, fun i hi => h3 i (by omega)⟩
  · rw [if_neg hc]
    push Not at hc
    refine ⟨h, rfl, hhs, fun i hi => ?_⟩
    rw [← hc i (by omega), oneState_label]
    have := hhv i hi
    rwa [oneState_nStates] at this

/-- decoding against the completion is decoding against the labels. -/
theorem oneState_lossAug (hb : ∀ r, LabelsLocally K A (backend r)) {x : GraphCRF.X}
    (hx : Fits (oneState K F d).graph x) (hA : A x.features.rows x.edges) {y t : Labels} (hs : y.size = x.features.rows)
    (hv : Valid x.features.rows K y.get) (ts : t.size = x.features.rows) (ht : ∀ i < x.features.rows, t.get i = y.get i)
    (w : W) :
    ∃ h h', latentGraphLossAug backend (oneState K F d) x (.discrete t) w true = .discrete h ∧
      graphLossAug backend ⟨K, fun _ => 1⟩ (oneState K F d).graph x (.discrete y) w true = .discrete h' ∧
      (h.size = x.features.rows ∧ Valid x.features.rows K h.get) ∧
      (h'.size = x.features.rows ∧ Valid x.features.rows K h'.get) ∧ ∀ i < x.features.rows, h.get i = h'.get i := by
  obtain ⟨hn, hF, hE⟩ := hx
  have tv : Valid x.features.rows (oneState K F d).nStates t.get := fun i hi => by
    rw [oneState_nStates, ht i hi]
    exact hv i hi
  have haug : augment (oneState K F d) ⟨x.features.rows, (oneState K F d).nStates,
      UN (oneState K F d).graph x.features w⟩ t = .ok ⟨x.features.rows, (oneState K F d).nStates, fun i s =>
      if s < (oneState K F d).nStates ∧ labelOf (oneState K F d) (t.get i) ≠ labelOf (oneState K F d) s then
        UN (oneState K F d).graph x.features w i s + 1 else UN (oneState K F d).graph x.features w i s⟩ := by
    unfold augment
    rw [labelFromLatent_ok ts tv]
    simp only
    rw [if_neg (by omega)]
    congr 2
    funext i s
    exact augment_fold _ _ _ _ _ _
  obtain ⟨h, h', h1, h2, h3, h4, h5⟩ := oneState_local (F := F) (d := d) hb true hn hE hA
    (fun i s => if s < (oneState K F d).nStates ∧ labelOf (oneState K F d) (t.get i) ≠ labelOf (oneState K F d) s then
        UN (oneState K F d).graph x.features w i s + 1 else UN (oneState K F d).graph x.features w i s)
    (fun i s => if s = y.get i then UN (oneState K F d).graph x.features w i s
      else UN (oneState K F d).graph x.features w i s + 1) (PW (oneState K F d).graph w) (fun i hi s hs => by
        rw [oneState_nStates, ht i hi, oneState_label (hv i hi), oneState_label hs]
        by_cases e : s = y.get i
        · rw [if_pos e, if_neg (by rw [e]; simp)]
        · rw [if_neg e, if_pos ⟨hs, Ne.symm e⟩])
  rw [oneState_nStates] at h3 h4
  refine ⟨h, h', ?_, ?_, h3, h4, h5⟩
  · change okD _ (LatentGraph.lossAugmentedInference (backend true) (oneState K F d) x t
      ⟨sizeJointFeature (oneState K F d).graph, w⟩) = _
    unfold LatentGraph.lossAugmentedInference
    rw [GraphCRF.checkSizeW_ok (w := ⟨sizeJointFeature (oneState K F d).graph, w⟩) rfl,
      GraphCRF.unary_ok (m := (oneState K F d).graph) (w := ⟨sizeJointFeature (oneState K F d).graph, w⟩) hF rfl,
      GraphCRF.pairwise_ok (m := (oneState K F d).graph) (w := ⟨sizeJointFeature (oneState K F d).graph, w⟩) hF rfl]
    simp only [bind, Except.bind]
    change augment (oneState K F d) ⟨x.features.rows, (oneState K F d).graph.nStates,
      UN (oneState K F d).graph x.features w⟩ t = _ at haug
    rw [haug]
    simp only
    change okD _ (backend true _ (.mat ⟨(oneState K F d).nStates, (oneState K F d).nStates, _⟩) _) = _
    rw [h1]
    rfl
  · change okD _ (GraphCRF.lossAugmentedInference (backend true) ⟨K, fun _ => 1⟩ (oneState K F d).graph x y
      ⟨sizeJointFeature (oneState K F d).graph, w⟩) = _
    unfold GraphCRF.lossAugmentedInference
    rw [GraphCRF.checkSizeW_ok (w := ⟨sizeJointFeature (oneState K F d).graph, w⟩) rfl,
      GraphCRF.unary_ok (m := (oneState K F d).graph) (w := ⟨sizeJointFeature (oneState K F d).graph, w⟩) hF rfl,
      GraphCRF.pairwise_ok (m := (oneState K F d).graph) (w := ⟨sizeJointFeature (oneState K F d).graph, w⟩) hF rfl]
    simp only [bind, Except.bind]
    rw [augment_ok (U := ⟨x.features.rows, (oneState K F d).graph.nStates, UN (oneState K F d).graph x.features w⟩)
      (cw := ⟨K, fun _ => 1⟩) hs (fun i hi => hv i hi)]
    simp only
    change okD _ (backend true ⟨_, (oneState K F d).nStates, _⟩
      (.mat ⟨(oneState K F d).nStates, (oneState K F d).nStates, _⟩) _) = _
    rw [h2]
    rfl

theorem oneState_loss (backend : Bool → Infer) {n : ℕ} {t y h h' : Labels} (ts : t.size = n) (ys : y.size = n) (yv : Valid n K y.get)
    (ty : ∀ i < n, t.get i = y.get i) (hs : h.size = n) (hv : Valid n K h.get) (hs' : h'.size = n)
    (e : ∀ i < n, h.get i = h'.get i) :
    latentGraphLoss (oneState K F d) (.discrete t) (.discrete h) =
      graphLoss ⟨K, fun _ => 1⟩ (oneState K F d).graph.nStates (.discrete y) (.discrete h') := by
  have tv : Valid n (oneState K F d).nStates t.get := fun i hi => by
    rw [oneState_nStates, ty i hi]
    exact yv i hi
  have l := latent_loss_ok (backend := backend) (m := oneState K F d) ts tv hs (by rw [oneState_nStates]; exact hv)
  change latentGraphLoss (oneState K F d) (.discrete t) (.discrete h) = _ at l
  rw [l]
  change _ = okD 0 (Loss.loss (some ⟨K, fun _ => 1⟩) y h')
  rw [loss_some_ok (n := n) ys hs' (fun i hi => yv i hi)]
  change _ = weightedHamming _ _ _ _
  unfold weightedHamming
  refine sum_congr rfl fun i hi => ?_
  have hi := mem_range.mp hi
  rw [ty i hi, oneState_label (yv i hi), oneState_label (hv i hi), e i hi]

end

/-- **C159.** A `LatentGraphCRF` with one state per label is a `GraphCRF` in the eyes of the learners, if inference
returns labellings and looks at the given potentials only. -/
theorem C159_one_state (backend : Bool → Infer) (K F : ℕ) (directed : Bool) (hK : 1 ≤ K) (A : ℕ → Edges → Prop)
    (hb : ∀ r, LabelsLocally K A (backend r)) (pred : List (GraphCRF.X × Labels) → ℕ → ℕ → ℕ → ℕ)
    (data : List (GraphCRF.X × Labels)) (hd : GraphData ⟨K, F, directed⟩ data)
    (hA : ∀ s ∈ data, A s.1.features.rows s.1.edges) :
    NoLatent (latentGraphSL backend ⟨List.replicate K 1, F, directed⟩ pred)
      (graphModel backend ⟨K, fun _ => 1⟩ ⟨K, F, directed⟩) .discrete data := by
  have hg := oneState_graph K F directed
  rw [← hg] at hd ⊢
  change NoLatent (latentGraphSL backend (oneState K F directed) pred) _ YVal.discrete data
  have key : ∀ s ∈ data, ∀ w, ∃ t h h', (latentGraphSL backend (oneState K F directed) pred).latent s.1 s.2 w = .discrete t ∧
      (t.size = s.1.features.rows ∧ ∀ i < s.1.features.rows, t.get i = s.2.get i) ∧
      latentGraphLossAug backend (oneState K F directed) s.1 (.discrete t) w true = .discrete h ∧
      graphLossAug backend ⟨K, fun _ => 1⟩ (oneState K F directed).graph s.1 (.discrete s.2) w true = .discrete h' ∧
      (h.size = s.1.features.rows ∧ Valid s.1.features.rows K h.get) ∧
      (h'.size = s.1.features.rows ∧ Valid s.1.features.rows K h'.get) ∧
      ∀ i < s.1.features.rows, h.get i = h'.get i := by
    intro s hs w
    obtain ⟨hfit, h3, h4⟩ := hd s hs
    rw [hg] at h4
    obtain ⟨t, e, ts, tv⟩ := oneState_latent hK hb hfit (hA s hs) h3 h4 w
    obtain ⟨h, h', e1, e2, r⟩ := oneState_lossAug hb hfit (hA s hs) h3 h4 ts tv w
    refine ⟨t, h, h', ?_, ⟨ts, tv⟩, e1, e2, r⟩
    change YVal.discrete (okD _ (LatentGraph.latent _ _ _ _ _)) = _
    rw [e]
    rfl
  have hS : 1 ≤ (oneState K F directed).graph.nStates := by rw [hg]; exact hK
  have lab : ∀ {n : ℕ} {z : Labels}, z.size = n → Valid n K z.get →
      IsLabelling n (oneState K F directed).graph.nStates (.discrete z) := fun h1 h2 =>
    ⟨_, rfl, h1, by rw [hg]; exact h2⟩
  refine ⟨rfl, rfl, ?_, ?_, ?_, ?_, ?_⟩
  · intro s hs w k
    obtain ⟨hfit, h3, h4⟩ := hd s hs
    rw [hg] at h4
    obtain ⟨t, h, h', e0, ⟨ts, tv⟩, e1, e2, ⟨a1, a2⟩, ⟨b1, b2⟩, c⟩ := key s hs w
    rw [e0]
    change graphFeature (oneState K F directed).graph s.1 (.discrete t) k -
      graphFeature (oneState K F directed).graph s.1 (latentGraphLossAug backend (oneState K F directed) s.1 (.discrete t) w true) k =
      graphFeature (oneState K F directed).graph s.1 (.discrete s.2) k -
      graphFeature (oneState K F directed).graph s.1 (graphLossAug backend ⟨K, fun _ => 1⟩ (oneState K F directed).graph s.1
        (.discrete s.2) w true) k
    rw [e1, e2, graphFeature_congr hfit hS (lab ts (fun i hi => by rw [tv i hi]; exact h4 i hi)) (lab h3 h4) tv,
      graphFeature_congr hfit hS (lab a1 a2) (lab b1 b2) c]
  · intro s hs w
    obtain ⟨hfit, h3, h4⟩ := hd s hs
    rw [hg] at h4
    obtain ⟨t, h, h', e0, ⟨ts, tv⟩, e1, e2, ⟨a1, a2⟩, ⟨b1, b2⟩, c⟩ := key s hs w
    rw [e0]
    change latentGraphLoss _ _ (latentGraphLossAug backend (oneState K F directed) s.1 (.discrete t) w true) =
      (graphModel _ _ _).lossOf _ (graphLossAug backend ⟨K, fun _ => 1⟩ (oneState K F directed).graph s.1
        (.discrete s.2) w true)
    rw [e1, e2]
    exact oneState_loss backend ts h3 h4 tv a1 a2 b1 c
  · intro s hs w
    obtain ⟨hfit, h3, h4⟩ := hd s hs
    rw [hg] at h4
    obtain ⟨t, h, h', e0, ⟨ts, tv⟩, e1, e2, ⟨a1, a2⟩, ⟨b1, b2⟩, c⟩ := key s hs w
    rw [e0]
    change latentGraphLoss _ _ (latentGraphLossAug backend (oneState K F directed) s.1 (.discrete t) w true) =
      (graphModel _ _ _).lossOf _ (graphLossAug backend ⟨K, fun _ => 1⟩ (oneState K F directed).graph s.1
        (.discrete s.2) w true)
    rw [e1, e2]
    exact oneState_loss backend h3 h3 h4 (fun _ _ => rfl) a1 a2 b1 c
  · intro s hs w
    obtain ⟨⟨hn, hF, hE⟩, h3, h4⟩ := hd s hs
    rw [hg] at h4
    obtain ⟨h, -, h1, -, ⟨hhs, hhv⟩, -⟩ := oneState_local (F := F) (d := directed) hb false hn hE (hA s hs)
      (UN (oneState K F directed).graph s.1.features w) _ (PW (oneState K F directed).graph w) (fun _ _ _ _ => rfl)
    have hi : GraphCRF.inference (backend false) (oneState K F directed).graph s.1
        ⟨sizeJointFeature (oneState K F directed).graph, w⟩ = .ok (.discrete h) := by
      unfold GraphCRF.inference
      rw [GraphCRF.checkSizeW_ok (w := ⟨sizeJointFeature (oneState K F directed).graph, w⟩) rfl,
        GraphCRF.unary_ok (m := (oneState K F directed).graph)
          (w := ⟨sizeJointFeature (oneState K F directed).graph, w⟩) hF rfl,
        GraphCRF.pairwise_ok (m := (oneState K F directed).graph)
          (w := ⟨sizeJointFeature (oneState K F directed).graph, w⟩) hF rfl]
      exact h1
    change latentGraphLoss _ (.discrete s.2) (okD _ (GraphCRF.inference _ _ _ _)) =
      graphLoss _ _ _ (okD _ (GraphCRF.inference _ _ _ _))
    rw [hi]
    rw [oneState_nStates] at hhv
    exact oneState_loss backend h3 h3 h4 (fun _ _ => rfl) hhs hhv hhs (fun _ _ => rfl)
  · intro s hs
    change okD 0 (Loss.maxLoss (some ⟨(oneState K F directed).nLabels, fun _ => 1⟩) s.2) = okD 0 (Loss.maxLoss _ s.2)
    rw [oneState_nLabels]

/-! ### the learners -/

/-- **C159.** Training with `SubgradientLatentSSVM` on chains, one state per label and max-product inference is training
with `SubgradientSSVM` on the `GraphCRF` without latent states. -/
theorem C159_chains (opts : MaxProd.Opts) (K F : ℕ) (directed : Bool) (hK : 1 ≤ K)
    (pred : List (GraphCRF.X × Labels) → ℕ → ℕ → ℕ → ℕ) (data : List (GraphCRF.X × Labels)) (hne : data ≠ [])
    (hd : GraphData ⟨K, F, directed⟩ data) (hA : ∀ s ∈ data, s.1.edges = chainEdges s.1.features.rows)
    (o : Subgradient.Obj) (hj : o.cfg.nJobs = 1) (hb : o.cfg.batchSize = none ∨ o.cfg.batchSize = some 1)
    (hsh : o.cfg.shuffle = false) (order : ℕ → List (GraphCRF.X × YVal)) (w0 : W) (hw : o.w = none → w0 = fun _ => 0)
    (warm : Bool) (hwarm : warm = true → o.lr ≠ none) :
    ∃ a b, SubgradientLatent.fit (latentGraphSL (fun _ => MaxProd.maxProductInfer opts)
        ⟨List.replicate K 1, F, directed⟩ pred) .one w0 o data warm = .ok a ∧
      Subgradient.fit (graphModel (fun _ => MaxProd.maxProductInfer opts) ⟨K, fun _ => 1⟩ ⟨K, F, directed⟩) order o
        (data.map fun s => (s.1, .discrete s.2)) warm = .ok b ∧
      a.w = b.w ∧ a.t = b.t ∧ a.lr = b.lr ∧ a.cfg = b.cfg ∧ a.curves.loss = b.curves.loss ∧
      a.curves.objective.length = b.curves.objective.length ∧
      a.curves.objective.getLast? = b.curves.objective.getLast? ∧ a.curves.objective.getLast? ≠ none :=
  C159_subgradient _ _ .discrete data
    (C159_one_state (fun _ => MaxProd.maxProductInfer opts) K F directed hK _ (fun _ => chain_locally opts hK) pred data hd hA)
    hne o hj hb hsh order w0 hw warm hwarm

/-- **C159.** With one state per label the initialisation by clustering returns the labels: all clusterings have one
cluster, whose index is zero. -/
theorem C159_init (K : ℕ) (Y : List Labels) (hY : ∀ y ∈ Y, ∀ i < y.size, y.get i < K) (pred : ℕ → ℕ → ℕ → ℕ)
    (hp : ∀ l k j, pred l k j = 0) :
    ∃ H, kmeansInit (List.replicate K 1) Y pred = .ok H ∧ H.length = Y.length ∧
      ∀ k (hk : k < Y.length), (H.getD k ⟨0, fun _ => 0⟩).size = Y[k].size ∧
        ∀ i < Y[k].size, (H.getD k ⟨0, fun _ => 0⟩).get i = Y[k].get i := by
  obtain ⟨H, h1, h2, h3⟩ := C35_kmeans_init (List.replicate K 1) Y pred (by simpa using hY) (by
    intro l k r hl
    rw [hp, List.getD_eq_getElem _ _ hl]
    simp)
  refine ⟨H, h1, h2, fun k hk => ⟨(h3 k hk).1, fun i hi => ?_⟩⟩
  obtain ⟨a, b, -⟩ := (h3 k hk).2 i hi
  rw [← b]
  exact (oneState_label (F := 0) (d := false) (by simpa using a)).symm

/-- **C159.** `LatentSSVM` on a `LatentGraphCRF` with one state per label trains its base learner once, on the labels,
whatever the number of iterations. -/
theorem C159_one_state_ssvm {σ : Type} (backend : Bool → Infer) (K F : ℕ) (directed : Bool) (hK : 1 ≤ K)
    (A : ℕ → Edges → Prop) (hb : ∀ r, LabelsLocally K A (backend r))
    (pred : List (GraphCRF.X × Labels) → ℕ → ℕ → ℕ → ℕ) (hp : ∀ s l k j, pred s l k j = 0)
    (data : List (GraphCRF.X × Labels)) (hd : GraphData ⟨K, F, directed⟩ data)
    (hA : ∀ s ∈ data, A s.1.features.rows s.1.edges) (B : LatentSSVM.Base σ GraphCRF.X YVal) (n : ℕ) (base : σ)
    (hfit : ∀ hs : List Labels, hs.length = data.length →
      (∀ k (hk : k < data.length), (hs.getD k ⟨0, fun _ => 0⟩).size = data[k].2.size ∧
        ∀ i < data[k].2.size, (hs.getD k ⟨0, fun _ => 0⟩).get i = data[k].2.get i) →
      ∃ b, B.fit base ((data.map Prod.fst).zip (hs.map .discrete)) none false = .ok b) :
    ∃ (hs : List Labels) (b : σ), hs.length = data.length ∧
      (∀ k (hk : k < data.length), (hs.getD k ⟨0, fun _ => 0⟩).size = data[k].2.size ∧
        ∀ i < data[k].2.size, (hs.getD k ⟨0, fun _ => 0⟩).get i = data[k].2.get i) ∧
      B.fit base ((data.map Prod.fst).zip (hs.map .discrete)) none false = .ok b ∧
      LatentSSVM.fit (latentGraph backend ⟨List.replicate K 1, F, directed⟩ pred) B graphEq (n + 1) base data none =
        .ok (⟨b, B.w b, hs.map .discrete, [(hs.map .discrete, b)]⟩, decide (n ≠ 0)) := by
  have hg := oneState_graph K F directed
  obtain ⟨hs, h1, h2, h3⟩ := C159_init K (data.map Prod.snd) (by
    intro y hy
    obtain ⟨s, hs, rfl⟩ := List.mem_map.mp hy
    intro i hi
    exact (hd s hs).2.2 i (by rw [← (hd s hs).2.1]; exact hi)) (pred data) (hp data)
  rw [List.length_map] at h2
  have h4 : ∀ k (hk : k < data.length), (hs.getD k ⟨0, fun _ => 0⟩).size = data[k].2.size ∧
      ∀ i < data[k].2.size, (hs.getD k ⟨0, fun _ => 0⟩).get i = data[k].2.get i := by
    intro k hk
    have := h3 k (by simpa using hk)
    simpa using this
  obtain ⟨b, hb'⟩ := hfit hs h2 h4
  refine ⟨hs, b, h2, h4, hb', ?_⟩
  refine C159_latent_ssvm _ B graphEq n base b data none (hs.map .discrete) ?_ ?_ hb'
  · change (okD [] (kmeansInit (List.replicate K 1) (data.map Prod.snd) (pred data))).map YVal.discrete = _
    rw [h1]
    rfl
  · intro w
    rw [List.all_eq_true]
    intro p hpz
    obtain ⟨k, hk, rfl⟩ := List.mem_iff_getElem.mp hpz
    have hk' : k < data.length := by
      rw [List.length_zip] at hk
      simp at hk
      omega
    rw [List.getElem_zip]
    simp only [List.getElem_map]
    obtain ⟨hfit', h5, h6⟩ := hd data[k] (List.getElem_mem hk')
    rw [← hg] at hfit'
    obtain ⟨t, e, ts, tv⟩ := oneState_latent hK hb hfit' (hA _ (List.getElem_mem hk')) h5 h6 w
    have e' : (latentGraph backend ⟨List.replicate K 1, F, directed⟩ pred).latent data[k].1 data[k].2 w = .discrete t := by
      change YVal.discrete (okD _ (LatentGraph.latent (backend false) (oneState K F directed) data[k].1 data[k].2
        ⟨sizeJointFeature (oneState K F directed).graph, w⟩)) = _
      rw [e]
      rfl
    rw [e']
    obtain ⟨h7, h8⟩ := h4 k hk'
    rw [List.getD_eq_getElem _ _ (by omega)] at h7 h8
    unfold graphEq
    simp only [decide_eq_true_eq]
    exact ⟨by rw [ts, h7, h5], fun i hi => by rw [tv i (by omega), h8 i (by omega)]⟩

/-- a chain of two vertices and one of three. -/
def oneStateData : List (GraphCRF.X × Labels) :=
  [(⟨⟨2, 1, fun i _ => i⟩, chainEdges 2⟩, ⟨2, fun i => i⟩), (⟨⟨3, 1, fun i _ => 1 - i⟩, chainEdges 3⟩, ⟨3, fun i => i % 2⟩)]

theorem oneStateData_fits : GraphData ⟨2, 1, true⟩ oneStateData ∧
    ∀ s ∈ oneStateData, s.1.edges = chainEdges s.1.features.rows := by
  refine ⟨?_, ?_⟩
  · intro s hs
    simp only [oneStateData, List.mem_cons, List.not_mem_nil, or_false] at hs
    rcases hs with rfl | rfl
    · refine ⟨⟨by decide, rfl, ?_⟩, rfl, fun i hi => hi⟩
      exact MaxProd.chainEdges_in 2
    · refine ⟨⟨by decide, rfl, ?_⟩, rfl, fun i _ => Nat.mod_lt _ (by decide)⟩
      exact MaxProd.chainEdges_in 3
  · intro s hs
    simp only [oneStateData, List.mem_cons, List.not_mem_nil, or_false] at hs
    rcases hs with rfl | rfl <;> rfl

/-- configuration of the example. -/
def oneStateObj : Subgradient.Obj :=
  ⟨⟨3, 1, 0, some (1 / 10), fun _ => 1, false, none, .none, false, 1, 1⟩, none, 0, none, ⟨[], []⟩⟩

example : ∃ a b, SubgradientLatent.fit (latentGraphSL (fun _ => MaxProd.maxProductInfer {})
        ⟨List.replicate 2 1, 1, true⟩ fun _ _ _ _ => 0) .one (fun _ => 0) oneStateObj oneStateData false = .ok a ∧
      Subgradient.fit (graphModel (fun _ => MaxProd.maxProductInfer {}) ⟨2, fun _ => 1⟩ ⟨2, 1, true⟩) (fun _ => []) oneStateObj
        (oneStateData.map fun s => (s.1, .discrete s.2)) false = .ok b ∧ a.w = b.w := by
  obtain ⟨a, b, h1, h2, h3, -⟩ := C159_chains {} 2 1 true (by norm_num) (fun _ _ _ _ => 0) oneStateData
    (by simp [oneStateData]) oneStateData_fits.1 oneStateData_fits.2 oneStateObj rfl (.inl rfl) rfl (fun _ => []) (fun _ => 0)
    (fun _ => rfl) false (by simp)
  exact ⟨a, b, h1, h2, h3⟩

/-- `LatentSSVM` around `SubgradientSSVM`. -/
example (n : ℕ) : ∃ (hs : List Labels) (b : Subgradient.Obj), hs.length = 2 ∧
    LatentSSVM.fit (latentGraph (fun _ => MaxProd.maxProductInfer {}) ⟨List.replicate 2 1, 1, true⟩ fun _ _ _ _ => 0)
      (LatentSSVM.subgradientBase (latentGraphModel (fun _ => MaxProd.maxProductInfer {}) ⟨List.replicate 2 1, 1, true⟩)
        fun d _ => d) graphEq (n + 1) oneStateObj oneStateData none =
      .ok (⟨b, b.w.getD fun _ => 0, hs.map .discrete, [(hs.map .discrete, b)]⟩, decide (n ≠ 0)) := by
  obtain ⟨hs, b, h1, -, -, h2⟩ := C159_one_state_ssvm (fun _ => MaxProd.maxProductInfer {}) 2 1 true (by norm_num)
    (fun n edges => edges = chainEdges n) (fun _ => chain_locally {} (by norm_num)) (fun _ _ _ _ => 0) (fun _ _ _ _ => rfl)
    oneStateData oneStateData_fits.1 oneStateData_fits.2
    (LatentSSVM.subgradientBase (latentGraphModel (fun _ => MaxProd.maxProductInfer {}) ⟨List.replicate 2 1, 1, true⟩)
        fun d _ => d) n oneStateObj (fun hs hl _ =>
      (C120_subgradient _ _ oneStateObj _ (by
        intro e
        have := congrArg List.length e
        rw [List.length_zip, List.length_map, List.length_map, hl] at this
        simp [oneStateData] at this) (by simp [oneStateObj]) false).mpr ⟨.inr (.inl ⟨rfl, .inl rfl⟩), by simp⟩)
  exact ⟨hs, b, h1, h2⟩

/-- the trained weights of the example are not zero. -/
example : (Subgradient.fit (graphModel (fun _ => MaxProd.maxProductInfer {}) ⟨2, fun _ => 1⟩ ⟨2, 1, true⟩) (fun _ => [])
    oneStateObj (oneStateData.map fun s => (s.1, .discrete s.2)) false).map (fun b => (b.w.map fun w => w 0)) ≠ .ok (some 0) := by
  decide +kernel

example : LabelsLocally 3 (fun _ _ => True) (fun U pw edges =>
    match Dispatch.inferenceUnaries U pw edges with
    | .error err => .error err
    | .ok y => .ok (.discrete y)) := unaries_locally 3 (by norm_num)

example : (kmeansInit (List.replicate 3 1) [⟨3, fun i => i⟩, ⟨2, fun _ => 2⟩] (fun _ _ _ => 0)).map
    (fun H => H.map fun h => (List.range h.size).map h.get) = .ok [[0, 1, 2], [2, 2]] := by decide +kernel

end Verif.Props
