import Verif.Props.C20
import Verif.Props.C33
import Verif.Model.Dispatch

/-!
# C34 (completions), C24, C27, C35 for models with latent nodes; C64 forbidden states
-/

namespace Verif.Props

open Finset Verif.Common Verif.LatentNode

/-- **C20 is false with symmetric edge features and general weights** (EdgeFeatureLatentNodeCRF). -/
theorem C20_violated_symmetric :
    ∃ (m : EModel) (x : EX) (w : Vec) (h : Labels),
      eCheckModel m = .ok () ∧ w.size = eSize m ∧ Legal 1 1 m.base.nLabels m.base.nStates h.get ∧
      (do
        let U ← eUnary m x w
        let P ← ePairwise m x w
        computeEnergy U (.ten P) x.edges h) = .ok 4 ∧
      (do w.dot (← eJointFeature m x (.discrete h))) = .ok 2 := by
  refine ⟨⟨⟨1, 1, 1, false⟩, 1, [0], []⟩, ⟨⟨1, 1, fun _ _ => 0⟩, [(0, 1)], ⟨1, 1, fun _ _ => 1⟩, 1⟩,
    ⟨5, fun k => if k = 2 then 4 else 0⟩, ⟨2, fun i => i⟩, by decide +kernel, by decide +kernel, ?_,
    by decide +kernel, by decide +kernel⟩
  constructor
  · intro i hi; exact show i < 1 from hi
  · intro i h1 h2
    exact ⟨h1, h2⟩

/-- **C20 fails without edges** (EdgeFeatureLatentNodeCRF): the joint feature of every labelling raises
`ValueError`. -/
theorem C20_violated_no_edges (m : EModel) (x : EX) (h : Labels) (hne : x.edges = [])
    (hv : Spec.Valid h.size m.base.nStates h.get) (hc : eCheckSizeX m x = .ok ()) :
    eJointFeature m x (.discrete h) = .error .valueError := by
  unfold eJointFeature eMarginals
  rw [hc]
  simp only [bind, Except.bind]
  rw [GraphCRF.oneHot_ok rfl hv]
  simp only [hne]
  rfl

example : eCheckSizeX ⟨⟨1, 1, 1, false⟩, 1, [], []⟩
    ⟨⟨1, 1, fun _ _ => 0⟩, [], ⟨0, 1, fun _ _ => 1⟩, 1⟩ = .ok () := by decide +kernel

/-- concrete instance of the hypotheses of `C20_edge_latent_node_energy_partial`. -/
example : (do
    let m : EModel := ⟨⟨2, 1, 1, false⟩, 2, [], []⟩
    let x : EX := ⟨⟨2, 1, fun i _ => i + 1⟩, [(0, 2), (1, 2)], ⟨2, 2, fun e k => e + k + 1⟩, 1⟩
    let w : Vec := ⟨20, fun k => k⟩
    let h : Labels := ⟨3, fun i => [1, 0, 2].getD i 0⟩
    let U ← eUnary m x w
    let P ← ePairwise m x w
    let e ← computeEnergy U (.ten P) x.edges h
    let d ← w.dot (← eJointFeature m x (.discrete h))
    pure (decide (e = d), e)) = (.ok (true, 87) : Except PyErr (Bool × ℚ)) := by decide +kernel

/-! ### labels of a completion -/

theorem labelFromLatent_legal {nv nh L S : ℕ} {h : Labels} (hh : h.size = nv + nh)
    (hl : Legal nv nh L S h.get) :
    (labelFromLatent L h).size = nv ∧ ∀ i < nv, (labelFromLatent L h).get i = h.get i := by
  have hf : (List.range h.size).filter (fun i => decide (h.get i < L)) = List.range nv := by
    rw [hh, List.range_add, List.filter_append]
    have h1 : (List.range nv).filter (fun i => decide (h.get i < L)) = List.range nv := by
      rw [List.filter_eq_self]
      intro i hi
      exact decide_eq_true (hl.1 i (List.mem_range.mp hi))
    have h2 : ((List.range nh).map (fun x => nv + x)).filter (fun i => decide (h.get i < L)) = [] := by
      rw [List.filter_eq_nil_iff]
      intro i hi
      obtain ⟨j, hj, rfl⟩ := List.mem_map.mp hi
      have hj' := List.mem_range.mp hj
      have := (hl.2 (nv + j) (by omega) (by omega)).1
      simp only [decide_eq_true_eq]; omega
    rw [h1, h2, List.append_nil]
  unfold labelFromLatent
  simp only [hf, List.length_map, List.length_range, true_and]
  intro i hi
  rw [List.getD_eq_getElem _ _ (by simpa using hi)]
  simp

/-! ### loss and loss augmentation -/

theorem weightedHamming_congr {n : ℕ} {c : ℕ → ℚ} {y yhat y' yhat' : ℕ → ℕ}
    (h1 : ∀ i < n, y i = y' i) (h2 : ∀ i < n, yhat i = yhat' i) :
    weightedHamming n c y yhat = weightedHamming n c y' yhat' := by
  unfold weightedHamming
  apply sum_congr rfl; intro i hi
  rw [h1 i (mem_range.mp hi), h2 i (mem_range.mp hi)]

/-- **C26, C24 for latent nodes: the loss.** The loss of two legal labellings is the class-weighted Hamming
loss of their visible parts; hidden vertices never count. -/
theorem C24_latent_node_loss (nv nh L S : ℕ) (cw : Vec) (h hhat : Labels)
    (hcw : cw.size = L) (hh : h.size = nv + nh) (hhh : hhat.size = nv + nh)
    (hl : Legal nv nh L S h.get) (hlh : Legal nv nh L S hhat.get) :
    LatentNode.loss L cw h hhat = .ok (weightedHamming nv cw.get h.get hhat.get) := by
  obtain ⟨s1, g1⟩ := labelFromLatent_legal hh hl
  obtain ⟨s2, g2⟩ := labelFromLatent_legal hhh hlh
  unfold LatentNode.loss
  rw [loss_some_ok s1 s2 (by intro i hi; rw [g1 i hi, hcw]; exact hl.1 i hi)]
  rw [weightedHamming_congr g1 g2]

theorem latent_augment_fold (lab : ℕ → ℕ) (n : ℕ) (c : ℕ → ℚ) (u : ℕ → ℕ → ℚ) (S i s : ℕ) :
    (List.range S).foldl
      (fun u l => fun i s => if s = l ∧ i < n ∧ lab i ≠ l then u i s + c (lab i) else u i s) u i s
      = if s < S ∧ i < n ∧ lab i ≠ s then u i s + c (lab i) else u i s := by
  induction S with
  | zero => simp
  | succ S ih =>
    rw [List.range_succ, List.foldl_append]
    simp only [List.foldl_cons, List.foldl_nil, ih]
    by_cases h1 : s = S
    · subst h1; simp
    · have : (s < S + 1) ↔ s < S := by omega
      simp only [h1, false_and, if_false, this]

/-- **C24 (latent nodes).** Let `h` be a legal completion of the true labels and `hhat` any legal labelling.
The augmentation loop succeeds, keeps the shape, and the energy of `hhat` under the augmented
potentials is its energy under the original ones plus `loss(h, hhat)`. -/
theorem C24_latent_node (nv nh L S : ℕ) (U : Mat) (pw : Pairwise) (t : Ten) (edges : Edges)
    (h hhat : Labels) (cw : Vec) (hLS : L ≤ S) (hcw : cw.size = L)
    (hrows : U.rows = nv + nh) (hcols : U.cols = S)
    (hp : validateParams U pw edges.length = .ok (U.cols, t))
    (hh : h.size = nv + nh) (hhh : hhat.size = nv + nh)
    (hl : Legal nv nh L S h.get) (hlh : Legal nv nh L S hhat.get)
    (he : Spec.EdgesIn (nv + nh) edges) :
    ∃ U' E ℓ, LatentNode.augment L S cw U h = .ok U' ∧ U'.rows = U.rows ∧ U'.cols = U.cols ∧
      computeEnergy U pw edges hhat = .ok E ∧ LatentNode.loss L cw h hhat = .ok ℓ ∧
      computeEnergy U' pw edges hhat = .ok (E + ℓ) := by
  obtain ⟨s1, g1⟩ := labelFromLatent_legal hh hl
  have hv := hlh.valid hLS
  refine ⟨⟨U.rows, U.cols, (List.range S).foldl
    (fun u l => fun i s =>
      if s = l ∧ i < (labelFromLatent L h).size ∧ (labelFromLatent L h).get i ≠ l then
        u i s + cw.get ((labelFromLatent L h).get i) else u i s) U.get⟩, _, _, ?_, rfl, rfl,
    computeEnergy_ok U pw edges hhat t hp (by omega) (by rw [hrows, hcols]; exact hv)
      (by rw [hrows]; exact he),
    C24_latent_node_loss nv nh L S cw h hhat hcw hh hhh hl hlh, ?_⟩
  · unfold LatentNode.augment
    simp only
    rw [if_neg (not_not.mpr (by
      rw [s1]; intro i hi; rw [g1 i hi, hcw]; exact hl.1 i hi)), if_neg (by omega)]
  · rw [computeEnergy_ok ⟨U.rows, U.cols, _⟩ pw edges hhat t
      (by unfold validateParams at hp ⊢; exact hp) (by simp only; omega)
      (by simp only [hrows, hcols]; exact hv) (by simp only [hrows]; exact he)]
    congr 1
    unfold Spec.score
    simp only
    have hcell : ∀ i ∈ range (nv + nh), (List.range S).foldl
        (fun u l => fun i s =>
          if s = l ∧ i < (labelFromLatent L h).size ∧ (labelFromLatent L h).get i ≠ l then
            u i s + cw.get ((labelFromLatent L h).get i) else u i s) U.get i (hhat.get i) =
        U.get i (hhat.get i) +
          (if i < nv then (if h.get i = hhat.get i then 0 else cw.get (h.get i)) else 0) := by
      intro i hi
      rw [latent_augment_fold, s1]
      by_cases h1 : i < nv
      · rw [g1 i h1]
        have hS := hv i (mem_range.mp hi)
        by_cases h2 : h.get i = hhat.get i
        · simp [h1, h2]
        · simp [h1, h2, hS]
      · simp [h1]
    rw [hrows, sum_congr rfl hcell, sum_add_distrib]
    have hham : ∑ i ∈ range (nv + nh),
        (if i < nv then (if h.get i = hhat.get i then 0 else cw.get (h.get i)) else 0) =
        weightedHamming nv cw.get h.get hhat.get := by
      rw [sum_range_add]
      unfold weightedHamming
      have h2 : ∑ i ∈ range nh, (if nv + i < nv then
          (if h.get (nv + i) = hhat.get (nv + i) then 0 else cw.get (h.get (nv + i))) else 0) = 0 := by
        apply sum_eq_zero; intro i _
        rw [if_neg (by omega)]
      rw [h2, add_zero]
      apply sum_congr rfl; intro i hi
      rw [if_pos (mem_range.mp hi)]
    rw [hham]
    ring

/-- **C27 (latent nodes).** On one-hot marginals of a legal labelling the relaxed loss equals the loss. -/
theorem C27_latent_node_onehot (nv nh L S : ℕ) (cw : Vec) (h hhat : Labels) (hLS : L ≤ S)
    (hcw : cw.size = L) (hh : h.size = nv + nh) (hhh : hhat.size = nv + nh)
    (hl : Legal nv nh L S h.get) (hlh : Legal nv nh L S hhat.get) :
    LatentNode.continuousLoss L cw h ⟨nv + nh, S, fun i s => if s = hhat.get i then 1 else 0⟩ =
      LatentNode.loss L cw h hhat := by
  obtain ⟨s1, g1⟩ := labelFromLatent_legal hh hl
  rw [C24_latent_node_loss nv nh L S cw h hhat hcw hh hhh hl hlh]
  unfold LatentNode.continuousLoss Loss.continuousLoss
  simp only [s1]
  rw [if_neg (by omega), if_neg (not_not.mpr (by
    intro i hi; rw [g1 i hi]; have := hl.1 i hi; omega)), if_pos (by
    intro i hi; rw [g1 i hi, hcw]; exact hl.1 i hi)]
  congr 1
  unfold weightedHamming
  apply sum_congr rfl; intro i hi
  rw [g1 i (mem_range.mp hi)]
  by_cases h1 : h.get i = hhat.get i <;> simp [h1]

/-- concrete instance of the hypotheses of C24, C27: two visible vertices and one hidden one. -/
example : (LatentNode.loss 2 ⟨2, fun s => s + 5⟩ ⟨3, fun i => [1, 0, 3].getD i 0⟩
    ⟨3, fun i => [1, 1, 2].getD i 0⟩) = .ok 5 := by decide +kernel

/-- **The loss is meaningless on labellings that are not legal**: labels are compacted before they are
compared, so a prediction that is wrong on every visible vertex can have loss zero. -/
theorem C24_violated_latent_node_illegal :
    ∃ (h hhat : Labels), Legal 2 1 2 3 h.get ∧ h.size = 3 ∧ hhat.size = 3 ∧
      (∀ i < 2, hhat.get i ≠ h.get i) ∧
      LatentNode.loss 2 ⟨2, fun _ => 1⟩ h hhat = .ok 0 := by
  refine ⟨⟨3, fun i => [0, 1, 2].getD i 0⟩, ⟨3, fun i => [2, 0, 1].getD i 0⟩, ⟨by decide, ?_⟩, rfl, rfl,
    by decide, by decide +kernel⟩
  intro i h1 h2
  have : i = 2 := by omega
  subst this; exact ⟨by decide, by decide⟩

/-! ### C34: completions -/

/-- **C34 (LatentNodeCRF).** For every inference backend, whatever `latent` returns agrees with the given
labels on all visible vertices. -/
theorem C34_latent_node_consistent (inf : GraphCRF.Infer) (m : LatentNode.Model)
    (x : LatentNode.X) (y : Labels) (w : Vec) (h : Labels)
    (hh : LatentNode.latent inf m x y w = .ok h) :
    y.size ≤ h.size ∧ ∀ i < y.size, h.get i = y.get i := by
  unfold LatentNode.latent at hh
  obtain ⟨U, _, hh⟩ := bind_eq_ok.mp hh
  obtain ⟨U', _, hh⟩ := bind_eq_ok.mp hh
  obtain ⟨P, _, hh⟩ := bind_eq_ok.mp hh
  obtain ⟨r, _, hh⟩ := bind_eq_ok.mp hh
  cases r with
  | relaxed a b => cases hh
  | discrete h' =>
    simp only at hh
    split at hh
    · cases hh
    · rename_i h1
      split at hh
      · cases hh
      · rename_i h2
        injection hh with hh
        subst hh
        refine ⟨not_lt.mp h1, ?_⟩
        intro i hi
        by_contra hne
        exact h2 ⟨i, hi, hne⟩

/-- **C34 (EdgeFeatureLatentNodeCRF).** The same; inconsistent results are repaired instead of reported, so
the only failures are those of the potentials, the clamping and the backend (and results that are too
short). -/
theorem C34_edge_latent_node_consistent (inf : GraphCRF.Infer) (m : EModel)
    (x : EX) (y : Labels) (w : Vec) (h : Labels)
    (hh : eLatent inf m x y w = .ok h) :
    y.size ≤ h.size ∧ ∀ i < y.size, h.get i = y.get i := by
  unfold eLatent at hh
  obtain ⟨U, _, hh⟩ := bind_eq_ok.mp hh
  obtain ⟨U', _, hh⟩ := bind_eq_ok.mp hh
  obtain ⟨P, _, hh⟩ := bind_eq_ok.mp hh
  obtain ⟨r, _, hh⟩ := bind_eq_ok.mp hh
  cases r with
  | relaxed a b => cases hh
  | discrete h' =>
    simp only at hh
    split at hh
    · cases hh
    · rename_i h1
      split at hh
      · injection hh with hh
        subst hh
        refine ⟨not_lt.mp h1, ?_⟩
        intro i hi
        simp only [hi, if_true]
      · rename_i h2
        injection hh with hh
        subst hh
        refine ⟨not_lt.mp h1, ?_⟩
        intro i hi
        by_contra hne
        exact h2 ⟨i, hi, hne⟩

theorem clamp_ok {U : Mat} {y : Labels} (hpos : 0 < U.rows * U.cols) (hy : y.size ≤ U.rows)
    (hv : ∀ i < y.size, y.get i < U.cols) :
    LatentNode.clamp U y = .ok ⟨U.rows, U.cols, fun i s =>
      if i < y.size ∧ s = y.get i then 100 * max (LatentGraph.matMax U) 1 else U.get i s⟩ := by
  unfold LatentNode.clamp
  rw [if_neg (by omega), if_neg (by omega), if_neg (not_not.mpr hv)]

/-- **C34 (success).** If the backend answers every problem with a labelling of all vertices, then
`EdgeFeatureLatentNodeCRF.latent` succeeds for all labels `y` of the visible vertices of a well-formed
instance. -/
theorem C34_edge_latent_node_succeeds (inf : GraphCRF.Infer) (m : EModel) (x : EX) (y : Labels)
    (w : Vec)
    (hF : x.features.cols = m.base.nFeatures)
    (hE : x.edgeFeatures.rows = x.edges.length) (hK : x.edgeFeatures.cols = m.nEdgeFeatures)
    (hpos : 0 < m.nEdgeFeatures)
    (hr : x.features.rows = if m.base.latentFeatures then y.size + x.nHidden else y.size)
    (hn : 0 < y.size + x.nHidden) (hS : 0 < m.base.nStates) (hw : w.size = eSize m)
    (hv : ∀ i < y.size, y.get i < m.base.nLabels)
    (hinf : ∀ U P, ∃ h, inf U (.ten P) x.edges = .ok (.discrete h) ∧ h.size = U.rows) :
    ∃ h, eLatent inf m x y w = .ok h ∧ h.size = y.size + x.nHidden := by
  obtain ⟨U, M, hU, hs⟩ := eUnary_ok hF hE hK hr hn hS hw
  obtain ⟨P, hP, _⟩ := ePairwise_ok hF hE hK hpos hw
  have hclamp := clamp_ok (U := U) (y := y) (by rw [hs.rows, hs.cols]; exact Nat.mul_pos hn hS)
    (by rw [hs.rows]; omega)
    (by intro i hi; rw [hs.cols]; exact lt_of_lt_of_le (hv i hi) (nLabels_le m.base))
  obtain ⟨h, hh, hsz⟩ := hinf _ P
  unfold eLatent
  rw [hU]
  simp only [bind, Except.bind]
  rw [hclamp]
  simp only [hP]
  rw [hh]
  simp only at hsz ⊢
  rw [hs.rows] at hsz
  rw [if_neg (by omega)]
  by_cases h2 : LatentNode.Inconsistent y h
  · rw [if_pos h2]; exact ⟨_, rfl, hsz⟩
  · rw [if_neg h2]; exact ⟨_, rfl, hsz⟩

/-- **C34 fails for LatentNodeCRF**: with exact inference `latent` may raise `ValueError` on well-formed
input, because the reward for the given labels is finite. One visible vertex with label 0 and one hidden
vertex; the coupling between two hidden states is stronger than the reward. -/
theorem C34_violated_latent_node_raises :
    ∃ (m : LatentNode.Model) (x : LatentNode.X) (y : Labels) (w : Vec),
      w.size = LatentNode.sizeJointFeature m ∧ x.features.rows = y.size ∧
      (∀ i < y.size, y.get i < m.nLabels) ∧
      (LatentNode.latent (MaxProd.maxProductInfer {}) m x y w).map (fun h => h.get 0) =
        .error .valueError :=
  ⟨⟨1, 1, 1, false⟩, ⟨⟨1, 1, fun _ _ => 0⟩, [(0, 1)], 1⟩, ⟨1, fun _ => 0⟩,
    ⟨4, fun k => if k = 3 then 1000 else 0⟩, by decide +kernel⟩

/-! ### C35: initialisation -/

/-- **C35 (latent nodes).** If the clusterings assign every hidden vertex one of the hidden states, then
k-means initialisation produces for every sample a legal completion whose labels are the given ones. -/
theorem C35_latent_node_init (L H : ℕ) (Y : List Labels) (nHidden : ℕ → ℕ) (pred : ℕ → ℕ → ℕ)
    (hpred : ∀ k j, pred k j < H) (hY : ∀ y ∈ Y, ∀ i < y.size, y.get i < L) (k : ℕ)
    (hk : k < Y.length) :
    ∃ h y, (LatentNode.kmeansInit L Y nHidden pred)[k]? = some h ∧ Y[k]? = some y ∧
      h.size = y.size + nHidden k ∧ Legal y.size (nHidden k) L (H + L) h.get ∧
      (labelFromLatent L h).size = y.size ∧
      ∀ i < y.size, (labelFromLatent L h).get i = y.get i := by
  have hg : Y.getD k ⟨0, fun _ => 0⟩ = Y[k] := List.getD_eq_getElem _ _ hk
  have hmem : Y[k] ∈ Y := List.getElem_mem hk
  have hleg : Legal Y[k].size (nHidden k) L (H + L)
      (fun i => if i < Y[k].size then Y[k].get i else pred k (i - Y[k].size) + L) := by
    constructor
    · intro i hi; simp only [hi, if_true]; exact hY _ hmem i hi
    · intro i hi _
      simp only [not_lt.mpr hi, if_false]
      have := hpred k (i - Y[k].size)
      omega
  refine ⟨⟨Y[k].size + nHidden k, fun i => if i < Y[k].size then Y[k].get i
    else pred k (i - Y[k].size) + L⟩, Y[k], ?_, List.getElem?_eq_getElem hk, rfl, hleg, ?_⟩
  · unfold LatentNode.kmeansInit
    rw [List.getElem?_map, List.getElem?_range hk]
    simp only [Option.map_some, hg]
  · obtain ⟨h1, h2⟩ := labelFromLatent_legal (h := ⟨Y[k].size + nHidden k, fun i =>
      if i < Y[k].size then Y[k].get i else pred k (i - Y[k].size) + L⟩) rfl hleg
    refine ⟨h1, ?_⟩
    intro i hi
    rw [h2 i hi]
    simp only [hi, if_true]

example : (LatentNode.kmeansInit 2 [⟨2, fun i => i⟩] (fun _ => 2) (fun _ j => j)).map
    (fun h => (List.range h.size).map h.get) = [[0, 1, 2, 3]] := by decide

/-! ### C64: forbidden states are not decoded when couplings are small -/

/-- Changing the state of one vertex. -/
def setState (h : ℕ → ℕ) (i s : ℕ) : ℕ → ℕ := fun j => if j = i then s else h j

theorem score_setState (n : ℕ) (edges : List (ℕ × ℕ)) (U : ℕ → ℕ → ℚ) (P : ℕ → ℕ → ℕ → ℚ)
    (h : ℕ → ℕ) (i s : ℕ) (hi : i < n) (B : ℚ)
    (hB : ∀ e < edges.length, ∀ a b a' b', P e a b - P e a' b' ≤ B) :
    Spec.score n edges U P h + U i s - U i (h i) - edges.length * B ≤
      Spec.score n edges U P (setState h i s) := by
  unfold Spec.score
  have hu : ∑ j ∈ range n, U j (setState h i s j) = ∑ j ∈ range n, U j (h j) + U i s - U i (h i) := by
    have h1 := Finset.add_sum_erase (range n) (fun j => U j (setState h i s j)) (mem_range.mpr hi)
    have h2 := Finset.add_sum_erase (range n) (fun j => U j (h j)) (mem_range.mpr hi)
    have h3 : ∑ j ∈ (range n).erase i, U j (setState h i s j) =
        ∑ j ∈ (range n).erase i, U j (h j) := by
      apply sum_congr rfl; intro j hj
      unfold setState
      rw [if_neg (Finset.ne_of_mem_erase hj)]
    have h4 : setState h i s i = s := by unfold setState; simp
    simp only [h4] at h1
    rw [← h1, ← h2, h3]; ring
  have hp : ∑ e ∈ range edges.length, P e (h (edges.getD e (0, 0)).1) (h (edges.getD e (0, 0)).2) -
      edges.length * B ≤ ∑ e ∈ range edges.length,
        P e (setState h i s (edges.getD e (0, 0)).1) (setState h i s (edges.getD e (0, 0)).2) := by
    have h5 : (edges.length : ℚ) * B = ∑ _e ∈ range edges.length, B := by simp
    rw [h5, ← sum_sub_distrib]
    apply sum_le_sum; intro e he
    have := hB e (mem_range.mp he) (h (edges.getD e (0, 0)).1) (h (edges.getD e (0, 0)).2)
      (setState h i s (edges.getD e (0, 0)).1) (setState h i s (edges.getD e (0, 0)).2)
    linarith
  rw [hu]; linarith

/-- **C64 (partial: small couplings only; false in general, `C64_violated`).** Let `B` bound the difference
of any two pairwise potentials of the same edge, and let every vertex have a permitted state whose score
exceeds the penalty `-100 M` by more than `B` times the number of edges, where `M ≥ 1` bounds the
permitted scores. Then every optimal labelling is legal: exact inference never assigns hidden states to
visible vertices or labels to hidden ones. -/
theorem C64_small_couplings_partial (m : LatentNode.Model) (x : LatentNode.X) (w : Vec) (nv : ℕ)
    (hF : x.features.cols = m.nFeatures)
    (hr : x.features.rows = if m.latentFeatures then nv + x.nHidden else nv)
    (hn : 0 < nv + x.nHidden) (hS : 0 < m.nStates)
    (hw : w.size = LatentNode.sizeJointFeature m) :
    ∃ U P M, LatentNode.unaryPotentials m x w = .ok U ∧
      LatentNode.pairwisePotentials m x w = .ok P ∧ 1 ≤ M ∧
      ∀ B : ℚ, (∀ a b a' b', P.get a b - P.get a' b' ≤ B) →
      (∀ i < nv, ∃ s < m.nLabels, -100 * M + x.edges.length * B < U.get i s) →
      (∀ i, nv ≤ i → i < nv + x.nHidden → ∃ s, m.nLabels ≤ s ∧ s < m.nStates ∧
        -100 * M + x.edges.length * B < U.get i s) →
      ∀ h, Spec.IsMAP (nv + x.nHidden) m.nStates x.edges U.get (fun _ => P.get) h →
        Legal nv x.nHidden m.nLabels m.nStates h := by
  obtain ⟨U, M, hU, hs⟩ := LatentNode.unary_ok hF hr hn hS hw
  refine ⟨U, _, M, hU, LatentNode.pairwise_ok hF hw, hs.one_le, ?_⟩
  intro B hB hvis hhid h hmap
  have key : ∀ i < nv + x.nHidden, ∀ s < m.nStates, U.get i (h i) = -100 * M →
      -100 * M + x.edges.length * B < U.get i s → False := by
    intro i hi s hsS h1 h2
    have h3 := score_setState (nv + x.nHidden) x.edges U.get (fun _ => LP m w.get) h i s hi B
      (fun e _ a b a' b' => hB a b a' b')
    have h4 := hmap.2 (setState h i s) (by
      intro j hj
      unfold setState
      split
      · exact hsS
      · exact hmap.1 j hj)
    have h4' : Spec.score (nv + x.nHidden) x.edges U.get (fun _ => LP m w.get) (setState h i s) ≤
      Spec.score (nv + x.nHidden) x.edges U.get (fun _ => LP m w.get) h := h4
    linarith
  constructor
  · intro i hi
    by_contra hge
    obtain ⟨s, hsL, h2⟩ := hvis i hi
    exact key i (by omega) s (lt_of_lt_of_le hsL (nLabels_le m))
      (hs.forbidden_visible i hi _ (not_lt.mp hge)) h2
  · intro i hi hi'
    refine ⟨?_, hmap.1 i hi'⟩
    by_contra hlt
    obtain ⟨s, _, hsS, h2⟩ := hhid i hi hi'
    exact key i hi' s hsS (hs.forbidden_hidden i hi _ (not_le.mp hlt)) h2

/-- concrete instance of the conditions of C64: zero weights, so `B = 0` and `M = 1`. -/
example : ∀ a b a' b', LP ⟨2, 2, 1, false⟩ (fun _ => 0) a b - LP ⟨2, 2, 1, false⟩ (fun _ => 0) a' b'
    ≤ 0 := by
  intro a b a' b'
  simp [LP_eq]

/-- **C64 is false**: a strong coupling makes every optimal labelling give a hidden state to a visible
vertex. -/
theorem C64_violated :
    ∃ (m : LatentNode.Model) (x : LatentNode.X) (w : Vec) (U P : Mat),
      w.size = LatentNode.sizeJointFeature m ∧ x.features.rows = 1 ∧ x.nHidden = 1 ∧
      LatentNode.unaryPotentials m x w = .ok U ∧ LatentNode.pairwisePotentials m x w = .ok P ∧
      ∀ h, Spec.IsMAP 2 m.nStates x.edges U.get (fun _ => P.get) h →
        ¬ Legal 1 1 m.nLabels m.nStates h := by
  obtain ⟨U, M, hU, hs⟩ := LatentNode.unary_ok (m := ⟨1, 1, 1, false⟩)
    (x := ⟨⟨1, 1, fun _ _ => 0⟩, [(0, 1)], 1⟩) (w := ⟨4, fun k => if k = 3 then 1000 else 0⟩)
    (nv := 1) rfl rfl (by decide) (by decide) (by decide)
  have hval : (LatentNode.unaryPotentials ⟨1, 1, 1, false⟩ ⟨⟨1, 1, fun _ _ => 0⟩, [(0, 1)], 1⟩
      ⟨4, fun k => if k = 3 then 1000 else 0⟩).map
      (fun U => (U.get 0 0, U.get 0 1, U.get 1 0, U.get 1 1)) = .ok (0, -100, -100, 0) := by
    decide +kernel
  rw [hU] at hval
  injection hval with hval
  simp only [Prod.mk.injEq] at hval
  obtain ⟨u00, u01, u10, u11⟩ := hval
  refine ⟨⟨1, 1, 1, false⟩, ⟨⟨1, 1, fun _ _ => 0⟩, [(0, 1)], 1⟩,
    ⟨4, fun k => if k = 3 then 1000 else 0⟩, U, _, by decide, rfl, rfl, hU,
    LatentNode.pairwise_ok rfl (by decide), ?_⟩
  intro h hmap hl
  have h0 : h 0 = 0 := by
    have : h 0 < 1 := hl.1 0 (by decide)
    omega
  have h1 : h 1 = 1 := by
    have h2 := (hl.2 1 (by decide) (by decide)).1
    have h3 := (hl.2 1 (by decide) (by decide)).2
    simp only [LatentNode.Model.nStates] at h2 h3
    omega
  have := hmap.2 (fun _ => 1) (by intro i _; exact show 1 < 2 by decide)
  unfold Spec.score at this
  simp only [List.length_cons, List.length_nil, Nat.zero_add, sum_range_succ, range_zero, sum_empty,
    List.getD_cons_zero, h0, h1, u00, u01, u11, LP_eq, LatentNode.Model.nStates] at this
  norm_num at this

end Verif.Props
