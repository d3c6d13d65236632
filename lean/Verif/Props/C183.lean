import Verif.Spec.WithoutHidden
import Verif.Model.LatentNodeInstance
import Verif.Model.MaxProd
import Verif.Props.C34

/-!
# C183: a `LatentNodeCRF` without hidden nodes
-/

namespace Verif.Props

open Finset Verif.Common Verif.Spec Verif.Learner

/-- the `LatentNodeCRF` with `L` labels, no hidden states and `F` features. -/
def noHiddenModel (L F : ℕ) (lf : Bool) : LatentNode.Model := ⟨L, 0, F, lf⟩

/-- a graph as an instance without hidden nodes. -/
def noHiddenX (x : GraphCRF.X) : LatentNode.X := ⟨x.features, x.edges, 0⟩

theorem noHidden_states (L F : ℕ) (lf : Bool) : (noHiddenModel L F lf).nStates = L := Nat.zero_add L

theorem noHidden_input (L F : ℕ) (lf : Bool) : (noHiddenModel L F lf).nInput = L := by
  unfold LatentNode.Model.nInput
  rw [noHidden_states]
  exact ite_self _

/-- **C183, size.** The joint feature has the size of that of an undirected `GraphCRF`. -/
theorem C183_size (L F : ℕ) (lf : Bool) :
    LatentNode.sizeJointFeature ⟨L, 0, F, lf⟩ = GraphCRF.sizeJointFeature ⟨L, F, false⟩ := by
  change (noHiddenModel L F lf).nInput * F + (noHiddenModel L F lf).nStates * ((noHiddenModel L F lf).nStates + 1) / 2 = _
  rw [noHidden_states, noHidden_input]
  rfl

/-- **C183, joint features.** For labellings of all nodes, and for marginals of the right size, the joint feature is that of an
undirected `GraphCRF`; the same exceptions are raised. -/
theorem C183_joint_feature (L F : ℕ) (lf : Bool) (x : GraphCRF.X) (y : YVal)
    (hd : ∀ l, y = .discrete l → l.size = x.features.rows)
    (hr : ∀ u p, y = .relaxed u p → u.size = x.features.rows * L ∧ 0 < L) :
    LatentNode.jointFeature ⟨L, 0, F, lf⟩ ⟨x.features, x.edges, 0⟩ y = GraphCRF.jointFeature ⟨L, F, false⟩ x y := by
  have hM : LatentNode.marginals L x.edges y = GraphCRF.marginals L x y := by
    cases y with
    | discrete l =>
      unfold LatentNode.marginals GraphCRF.marginals
      simp only [hd l rfl]
    | relaxed u p =>
      obtain ⟨h1, h2⟩ := hr u p rfl
      unfold LatentNode.marginals GraphCRF.marginals
      simp only [h1, Nat.mul_div_cancel _ h2]
  have hU : ∀ U pw, GraphCRF.marginals L x y = .ok (U, pw) → U.rows = x.features.rows ∧ U.cols = L := by
    intro U pw h
    cases y with
    | discrete l =>
      unfold GraphCRF.marginals at h
      obtain ⟨V, hV, h⟩ := bind_eq_ok.mp h
      obtain ⟨a, _, h⟩ := bind_eq_ok.mp h
      obtain ⟨b, _, h⟩ := bind_eq_ok.mp h
      obtain ⟨c, _, h⟩ := bind_eq_ok.mp h
      injection h with h
      injection h with h _
      subst h
      unfold GraphCRF.oneHot at hV
      split at hV
      · cases hV
      split at hV
      · cases hV
      injection hV with hV
      subst hV
      exact ⟨rfl, rfl⟩
    | relaxed u p =>
      unfold GraphCRF.marginals at h
      obtain ⟨V, hV, h⟩ := bind_eq_ok.mp h
      obtain ⟨t, _, h⟩ := bind_eq_ok.mp h
      injection h with h
      injection h with h _
      subst h
      unfold Vec.reshape2 at hV
      split at hV
      · injection hV with hV
        subst hV
        exact ⟨rfl, rfl⟩
      · cases hV
  change LatentNode.jointFeature (noHiddenModel L F lf) (noHiddenX x) y = _
  unfold LatentNode.jointFeature GraphCRF.jointFeature
  rw [noHidden_states, noHidden_input]
  change (LatentNode.checkSizeX _ _ >>= fun _ => LatentNode.marginals L x.edges y >>= _) = (GraphCRF.checkSizeX _ _ >>= fun _ => _ >>= _)
  rw [hM]
  change (GraphCRF.checkSizeX ⟨L, F, false⟩ x >>= _) = _
  congr 1
  funext _
  cases hc : GraphCRF.marginals L x y with
  | error e => rfl
  | ok p =>
    obtain ⟨U, pw⟩ := p
    obtain ⟨h1, h2⟩ := hU U pw hc
    change (LatentNode.accumulate U L x.features >>= _) = (U.T.mul x.features >>= _)
    unfold LatentNode.accumulate
    rw [h1, h2, min_self, min_self, ← h1, ← h2]
    rfl

/-- The scores of all nodes from the scores of the visible ones: the same exception, or arrays with the same entries. -/
theorem noHidden_core (L F : ℕ) (lf : Bool) (f p : Mat) (hn : 0 < f.rows) (hL : 0 < L) (hp : p.rows = L) :
    (∃ e, LatentNode.unaryCore (noHiddenModel L F lf) f 0 p = .error e ∧ f.mul p.T = .error e) ∨
    ∃ U U', LatentNode.unaryCore (noHiddenModel L F lf) f 0 p = .ok U' ∧ f.mul p.T = .ok U ∧ SameArray U U' ∧ U.rows = f.rows ∧
      U.cols = L := by
  unfold LatentNode.unaryCore
  cases hm : f.mul p.T with
  | error e => exact .inl ⟨e, rfl, rfl⟩
  | ok U =>
    right
    have hs : U.rows = f.rows ∧ U.cols = L := by
      unfold Mat.mul at hm
      split at hm
      · injection hm with hm
        subst hm
        exact ⟨rfl, hp⟩
      · cases hm
    have hpos : U.rows * U.cols ≠ 0 := by
      rw [hs.1, hs.2]
      exact (Nat.mul_pos hn hL).ne'
    simp only [bind, Except.bind]
    rw [noHidden_states]
    change ∃ V U', (if lf = true then LatentNode.forbid L (LatentNode.visibleStop f.rows 0) U else
      LatentNode.forbid L f.rows ⟨f.rows, L, fun i s => if i < f.rows ∧ s < L then U.get i s else 0⟩) = .ok U' ∧ _
    have hv : LatentNode.visibleStop f.rows 0 = f.rows := by
      unfold LatentNode.visibleStop
      rw [if_pos (Nat.zero_le _), Nat.sub_zero]
    rw [hv]
    cases lf with
    | true =>
      rw [if_pos rfl]
      unfold LatentNode.forbid
      rw [if_neg hpos]
      refine ⟨U, _, rfl, rfl, ⟨rfl, rfl, fun i hi s hs' => ?_⟩, hs⟩
      simp only
      rw [if_pos (hs.1 ▸ hi), if_neg (by have := hs.2 ▸ hs'; omega)]
    | false =>
      rw [if_neg (by simp)]
      unfold LatentNode.forbid
      simp only
      rw [if_neg (hs.1 ▸ hs.2 ▸ hpos)]
      refine ⟨U, _, rfl, rfl, ⟨hs.1.symm, hs.2.symm, fun i hi s hs' => ?_⟩, hs⟩
      have h1 : i < f.rows := hs.1 ▸ hi
      have h2 : s < L := hs.2 ▸ hs'
      simp only
      rw [if_pos h1, if_neg (by omega), if_pos ⟨h1, h2⟩]

/-- Loss augmentation of two arrays with the same entries. -/
theorem noHidden_augment {L n : ℕ} {U U' : Mat} (h : SameArray U U') (hr : U.rows = n) (hcol : U.cols = L) {cw : Vec} {y : Labels} (hc : cw.size = L)
    (hy : y.size = n) (hl : ∀ i < y.size, y.get i < L) :
    ∃ V V', Loss.lossAugmentUnaries U y cw = .ok V ∧ LatentNode.augment L L cw U' y = .ok V' ∧ SameArray V V' := by
  obtain ⟨s1, g1⟩ := labelFromLatent_legal (nv := y.size) (nh := 0) (L := L) (S := L) (h := y) rfl ⟨hl, fun i _ _ => by omega⟩
  have ha : Loss.lossAugmentUnaries U y cw = .ok ⟨U.rows, U.cols,
      fun i s => if s = y.get i then U.get i s else U.get i s + cw.get (y.get i)⟩ := by
    unfold Loss.lossAugmentUnaries
    rw [if_neg (by rw [hr, hy]; exact lt_irrefl _), if_neg (by
      rw [not_not, hr, hc, ← hy]; exact hl)]
  have hb : LatentNode.augment L L cw U' y = .ok ⟨U'.rows, U'.cols, (List.range L).foldl
      (fun u l => fun i s => if s = l ∧ i < (LatentNode.labelFromLatent L y).size ∧ (LatentNode.labelFromLatent L y).get i ≠ l then
        u i s + cw.get ((LatentNode.labelFromLatent L y).get i) else u i s) U'.get⟩ := by
    unfold LatentNode.augment
    simp only
    rw [if_neg (by
      rw [not_not, s1, hc]
      intro i hi'
      rw [g1 i hi']
      exact hl i hi'), if_neg (by rw [s1, h.1, hr, hy]; exact lt_irrefl _)]
  refine ⟨_, _, ha, hb, h.1, h.2.1, fun i hi' s hs => ?_⟩
  have hi1 : i < y.size := by rw [hy, ← hr]; exact hi'
  have hs1 : s < L := hcol ▸ hs
  simp only
  rw [latent_augment_fold, s1, g1 i hi1, h.2.2 i hi' s hs]
  by_cases hq : s = y.get i
  · rw [if_pos hq, if_neg (fun h => h.2.2 hq.symm)]
  · rw [if_neg hq, if_pos ⟨hs1, hi1, fun h => hq h.symm⟩]

/-- The unary potentials: the same exception, or arrays with the same entries. -/
theorem noHidden_unary (L F : ℕ) (lf : Bool) (x : GraphCRF.X) (w : Vec) (hn : 0 < x.features.rows) (hL : 0 < L) :
    (∃ e, LatentNode.unaryPotentials (noHiddenModel L F lf) (noHiddenX x) w = .error e ∧
      GraphCRF.unaryPotentials ⟨L, F, false⟩ x w = .error e) ∨
    ∃ U U', LatentNode.unaryPotentials (noHiddenModel L F lf) (noHiddenX x) w = .ok U' ∧
      GraphCRF.unaryPotentials ⟨L, F, false⟩ x w = .ok U ∧ SameArray U U' ∧ U.rows = x.features.rows ∧ U.cols = L := by
  unfold LatentNode.unaryPotentials GraphCRF.unaryPotentials
  rw [noHidden_input]
  change (∃ e, (GraphCRF.checkSizeW (LatentNode.sizeJointFeature ⟨L, 0, F, lf⟩) w >>= _) = _ ∧ _) ∨ ∃ U U', (GraphCRF.checkSizeW (LatentNode.sizeJointFeature ⟨L, 0, F, lf⟩) w >>= _) = _ ∧ _
  rw [C183_size]
  cases GraphCRF.checkSizeW (GraphCRF.sizeJointFeature ⟨L, F, false⟩) w with
  | error e => exact .inl ⟨e, rfl, rfl⟩
  | ok _ =>
    change (∃ e, (GraphCRF.checkSizeX ⟨L, F, false⟩ x >>= _) = _ ∧ (GraphCRF.checkSizeX ⟨L, F, false⟩ x >>= _) = _) ∨
      ∃ U U', (GraphCRF.checkSizeX ⟨L, F, false⟩ x >>= _) = _ ∧ (GraphCRF.checkSizeX ⟨L, F, false⟩ x >>= _) = _ ∧ _
    cases GraphCRF.checkSizeX ⟨L, F, false⟩ x with
    | error e => exact .inl ⟨e, rfl, rfl⟩
    | ok _ =>
      change (∃ e, ((w.slice 0 (L * F)).reshape2 L F >>= _) = _ ∧ ((w.slice 0 (L * F)).reshape2 L F >>= _) = _) ∨
        ∃ U U', ((w.slice 0 (L * F)).reshape2 L F >>= _) = _ ∧ ((w.slice 0 (L * F)).reshape2 L F >>= _) = _ ∧ _
      have hp : (w.slice 0 (L * F)).reshape2 L F = .ok ⟨L, F, fun i j => (w.slice 0 (L * F)).get (i * F + j)⟩ := by
        unfold Vec.reshape2
        exact if_pos rfl
      rw [hp]
      exact noHidden_core L F lf x.features _ hn hL rfl

theorem noHidden_pairwise (L F : ℕ) (lf : Bool) (x : GraphCRF.X) (w : Vec) :
    LatentNode.pairwisePotentials (noHiddenModel L F lf) (noHiddenX x) w = GraphCRF.pairwisePotentials ⟨L, F, false⟩ x w := by
  unfold LatentNode.pairwisePotentials
  rw [noHidden_input]
  change (GraphCRF.checkSizeW (LatentNode.sizeJointFeature ⟨L, 0, F, lf⟩) w >>= _) = _
  rw [C183_size]
  rfl

theorem sameArray_refl (P : Mat) : SameArray P P := ⟨rfl, rfl, fun _ _ _ _ => rfl⟩

/-- **C183, inference.** On a graph with at least one node, inference returns what an undirected `GraphCRF` with the same weights
returns, or raises the same exception, for every inference method. -/
theorem C183_inference {inf : GraphCRF.Infer} (hi : ReadsArrays inf) (L F : ℕ) (lf : Bool) (x : GraphCRF.X) (w : Vec)
    (hn : 0 < x.features.rows) (hL : 0 < L) :
    nodeInference inf ⟨L, 0, F, lf⟩ ⟨x.features, x.edges, 0⟩ w = GraphCRF.inference inf ⟨L, F, false⟩ x w := by
  change nodeInference inf (noHiddenModel L F lf) (noHiddenX x) w = _
  unfold nodeInference GraphCRF.inference
  rw [noHidden_pairwise]
  change (GraphCRF.checkSizeW (LatentNode.sizeJointFeature ⟨L, 0, F, lf⟩) w >>= _) = _
  rw [C183_size]
  congr 1
  funext _
  rcases noHidden_unary L F lf x w hn hL with ⟨e, h1, h2⟩ | ⟨U, U', h1, h2, h3, _⟩
  · rw [h1, h2]; rfl
  · rw [h1, h2]
    simp only [bind, Except.bind]
    cases GraphCRF.pairwisePotentials ⟨L, F, false⟩ x w with
    | error e => rfl
    | ok P => exact hi _ _ _ _ _ h3 (sameArray_refl P)

/-- **C183, loss-augmented inference.** The same for loss-augmented inference with the true labels of all nodes. -/
theorem C183_loss_augmented {inf : GraphCRF.Infer} (hi : ReadsArrays inf) (L F : ℕ) (lf : Bool) (x : GraphCRF.X) (w cw : Vec) (y : Labels)
    (hn : 0 < x.features.rows) (hL : 0 < L) (hc : cw.size = L) (hy : y.size = x.features.rows) (hl : ∀ i < y.size, y.get i < L) :
    LatentNode.lossAugmentedInference inf cw ⟨L, 0, F, lf⟩ ⟨x.features, x.edges, 0⟩ y w =
      GraphCRF.lossAugmentedInference inf cw ⟨L, F, false⟩ x y w := by
  change LatentNode.lossAugmentedInference inf cw (noHiddenModel L F lf) (noHiddenX x) y w = _
  unfold LatentNode.lossAugmentedInference GraphCRF.lossAugmentedInference
  rw [noHidden_pairwise, noHidden_states]
  change (GraphCRF.checkSizeW (LatentNode.sizeJointFeature ⟨L, 0, F, lf⟩) w >>= _) = _
  rw [C183_size]
  congr 1
  funext _
  rcases noHidden_unary L F lf x w hn hL with ⟨e, h1, h2⟩ | ⟨U, U', h1, h2, h3, h4, h5⟩
  · rw [h1, h2]; rfl
  · rw [h1, h2]
    simp only [bind, Except.bind]
    cases GraphCRF.pairwisePotentials ⟨L, F, false⟩ x w with
    | error e => rfl
    | ok P =>
      obtain ⟨V, V', ha, hb, h6⟩ := noHidden_augment h3 h4 h5 hc hy hl
      rw [ha]
      change Except.bind (LatentNode.augment L L cw U' y) _ = _
      rw [hb]
      exact hi _ _ _ _ _ h6 (sameArray_refl P)

/-- **C183, losses.** The loss of two labellings is that of a `GraphCRF` with the same class weights. -/
theorem C183_loss (L n : ℕ) (cw : Vec) (y z : Labels) (hc : cw.size = L) (hy : y.size = n) (hz : z.size = n)
    (hl : ∀ i < n, y.get i < L) (hk : ∀ i < n, z.get i < L) : LatentNode.loss L cw y z = Loss.loss (some cw) y z := by
  obtain ⟨s1, g1⟩ := labelFromLatent_legal (nv := n) (nh := 0) (L := L) (S := L) (h := y) hy ⟨hl, fun i _ _ => by omega⟩
  obtain ⟨s2, g2⟩ := labelFromLatent_legal (nv := n) (nh := 0) (L := L) (S := L) (h := z) hz ⟨hk, fun i _ _ => by omega⟩
  unfold LatentNode.loss Loss.loss
  simp only
  have e1 : ∀ i < (LatentNode.labelFromLatent L y).size, (LatentNode.labelFromLatent L y).get i < cw.size := by
    rw [s1, hc]
    intro i hi
    rw [g1 i hi]
    exact hl i hi
  have e2 : ∀ i < y.size, y.get i < cw.size := by
    rw [hy, hc]
    exact hl
  rw [if_neg (not_not.mpr (s1.trans s2.symm)), if_neg (not_not.mpr (hy.trans hz.symm)), if_pos e1, if_pos e2, s1, hy]
  congr 1
  exact sum_congr rfl fun i hi => by rw [g1 i (mem_range.mp hi), g2 i (mem_range.mp hi)]

/-- **C183, completion.** There is nothing to complete: `latent` returns the given labels or raises. -/
theorem C183_latent (inf : GraphCRF.Infer) (hs : ∀ u P E l, inf u P E = .ok (.discrete l) → l.size = u.rows) (L F : ℕ) (lf : Bool)
    (x : GraphCRF.X) (y : Labels) (w : Vec) (hn : 0 < x.features.rows) (hL : 0 < L) (hy : y.size = x.features.rows) (h : Labels)
    (hh : LatentNode.latent inf ⟨L, 0, F, lf⟩ ⟨x.features, x.edges, 0⟩ y w = .ok h) :
    h.size = y.size ∧ ∀ i < y.size, h.get i = y.get i := by
  refine ⟨?_, (C34_latent_node_consistent inf _ _ y w h hh).2⟩
  change LatentNode.latent inf (noHiddenModel L F lf) (noHiddenX x) y w = .ok h at hh
  unfold LatentNode.latent at hh
  obtain ⟨U, hU, hh⟩ := bind_eq_ok.mp hh
  obtain ⟨V, hV, hh⟩ := bind_eq_ok.mp hh
  obtain ⟨P, _, hh⟩ := bind_eq_ok.mp hh
  obtain ⟨r, hr, hh⟩ := bind_eq_ok.mp hh
  rcases noHidden_unary L F lf x w hn hL with ⟨e, h1, _⟩ | ⟨U0, U', h1, _, h3, h4, _⟩
  · rw [h1] at hU; cases hU
  rw [h1] at hU
  injection hU with hU
  subst hU
  have hrows : V.rows = U'.rows := by
    unfold LatentNode.clamp at hV
    split at hV
    · cases hV
    split at hV
    · cases hV
    split at hV
    · cases hV
    injection hV with hV
    subst hV
    rfl
  cases r with
  | relaxed a b => cases hh
  | discrete h' =>
    simp only at hh
    split at hh
    · cases hh
    split at hh
    · cases hh
    injection hh with hh
    subst hh
    rw [hs _ _ _ _ hr, hrows, h3.1, h4, hy]

/-- **C183, where they differ.** On a graph without nodes a `LatentNodeCRF` takes the maximum of an empty array and raises, whatever the
inference method would return. -/
theorem C183_no_nodes (inf : GraphCRF.Infer) (L F : ℕ) (lf : Bool) (x : GraphCRF.X) (w : Vec) (hn : x.features.rows = 0)
    (hF : x.features.cols = F) (hw : w.size = GraphCRF.sizeJointFeature ⟨L, F, false⟩) :
    nodeInference inf ⟨L, 0, F, lf⟩ ⟨x.features, x.edges, 0⟩ w = .error .valueError := by
  change nodeInference inf (noHiddenModel L F lf) (noHiddenX x) w = _
  unfold nodeInference LatentNode.unaryPotentials
  change (GraphCRF.checkSizeW (LatentNode.sizeJointFeature ⟨L, 0, F, lf⟩) w >>= _) = _
  rw [C183_size, noHidden_input]
  have e1 : GraphCRF.checkSizeW (GraphCRF.sizeJointFeature ⟨L, F, false⟩) w = .ok () := by
    unfold GraphCRF.checkSizeW
    rw [if_neg (by simpa using hw)]
  have e0 : GraphCRF.checkSizeW (LatentNode.sizeJointFeature (noHiddenModel L F lf)) w = .ok () := by
    change GraphCRF.checkSizeW (LatentNode.sizeJointFeature ⟨L, 0, F, lf⟩) w = .ok ()
    rw [C183_size, e1]
  have e2 : LatentNode.checkSizeX (noHiddenModel L F lf) (noHiddenX x) = .ok () := by
    unfold LatentNode.checkSizeX
    exact if_neg (by simpa [noHiddenModel, noHiddenX] using hF)
  have hp : (w.slice 0 (L * F)).reshape2 L F = .ok ⟨L, F, fun i j => (w.slice 0 (L * F)).get (i * F + j)⟩ := by
    unfold Vec.reshape2
    exact if_pos rfl
  have hu : LatentNode.unaryCore (noHiddenModel L F lf) x.features 0 ⟨L, F, fun i j => (w.slice 0 (L * F)).get (i * F + j)⟩ =
      .error .valueError := by
    unfold LatentNode.unaryCore
    have hm : x.features.mul (Mat.T ⟨L, F, fun i j => (w.slice 0 (L * F)).get (i * F + j)⟩) =
        .ok ⟨x.features.rows, L, fun i j => ∑ k ∈ range x.features.cols, x.features.get i k * (w.slice 0 (L * F)).get (j * F + k)⟩ := by
      unfold Mat.mul
      exact if_pos hF
    rw [hm]
    simp only [bind, Except.bind]
    cases lf with
    | true =>
      change LatentNode.forbid _ _ _ = _
      unfold LatentNode.forbid
      exact if_pos (by simp [hn])
    | false =>
      change LatentNode.forbid _ _ _ = _
      unfold LatentNode.forbid
      exact if_pos (by simp [hn])
  rw [e1]
  simp only [bind, Except.bind]
  rw [e0, e2]
  change (Except.bind (Except.bind ((w.slice 0 (L * F)).reshape2 L F) _) _) = _
  rw [hp]
  simp only [Except.bind]
  rw [show LatentNode.unaryCore (noHiddenModel L F lf) (noHiddenX x).features (noHiddenX x).nHidden _ = _ from hu]

/-! ### the hypotheses can be met -/

/-- an array whose values beyond its last row or column are zero. -/
def trimmed (U : Mat) : Mat := ⟨U.rows, U.cols, fun i s => if i < U.rows ∧ s < U.cols then U.get i s else 0⟩

theorem trimmed_same {U U' : Mat} (h : SameArray U U') : trimmed U' = trimmed U := by
  obtain ⟨h1, h2, h3⟩ := h
  unfold trimmed
  rw [h1, h2]
  congr 1
  funext i s
  by_cases hc : i < U.rows ∧ s < U.cols
  · rw [if_pos hc, if_pos hc, h3 i hc.1 s hc.2]
  · rw [if_neg hc, if_neg hc]

/-- max-product, given arrays that have no values outside. -/
def trimmedMaxProduct : GraphCRF.Infer := fun u P E =>
  match P with
  | .mat p => MaxProd.maxProductInfer ⟨5, 1 / 2, 1 / 100000⟩ (trimmed u) (.mat (trimmed p)) E
  | p => MaxProd.maxProductInfer ⟨5, 1 / 2, 1 / 100000⟩ (trimmed u) p E

theorem trimmedMaxProduct_reads : ReadsArrays trimmedMaxProduct := fun u u' P P' E h h' => by
  change MaxProd.maxProductInfer _ (trimmed u') (.mat (trimmed P')) E = MaxProd.maxProductInfer _ (trimmed u) (.mat (trimmed P)) E
  rw [trimmed_same h, trimmed_same h']

/-- three nodes with a feature each in a chain. -/
def noHiddenChain : GraphCRF.X := ⟨⟨3, 1, fun i _ => if i = 0 then 2 else if i = 1 then -1 else 1⟩, [(0, 1), (1, 2)]⟩

/-- weights of two states with one feature. -/
def noHiddenWeights : Vec := ⟨5, fun k => if k = 0 then -1 else if k = 1 then 1 else if k = 3 then 1 / 2 else 0⟩

/-- The two models on a chain: the same labels, decided by the features and the reward for changing the state. -/
example : nodeInference trimmedMaxProduct ⟨2, 0, 1, false⟩ ⟨noHiddenChain.features, noHiddenChain.edges, 0⟩ noHiddenWeights =
      GraphCRF.inference trimmedMaxProduct ⟨2, 1, false⟩ noHiddenChain noHiddenWeights ∧
    ((GraphCRF.inference trimmedMaxProduct ⟨2, 1, false⟩ noHiddenChain noHiddenWeights).toOption.map fun v =>
      match v with
      | .discrete l => (List.range l.size).map l.get
      | .relaxed _ _ => []) = some [1, 0, 1] :=
  ⟨C183_inference trimmedMaxProduct_reads 2 1 false noHiddenChain noHiddenWeights (by decide) (by decide), by decide +kernel⟩

/-- The same with loss augmentation for the true labels 0, 0, 0. -/
example : LatentNode.lossAugmentedInference trimmedMaxProduct ⟨2, fun _ => 1⟩ ⟨2, 0, 1, true⟩ ⟨noHiddenChain.features, noHiddenChain.edges, 0⟩
      ⟨3, fun _ => 0⟩ noHiddenWeights =
    GraphCRF.lossAugmentedInference trimmedMaxProduct ⟨2, fun _ => 1⟩ ⟨2, 1, false⟩ noHiddenChain ⟨3, fun _ => 0⟩ noHiddenWeights :=
  C183_loss_augmented trimmedMaxProduct_reads 2 1 true noHiddenChain noHiddenWeights ⟨2, fun _ => 1⟩ ⟨3, fun _ => 0⟩ (by decide) (by decide) rfl rfl
    fun _ _ => Nat.zero_lt_two

/-- Joint features of the chain labelled 1, 0, 1. -/
example : LatentNode.jointFeature ⟨2, 0, 1, false⟩ ⟨noHiddenChain.features, noHiddenChain.edges, 0⟩ (.discrete ⟨3, fun i => (i + 1) % 2⟩) =
      GraphCRF.jointFeature ⟨2, 1, false⟩ noHiddenChain (.discrete ⟨3, fun i => (i + 1) % 2⟩) ∧
    ((GraphCRF.jointFeature ⟨2, 1, false⟩ noHiddenChain (.discrete ⟨3, fun i => (i + 1) % 2⟩)).toOption.map fun v =>
      (List.range v.size).map v.get) = some [-1, 3, 0, 2, 0] :=
  ⟨C183_joint_feature 2 1 false noHiddenChain _ (fun l h => by injection h with h; rw [← h]; rfl) (fun u p h => by cases h),
    by decide +kernel⟩

/-- A graph without nodes. -/
example : nodeInference trimmedMaxProduct ⟨2, 0, 1, false⟩ ⟨⟨0, 1, fun _ _ => 0⟩, [], 0⟩ noHiddenWeights = .error .valueError :=
  C183_no_nodes _ 2 1 false ⟨⟨0, 1, fun _ _ => 0⟩, []⟩ noHiddenWeights rfl rfl (by decide)

/-- Losses of two labellings of the chain, and the completion of the labels 0, 0, 0 by a method that always returns zeros. -/
example : LatentNode.loss 2 ⟨2, fun k => k + 1⟩ ⟨3, fun i => i % 2⟩ ⟨3, fun _ => 0⟩ = Loss.loss (some ⟨2, fun k => k + 1⟩) ⟨3, fun i => i % 2⟩ ⟨3, fun _ => 0⟩ :=
  C183_loss 2 3 _ _ _ rfl rfl rfl (fun i _ => Nat.mod_lt i Nat.zero_lt_two) fun _ _ => Nat.zero_lt_two

example : ∃ h, LatentNode.latent (fun u _ _ => .ok (.discrete ⟨u.rows, fun _ => 0⟩)) ⟨2, 0, 1, false⟩
      ⟨noHiddenChain.features, noHiddenChain.edges, 0⟩ ⟨3, fun _ => 0⟩ noHiddenWeights = .ok h ∧ h.size = 3 ∧ ∀ i < 3, h.get i = 0 := by
  have h1 : (LatentNode.latent (fun u _ _ => .ok (.discrete ⟨u.rows, fun _ => 0⟩)) ⟨2, 0, 1, false⟩
      ⟨noHiddenChain.features, noHiddenChain.edges, 0⟩ ⟨3, fun _ => 0⟩ noHiddenWeights).toOption.isSome = true := by decide +kernel
  cases h2 : LatentNode.latent (fun u _ _ => .ok (.discrete ⟨u.rows, fun _ => 0⟩)) ⟨2, 0, 1, false⟩
      ⟨noHiddenChain.features, noHiddenChain.edges, 0⟩ ⟨3, fun _ => 0⟩ noHiddenWeights with
  | error e => rw [h2] at h1; cases h1
  | ok h =>
    refine ⟨h, rfl, C183_latent _ (fun u P E l hl => ?_) 2 1 false noHiddenChain ⟨3, fun _ => 0⟩ noHiddenWeights (by decide) (by decide) rfl h h2⟩
    injection hl with hl
    injection hl with hl
    rw [← hl]

end Verif.Props
