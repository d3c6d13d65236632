import Verif.Model.LatentGraph
import Verif.Lemmas.Blocks
import Verif.Props.C24
import Verif.Props.C27
import Verif.Props.C13
import Verif.Props.C10

/-!
# C33, C34, C35: latent states of LatentGraphCRF
-/

namespace Verif.Props

open Finset Verif.Common Verif.Spec Verif.LatentGraph

/-- State `s` belongs to label `l` if the states are handed out to the labels in consecutive blocks of
the given sizes. -/
def Owns (sizes : List ℕ) (l s : ℕ) : Prop :=
  (sizes.take l).sum ≤ s ∧ s < (sizes.take l).sum + sizes.getD l 0

theorem owns_iff (n : List ℕ) (l s : ℕ) :
    Owns n l s ↔ (n.take l).sum ≤ s ∧ s < (n.take (l + 1)).sum := by
  unfold Owns
  rw [take_sum_succ]

theorem statesMap_fold (n : List ℕ) (K l s : ℕ) (h1 : (n.take l).sum ≤ s)
    (h2 : s < (n.take (l + 1)).sum) :
    ((List.range K).map (· + 1)).foldl
      (fun m l => fun s => if cumsum n (l - 1) ≤ s ∧ s < cumsum n l then l else m s)
      (fun _ => 0) s = if l ≤ K then l else 0 := by
  induction K with
  | zero =>
    simp only [List.range_zero, List.map_nil, List.foldl_nil]
    split
    · omega
    · rfl
  | succ K ih =>
    rw [List.range_succ, List.map_append, List.foldl_append]
    simp only [List.map_cons, List.map_nil, List.foldl_cons, List.foldl_nil]
    rw [ih]
    have hc1 : cumsum n (K + 1 - 1) = (n.take (K + 1)).sum := rfl
    have hc2 : cumsum n (K + 1) = (n.take (K + 1 + 1)).sum := rfl
    rw [hc1, hc2]
    by_cases h : (n.take (K + 1)).sum ≤ s ∧ s < (n.take (K + 1 + 1)).sum
    · rw [if_pos h, if_pos]
      · exact block_unique n h.1 h.2 h1 h2
      · exact (block_unique n h1 h2 h.1 h.2).le
    · rw [if_neg h]
      by_cases hl : l ≤ K
      · rw [if_pos hl, if_pos (by omega)]
      · rw [if_neg hl, if_neg]
        intro h'
        have : l = K + 1 := by omega
        subst this
        exact h ⟨h1, h2⟩

theorem statesMap_of_owns (n : List ℕ) {l s : ℕ} (hl : l < n.length) (h : Owns n l s) :
    (statesMap n).get s = l := by
  rw [owns_iff] at h
  have := statesMap_fold n (n.length - 1) l s h.1 h.2
  rw [if_pos (by omega)] at this
  exact this

/-- **C33.** Whatever number or list of state counts is given: a list of the wrong length is rejected;
otherwise there are `sum(n_states_per_label)` states, each belongs to exactly one label, and label `l`
owns exactly the `n_states_per_label[l]` consecutive states after those of the labels before it. -/
theorem C33_state_map (nLabels : ℕ) (spec : StatesSpec) :
    (∀ l, spec = .list l → l.length ≠ nLabels →
      statesPerLabel nLabels spec = .error .valueError) ∧
    ∀ n, statesPerLabel nLabels spec = .ok n →
      n.length = nLabels ∧ (∀ k, spec = .int k → ∀ l < nLabels, n.getD l 0 = k) ∧
      (∀ l, spec = .list l → n = l) ∧
      (statesMap n).size = n.sum ∧
      (∀ s < n.sum, ∃! l, l < nLabels ∧ Owns n l s) ∧
      ∀ s < n.sum, ∀ l < nLabels, (statesMap n).get s = l ↔ Owns n l s := by
  constructor
  · rintro l rfl hl
    simp only [statesPerLabel]
    rw [if_pos hl]
  · intro n hn
    have hlen : n.length = nLabels := by
      cases spec with
      | int k => injection hn with hn; rw [← hn]; simp
      | list l =>
        simp only [statesPerLabel] at hn
        split at hn
        · cases hn
        · rename_i h; injection hn with hn; rw [← hn]; exact not_not.mp h
    have hex : ∀ s < n.sum, ∃ l < n.length, Owns n l s := by
      intro s hs
      obtain ⟨l, hl, h⟩ := exists_block n hs
      exact ⟨l, hl, (owns_iff n l s).mpr h⟩
    refine ⟨hlen, ?_, ?_, rfl, ?_, ?_⟩
    · rintro k rfl l hl
      injection hn with hn
      rw [← hn, List.getD_replicate _ hl]
    · rintro l rfl
      simp only [statesPerLabel] at hn
      split at hn
      · cases hn
      · injection hn with hn; exact hn.symm
    · intro s hs
      obtain ⟨l, hl, h⟩ := hex s hs
      refine ⟨l, ⟨hlen ▸ hl, h⟩, ?_⟩
      rintro l' ⟨_, h'⟩
      rw [owns_iff] at h h'
      exact block_unique n h'.1 h'.2 h.1 h.2
    · intro s hs l hl
      constructor
      · intro h
        obtain ⟨l', hl', h'⟩ := hex s hs
        have := statesMap_of_owns n hl' h'
        rw [this] at h
        exact h ▸ h'
      · intro h
        exact statesMap_of_owns n (by omega) h

/-- concrete instance: three labels with 2, 1, 3 states. -/
example : (List.range 6).map (statesMap [2, 1, 3]).get = [0, 0, 1, 2, 2, 2] := by decide

/-! ### C34 -/

theorem firstStates_owned {m : LatentGraph.Model} {y h : Labels}
    (hy : ∀ i < y.size, y.get i < m.nLabels ∧ 0 < m.nStatesPerLabel.getD (y.get i) 0)
    (hh : firstStates m y = .ok h) :
    h.size = y.size ∧ ∀ i < y.size, h.get i < m.nStates ∧
      (statesMap m.nStatesPerLabel).get (h.get i) = y.get i := by
  unfold firstStates at hh
  split at hh
  · cases hh
  injection hh with hh
  subst hh
  refine ⟨rfl, ?_⟩
  intro i hi
  obtain ⟨h1, h2⟩ := hy i hi
  have hlt : (m.nStatesPerLabel.take (y.get i)).sum < (m.nStatesPerLabel.take (y.get i + 1)).sum := by
    rw [take_sum_succ]; omega
  refine ⟨lt_of_lt_of_le hlt (take_sum_le _ _), ?_⟩
  exact statesMap_of_owns _ h1 ⟨le_rfl, by simpa using h2⟩

theorem labelFromLatent_inv {m : LatentGraph.Model} {h lab : Labels}
    (hl : labelFromLatent m h = .ok lab) :
    (∀ i < h.size, h.get i < m.nStates) ∧
      lab = ⟨h.size, fun i => (statesMap m.nStatesPerLabel).get (h.get i)⟩ := by
  unfold labelFromLatent at hl
  split at hl
  · cases hl
  · rename_i hc
    injection hl with hl
    exact ⟨not_not.mp hc, hl.symm⟩

/-- **C34 (LatentGraphCRF).** Whatever the inference backend returns: if `latent(x, y, w)` returns at all,
the returned states map back to `y`. The labels have to exist and to own at least one state. -/
theorem C34_latent_graph_consistent (inf : GraphCRF.Infer) (m : LatentGraph.Model) (x : GraphCRF.X)
    (y : Labels) (w : Vec) (h : Labels)
    (hy : ∀ i < y.size, y.get i < m.nLabels ∧ 0 < m.nStatesPerLabel.getD (y.get i) 0)
    (hh : latent inf m x y w = .ok h) :
    ∃ lab, labelFromLatent m h = .ok lab ∧ lab.size = y.size ∧ ∀ i < y.size, lab.get i = y.get i := by
  have key : h.size = y.size ∧ ∀ i < y.size, h.get i < m.nStates ∧
      (statesMap m.nStatesPerLabel).get (h.get i) = y.get i := by
    unfold latent at hh
    obtain ⟨u, _, hh⟩ := bind_eq_ok.mp hh
    obtain ⟨u', _, hh⟩ := bind_eq_ok.mp hh
    obtain ⟨p, _, hh⟩ := bind_eq_ok.mp hh
    obtain ⟨r, _, hh⟩ := bind_eq_ok.mp hh
    cases r with
    | relaxed a b => cases hh
    | discrete h0 =>
      simp only at hh
      obtain ⟨lab, hlab, hh⟩ := bind_eq_ok.mp hh
      obtain ⟨hv, rfl⟩ := labelFromLatent_inv hlab
      split at hh
      · cases hh
      rename_i hsz
      split at hh
      · exact firstStates_owned hy hh
      · rename_i hne
        injection hh with hh
        subst hh
        have hsz' : h0.size = y.size := not_not.mp hsz
        refine ⟨hsz', fun i hi => ⟨hv i (by omega), ?_⟩⟩
        by_contra hc
        exact hne ⟨i, hi, hc⟩
  refine ⟨⟨h.size, fun i => (statesMap m.nStatesPerLabel).get (h.get i)⟩, ?_, key.1,
    fun i hi => (key.2 i hi).2⟩
  unfold labelFromLatent
  rw [if_neg (not_not.mpr fun i hi => (key.2 i (by have := key.1; omega)).1)]

/-- **C34, totality.** If the backend returns some labelling with existing states, `latent` succeeds. -/
theorem C34_latent_graph_succeeds (inf : GraphCRF.Infer) (m : LatentGraph.Model) (x : GraphCRF.X)
    (y : Labels) (w : Vec) (hF : x.features.cols = m.nFeatures)
    (hw : w.size = GraphCRF.sizeJointFeature m.graph) (hys : y.size = x.features.rows)
    (hn : 0 < x.features.rows) (hS : 0 < m.nStates)
    (hy : ∀ i < y.size, y.get i < m.nLabels)
    (hinf : ∀ U p e, U.rows = x.features.rows → U.cols = m.nStates →
      ∃ h, inf U p e = .ok (.discrete h) ∧ h.size = U.rows ∧ ∀ i < h.size, h.get i < m.nStates) :
    ∃ h, latent inf m x y w = .ok h := by
  have hu := GraphCRF.unary_ok (m := m.graph) hF hw
  have hp := GraphCRF.pairwise_ok (m := m.graph) hF hw
  set U : Mat := ⟨x.features.rows, m.graph.nStates, GraphCRF.UN m.graph x.features w.get⟩ with hU
  have hmask : ∃ U', maskedUnaries m U y = .ok U' ∧ U'.rows = x.features.rows ∧
      U'.cols = m.nStates := by
    unfold maskedUnaries
    rw [if_neg, if_neg (by rw [hys]; simp [hU])]
    · exact ⟨_, rfl, rfl, rfl⟩
    · rw [hU]
      exact (Nat.mul_pos hn hS).ne'
  obtain ⟨U', hU', hr, hc⟩ := hmask
  obtain ⟨h, hh, hs, hv⟩ := hinf U' (.mat ⟨m.graph.nStates, m.graph.nStates, GraphCRF.PW m.graph w.get⟩) x.edges hr hc
  unfold latent
  simp only [hu, hp, hU', hh, bind, Except.bind, labelFromLatent]
  rw [if_neg (not_not.mpr hv)]
  simp only
  rw [if_neg (by omega)]
  split
  · unfold firstStates
    rw [if_neg (not_not.mpr fun i hi => by have := hy i hi; omega)]
    exact ⟨_, rfl⟩
  · exact ⟨_, rfl⟩

theorem score_eq_graphScore (m : GraphCRF.Model) (x : Mat) (edges : Edges) (w : ℕ → ℚ)
    (y : ℕ → ℕ) :
    Spec.score x.rows edges (GraphCRF.UN m x w) (fun _ => GraphCRF.PW m w) y =
      graphScore m.nStates m.nFeatures m.directed x.get x.rows edges w y := by
  unfold Spec.score graphScore
  congr 1
  · apply sum_congr rfl; intro i _
    unfold GraphCRF.UN
    apply sum_congr rfl; intro f _
    ring
  · apply sum_congr rfl; intro e _
    exact PW_eq m w _ _

/-- **C34, optimality (partial: the fallback is not optimal, see `C34_violated_optimal`).** If the backend
decodes the potentials it is given exactly, then `latent` returns either the first state of every
label (the fallback after inconsistent inference) or a completion of maximal score among all
completions of `y`. -/
theorem C34_latent_graph_optimal_partial (inf : GraphCRF.Infer) (m : LatentGraph.Model)
    (x : GraphCRF.X) (y : Labels) (w : Vec) (h : Labels)
    (hF : x.features.cols = m.nFeatures) (hw : w.size = GraphCRF.sizeJointFeature m.graph)
    (hexact : ∀ U P e h, inf U (.mat P) e = .ok (.discrete h) →
      IsMAP U.rows U.cols e U.get (fun _ => P.get) h.get)
    (hh : latent inf m x y w = .ok h) :
    (∀ i < y.size, h.get i = (m.nStatesPerLabel.take (y.get i)).sum) ∨
    ∀ h', Valid x.features.rows m.nStates h' →
      (∀ i < x.features.rows, (statesMap m.nStatesPerLabel).get (h' i) = y.get i) →
      graphScore m.nStates m.nFeatures m.directed x.features.get x.features.rows x.edges w.get h' ≤
      graphScore m.nStates m.nFeatures m.directed x.features.get x.features.rows x.edges w.get
        h.get := by
  unfold latent at hh
  simp only [GraphCRF.unary_ok (m := m.graph) hF hw, GraphCRF.pairwise_ok (m := m.graph) hF hw,
    bind, Except.bind] at hh
  set U : Mat := ⟨x.features.rows, m.graph.nStates, GraphCRF.UN m.graph x.features w.get⟩ with hU
  rcases hmask : maskedUnaries m U y with err | U'
  · rw [hmask] at hh; cases hh
  rw [hmask] at hh
  simp only at hh
  rcases hr : inf U' (.mat ⟨m.graph.nStates, m.graph.nStates, GraphCRF.PW m.graph w.get⟩) x.edges
    with err | r
  · rw [hr] at hh; cases hh
  rw [hr] at hh
  cases r with
  | relaxed a b => cases hh
  | discrete h0 =>
    simp only at hh
    rcases hlab : labelFromLatent m h0 with err | lab
    · rw [hlab] at hh; cases hh
    rw [hlab] at hh
    simp only at hh
    obtain ⟨hv, hlabe⟩ := labelFromLatent_inv hlab
    split at hh
    · cases hh
    rename_i hsz
    split at hh
    · left
      unfold firstStates at hh
      split at hh
      · cases hh
      · injection hh with hh
        subst hh
        intro i _; rfl
    · rename_i hne
      right
      injection hh with hh
      subst hh
      obtain ⟨_, hmax⟩ := hexact _ _ _ _ hr
      have hys : y.size = x.features.rows ∧ U' = ⟨U.rows, U.cols, fun i s =>
          if (statesMap m.nStatesPerLabel).get s ≠ y.get i then -100 * max (matMax U) 1
          else U.get i s⟩ := by
        unfold maskedUnaries at hmask
        split at hmask
        · cases hmask
        split at hmask
        · cases hmask
        · rename_i h
          injection hmask with hmask
          exact ⟨not_not.mp h, hmask.symm⟩
      obtain ⟨hys, rfl⟩ := hys
      have hcons : ∀ i < x.features.rows, (statesMap m.nStatesPerLabel).get (h0.get i) = y.get i := by
        intro i hi
        by_contra hc
        refine hne ⟨i, by omega, ?_⟩
        rw [hlabe]; exact hc
      intro h' hv' hc'
      have hs : ∀ z : ℕ → ℕ,
          (∀ i < x.features.rows, (statesMap m.nStatesPerLabel).get (z i) = y.get i) →
          Spec.score U.rows x.edges (fun i s =>
            if (statesMap m.nStatesPerLabel).get s ≠ y.get i then -100 * max (matMax U) 1
            else U.get i s) (fun _ => GraphCRF.PW m.graph w.get) z =
          graphScore m.nStates m.nFeatures m.directed x.features.get x.features.rows x.edges w.get z
          := by
        intro z hz
        refine Eq.trans ?_ (score_eq_graphScore m.graph x.features x.edges w.get z)
        unfold Spec.score
        congr 1
        apply sum_congr rfl; intro i hi
        exact if_neg (not_not.mpr (hz i (mem_range.mp hi)))
      rw [← hs h' hc', ← hs h0.get hcons]
      exact hmax h' hv'

/-- the exact backend for graphs without edges, `inference_unaries`. -/
def unaryBackend : GraphCRF.Infer := fun U p e => (Dispatch.inferenceUnaries U p e).map .discrete

/-- **Latent completion is not optimal in general, even with exact inference** (so C34 promises
consistency only): the penalty `-1e2 * max_entry` for forbidden states is finite, so exact decoding
may prefer a forbidden state; the fallback then returns the first state of the label although another
one has a higher score. One vertex, label 0 with states 0 and 1 of scores -1000 and -500, label 1 with
one state of score 0. -/
theorem C34_violated_optimal :
    ∃ (m : LatentGraph.Model) (x : GraphCRF.X) (y : Labels) (w : Vec) (h : Labels) (h' : ℕ → ℕ),
      x.edges = [] ∧ latent unaryBackend m x y w = .ok h ∧
      Valid x.features.rows m.nStates h' ∧
      (∀ i < x.features.rows, (statesMap m.nStatesPerLabel).get (h' i) = y.get i) ∧
      graphScore m.nStates m.nFeatures m.directed x.features.get x.features.rows x.edges w.get
        h.get <
      graphScore m.nStates m.nFeatures m.directed x.features.get x.features.rows x.edges w.get h' := by
  have hd : (latent unaryBackend ⟨[2, 1], 1, false⟩ ⟨⟨1, 1, fun _ _ => 1⟩, []⟩ ⟨1, fun _ => 0⟩
      ⟨9, fun k => [-1000, -500].getD k 0⟩).map (fun l => l.get 0) = .ok 0 := by decide +kernel
  rcases hl : latent unaryBackend ⟨[2, 1], 1, false⟩ ⟨⟨1, 1, fun _ _ => 1⟩, []⟩ ⟨1, fun _ => 0⟩
      ⟨9, fun k => [-1000, -500].getD k 0⟩ with err | h
  · rw [hl] at hd; cases hd
  rw [hl] at hd
  have h0 : h.get 0 = 0 := by injection hd
  refine ⟨⟨[2, 1], 1, false⟩, ⟨⟨1, 1, fun _ _ => 1⟩, []⟩, ⟨1, fun _ => 0⟩,
    ⟨9, fun k => [-1000, -500].getD k 0⟩, h, fun _ => 1, rfl, hl, ?_, ?_, ?_⟩
  · intro i _; exact show 1 < 3 by decide
  · intro i _; exact show (statesMap [2, 1]).get 1 = 0 by decide
  · unfold graphScore
    simp [h0]
    norm_num

/-! ### loss augmentation and relaxed loss of LatentGraphCRF -/

/-- adding one to column `l` for `l = 0, 1, …` adds one to every selected cell once. -/
theorem augment_fold (lab mp : ℕ → ℕ) (u : ℕ → ℕ → ℚ) (S : ℕ) (i s : ℕ) :
    (List.range S).foldl
      (fun u l => fun i s => if s = l ∧ lab i ≠ mp l then u i s + 1 else u i s) u i s
      = if s < S ∧ lab i ≠ mp s then u i s + 1 else u i s := by
  induction S with
  | zero => simp
  | succ S ih =>
    rw [List.range_succ, List.foldl_append]
    simp only [List.foldl_cons, List.foldl_nil]
    rw [ih]
    by_cases h1 : s = S
    · subst h1
      by_cases h2 : lab i = mp s <;> simp [h2]
    · by_cases h3 : s < S
      · simp [h1, h3, Nat.lt_succ_of_lt h3]
      · have : ¬ s < S + 1 := by omega
        simp [h1, h3, this]

/-- **C24 (LatentGraphCRF).** The energy of any latent labelling under the augmented potentials is its
energy under the original ones plus the loss of the labels it maps to, which is the number of
vertices whose visible label is wrong. -/
theorem C24_latent_graph (m : LatentGraph.Model) (U : Mat) (pw : Pairwise) (t : Ten) (edges : Edges)
    (h hhat : Labels) (hp : validateParams U pw edges.length = .ok (U.cols, t))
    (hU : U.cols = m.nStates) (hs : h.size = U.rows) (hs' : hhat.size = U.rows)
    (hv : Valid U.rows m.nStates h.get) (hv' : Valid U.rows m.nStates hhat.get)
    (he : EdgesIn U.rows edges) :
    ∃ U' E L, augment m U h = .ok U' ∧ computeEnergy U pw edges hhat = .ok E ∧
      LatentGraph.loss m h hhat = .ok L ∧ computeEnergy U' pw edges hhat = .ok (E + L) ∧
      L = ((range U.rows).filter fun i => (statesMap m.nStatesPerLabel).get (h.get i) ≠
        (statesMap m.nStatesPerLabel).get (hhat.get i)).card := by
  have hlab : ∀ g : Labels, g.size = U.rows → Valid U.rows m.nStates g.get →
      labelFromLatent m g = .ok ⟨g.size, fun i => (statesMap m.nStatesPerLabel).get (g.get i)⟩ := by
    intro g hg hgv
    unfold labelFromLatent
    rw [if_neg (not_not.mpr fun i hi => hgv i (by omega))]
  have hmap : ∀ s < m.nStates, (statesMap m.nStatesPerLabel).get s < m.nLabels := by
    intro s hs
    obtain ⟨l, hl, h1⟩ := exists_block m.nStatesPerLabel hs
    rw [statesMap_of_owns _ hl ((owns_iff _ _ _).mpr h1)]
    exact hl
  have hL : LatentGraph.loss m h hhat = .ok (weightedHamming U.rows (fun _ => 1)
      (fun i => (statesMap m.nStatesPerLabel).get (h.get i))
      (fun i => (statesMap m.nStatesPerLabel).get (hhat.get i))) := by
    unfold LatentGraph.loss
    rw [hlab h hs hv, hlab hhat hs' hv']
    simp only [bind, Except.bind]
    exact loss_some_ok hs hs' fun i hi => hmap _ (hv i hi)
  refine ⟨⟨U.rows, U.cols, fun i s => if s < m.nStates ∧
      (statesMap m.nStatesPerLabel).get (h.get i) ≠ (statesMap m.nStatesPerLabel).get s
      then U.get i s + 1 else U.get i s⟩, _, _, ?_,
    computeEnergy_ok U pw edges hhat t hp hs' (hU ▸ hv') he, hL, ?_, ?_⟩
  · unfold augment
    rw [hlab h hs hv]
    simp only
    rw [if_neg (by omega)]
    congr 2
    funext i s
    exact augment_fold _ _ _ _ _ _
  · refine (computeEnergy_ok ⟨U.rows, U.cols, fun i s => if s < m.nStates ∧
        (statesMap m.nStatesPerLabel).get (h.get i) ≠ (statesMap m.nStatesPerLabel).get s
        then U.get i s + 1 else U.get i s⟩ pw edges hhat t
      (by unfold validateParams at hp ⊢; exact hp) hs' (hU ▸ hv') he).trans ?_
    congr 1
    unfold Spec.score weightedHamming
    have : ∀ i ∈ range U.rows, (if hhat.get i < m.nStates ∧
        (statesMap m.nStatesPerLabel).get (h.get i) ≠
          (statesMap m.nStatesPerLabel).get (hhat.get i)
        then U.get i (hhat.get i) + 1 else U.get i (hhat.get i)) = U.get i (hhat.get i) +
        (if (statesMap m.nStatesPerLabel).get (h.get i) =
          (statesMap m.nStatesPerLabel).get (hhat.get i) then 0 else 1) := by
      intro i hi
      have := hv' i (mem_range.mp hi)
      by_cases hc : (statesMap m.nStatesPerLabel).get (h.get i) =
          (statesMap m.nStatesPerLabel).get (hhat.get i) <;> simp [this, hc]
    simp only
    rw [sum_congr rfl this, sum_add_distrib]
    ring
  · unfold weightedHamming
    rw [card_filter]
    push_cast
    apply sum_congr rfl
    intro i _
    by_cases hc : (statesMap m.nStatesPerLabel).get (h.get i) =
          (statesMap m.nStatesPerLabel).get (hhat.get i) <;> simp [hc]

theorem labelMarginals_fold (mp : ℕ → ℕ) (S l : ℕ) (i : ℕ) (yh : ℕ → ℕ → ℚ) :
    (List.range S).foldl
      (fun acc s => fun i l => if l = mp s then acc i l + yh i s else acc i l)
      (fun _ _ => 0) i l = ∑ s ∈ range S, if l = mp s then yh i s else 0 := by
  induction S with
  | zero => simp
  | succ S ih =>
    rw [List.range_succ, List.foldl_append, sum_range_succ]
    simp only [List.foldl_cons, List.foldl_nil]
    rw [ih]
    split <;> simp

/-- **C27 (LatentGraphCRF).** On the one-hot encoding of a latent labelling the continuous loss is the
loss. -/
theorem C27_latent_graph_onehot (m : LatentGraph.Model) (h hhat : Labels)
    (hs : hhat.size = h.size) (hv : Valid h.size m.nStates h.get)
    (hv' : Valid h.size m.nStates hhat.get) :
    ∃ L, LatentGraph.loss m h hhat = .ok L ∧
      LatentGraph.continuousLoss m h
        ⟨h.size, m.nStates, fun i s => if s = hhat.get i then 1 else 0⟩ = .ok L := by
  have hlab : ∀ g : Labels, g.size = h.size → Valid h.size m.nStates g.get →
      labelFromLatent m g = .ok ⟨g.size, fun i => (statesMap m.nStatesPerLabel).get (g.get i)⟩ := by
    intro g hg hgv
    unfold labelFromLatent
    rw [if_neg (not_not.mpr fun i hi => hgv i (by omega))]
  have hmap : ∀ s < m.nStates, (statesMap m.nStatesPerLabel).get s < m.nLabels := by
    intro s hs
    obtain ⟨l, hl, h1⟩ := exists_block m.nStatesPerLabel hs
    rw [statesMap_of_owns _ hl ((owns_iff _ _ _).mpr h1)]
    exact hl
  refine ⟨weightedHamming h.size (fun _ => 1)
    (fun i => (statesMap m.nStatesPerLabel).get (h.get i))
    (fun i => (statesMap m.nStatesPerLabel).get (hhat.get i)), ?_, ?_⟩
  · unfold LatentGraph.loss
    rw [hlab h rfl hv, hlab hhat hs hv']
    simp only [bind, Except.bind]
    exact loss_some_ok rfl hs fun i hi => hmap _ (hv i hi)
  · unfold LatentGraph.continuousLoss
    rw [if_neg (by simp), hlab h rfl hv]
    simp only [bind, Except.bind]
    refine (continuousLoss_some_ok (c := ⟨m.nLabels, fun _ => 1⟩)
      (y := ⟨h.size, fun i => (statesMap m.nStatesPerLabel).get (h.get i)⟩)
      (m := marginalsOfLabels m
        ⟨h.size, m.nStates, fun i s => if s = hhat.get i then 1 else 0⟩) (le_refl h.size)
      (fun i hi => hmap _ (hv i hi)) (fun i hi => hmap _ (hv i hi))).trans ?_
    congr 1
    unfold weightedHamming
    apply sum_congr rfl; intro i hi
    have hi' := mem_range.mp hi
    simp only [marginalsOfLabels]
    rw [labelMarginals_fold]
    have : (∑ s ∈ range m.nStates, if (statesMap m.nStatesPerLabel).get (h.get i) =
        (statesMap m.nStatesPerLabel).get s then (if s = hhat.get i then (1 : ℚ) else 0) else 0) =
        if (statesMap m.nStatesPerLabel).get (h.get i) =
          (statesMap m.nStatesPerLabel).get (hhat.get i) then 1 else 0 := by
      rw [sum_eq_single (hhat.get i)]
      · simp
      · intro b _ hb; simp [hb]
      · intro hn; exact absurd (mem_range.mpr (hv' i hi')) hn
    rw [this]
    split <;> simp

/-- concrete instance: labels with 2 and 1 states, three vertices; hidden mistakes within a label cost
nothing. -/
example : (do
    let m : LatentGraph.Model := ⟨[2, 1], 1, false⟩
    let h : Labels := ⟨3, fun i => i⟩
    let hhat : Labels := ⟨3, fun i => [1, 2, 2].getD i 0⟩
    let U' ← augment m ⟨3, 3, fun _ _ => 0⟩ h
    pure (← LatentGraph.loss m h hhat, ← computeEnergy U' (.mat ⟨3, 3, fun _ _ => 0⟩) [] hhat)) =
    (.ok (1, 1) : Except PyErr (ℚ × ℚ)) := by decide +kernel

/-! ### C35 -/

theorem assign_fold (n : List ℕ) (Y : List Labels) (pred : ℕ → ℕ → ℕ → ℕ) (ls : List ℕ)
    (H : List Labels) (hH : H.length = Y.length) (k : ℕ) (hk : k < Y.length) :
    let R := ls.foldl (fun H label => (List.range Y.length).map fun k =>
      assignLabel n label (pred label k) (Y.getD k ⟨0, fun _ => 0⟩) (H.getD k ⟨0, fun _ => 0⟩)) H
    R.length = Y.length ∧
    (R.getD k ⟨0, fun _ => 0⟩).size = (H.getD k ⟨0, fun _ => 0⟩).size ∧
    ∀ i < (Y.getD k ⟨0, fun _ => 0⟩).size,
      ((R.getD k ⟨0, fun _ => 0⟩).get i =
        if (Y.getD k ⟨0, fun _ => 0⟩).get i ∈ ls then
          pred ((Y.getD k ⟨0, fun _ => 0⟩).get i) k
            (rankIn (Y.getD k ⟨0, fun _ => 0⟩) ((Y.getD k ⟨0, fun _ => 0⟩).get i) i) +
            (n.take ((Y.getD k ⟨0, fun _ => 0⟩).get i)).sum
        else (H.getD k ⟨0, fun _ => 0⟩).get i) := by
  induction ls generalizing H with
  | nil => exact ⟨hH, rfl, fun i _ => by simp⟩
  | cons l ls ih =>
    rw [List.foldl_cons]
    set H' := (List.range Y.length).map fun k =>
      assignLabel n l (pred l k) (Y.getD k ⟨0, fun _ => 0⟩) (H.getD k ⟨0, fun _ => 0⟩) with hH'
    have hlen : H'.length = Y.length := by simp [hH']
    have hget : H'.getD k ⟨0, fun _ => 0⟩ =
        assignLabel n l (pred l k) (Y.getD k ⟨0, fun _ => 0⟩) (H.getD k ⟨0, fun _ => 0⟩) := by
      rw [hH', List.getD_eq_getElem _ _ (by simpa using hk)]
      simp
    obtain ⟨h1, h2, h3⟩ := ih H' hlen
    refine ⟨h1, ?_, ?_⟩
    · rw [h2, hget]; rfl
    · intro i hi
      rw [h3 i hi, hget]
      set yi := (Y.getD k ⟨0, fun _ => 0⟩).get i with hyi
      by_cases hm : yi ∈ ls
      · rw [if_pos hm, if_pos (List.mem_cons_of_mem _ hm)]
      · rw [if_neg hm]
        by_cases hl : yi = l
        · rw [if_pos (by rw [hl]; exact List.mem_cons_self)]
          simp only [assignLabel]
          rw [if_pos ⟨hi, by rw [← hyi]; exact hl⟩, hl]
        · rw [if_neg (by simp [hl, hm])]
          simp only [assignLabel]
          rw [if_neg (by rw [← hyi]; exact fun h => hl h.2)]

/-- **C35.** Whatever clusterings k-means returns (cluster indices smaller than the number of states of
the label they were fitted for): `kmeans_init` gives every sample latent states that exist and map
back to its labels. -/
theorem C35_kmeans_init (n : List ℕ) (Y : List Labels) (pred : ℕ → ℕ → ℕ → ℕ)
    (hY : ∀ y ∈ Y, ∀ i < y.size, y.get i < n.length)
    (hpred : ∀ label k r, label < n.length → pred label k r < n.getD label 0) :
    ∃ H, kmeansInit n Y pred = .ok H ∧ H.length = Y.length ∧
      ∀ k (hk : k < Y.length), (H.getD k ⟨0, fun _ => 0⟩).size = Y[k].size ∧
        ∀ i < Y[k].size, (H.getD k ⟨0, fun _ => 0⟩).get i < n.sum ∧
          (statesMap n).get ((H.getD k ⟨0, fun _ => 0⟩).get i) = Y[k].get i ∧
          Owns n (Y[k].get i) ((H.getD k ⟨0, fun _ => 0⟩).get i) := by
  unfold kmeansInit
  rw [if_neg (not_not.mpr hY)]
  set H0 : List Labels := Y.map fun y => ⟨y.size, fun _ => 0⟩ with hH0
  have hlen0 : H0.length = Y.length := by simp [hH0]
  refine ⟨_, rfl, ?_, ?_⟩
  · rcases Nat.eq_zero_or_pos Y.length with h | h
    · have hY0 : Y = [] := List.length_eq_zero_iff.mp h
      subst hY0
      have : labelsPresent n.length [] = [] := by simp [labelsPresent]
      rw [this]
      rfl
    · exact (assign_fold n Y pred _ H0 hlen0 0 h).1
  · intro k hk
    obtain ⟨_, h2, h3⟩ := assign_fold n Y pred (labelsPresent n.length Y) H0 hlen0 k hk
    have hYk : Y.getD k ⟨0, fun _ => 0⟩ = Y[k] := List.getD_eq_getElem _ _ hk
    rw [hYk] at h3
    refine ⟨?_, ?_⟩
    · rw [h2, hH0, List.getD_eq_getElem _ _ (by simpa using hk)]
      simp
    · intro i hi
      have hlt := hY Y[k] (List.getElem_mem hk) i hi
      have hin : Y[k].get i ∈ labelsPresent n.length Y := by
        unfold labelsPresent
        rw [List.mem_filter]
        refine ⟨List.mem_range.mpr hlt, ?_⟩
        rw [List.any_eq_true]
        refine ⟨Y[k], List.getElem_mem hk, ?_⟩
        rw [List.any_eq_true]
        exact ⟨i, List.mem_range.mpr hi, by simp⟩
      have hval := h3 i hi
      rw [if_pos hin] at hval
      rw [hval]
      have hp := hpred (Y[k].get i) k (rankIn Y[k] (Y[k].get i) i) hlt
      have howns : Owns n (Y[k].get i) (pred (Y[k].get i) k (rankIn Y[k] (Y[k].get i) i) +
          (n.take (Y[k].get i)).sum) := ⟨by omega, by omega⟩
      refine ⟨?_, statesMap_of_owns n hlt howns, howns⟩
      have := ((owns_iff _ _ _).mp howns).2
      exact lt_of_lt_of_le this (take_sum_le _ _)

/-- concrete instance: two samples, labels with 2 and 3 states. -/
example : (kmeansInit [2, 3] [⟨3, fun i => i % 2⟩, ⟨2, fun _ => 1⟩]
      (fun l _ r => (r + l) % 2)).map (fun H => H.map fun h => (List.range h.size).map h.get) =
    .ok [[0, 3, 1], [3, 2]] := by decide +kernel

end Verif.Props
