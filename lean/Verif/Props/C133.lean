import Verif.Model.LatentNodeInit
import Verif.Spec.NeighborShare
import Verif.Props.C34

/-!
# C133: how hidden nodes get their first states

`init_latent` of `LatentNodeCRF` and `EdgeFeatureLatentNodeCRF` clusters hidden nodes by the labels of their visible neighbours.
-/

namespace Verif.Props

open Finset Verif.Common Verif.Spec Verif.LatentNode

/-- A sample that `init_latent` accepts, with `V` visible nodes: at least one visible node, at least one edge, the last node is on an edge
and no edge leaves the graph, every visible node has a label. (A label array with one entry counts for all nodes.) -/
structure InitSample (L : ℕ) (latentFeatures : Bool) (s : Sample) (V : ℕ) : Prop where
  rows : if latentFeatures then s.rows = V + s.nHidden else s.rows = V
  pos : 0 < V
  inside : ∀ e ∈ s.edges, e.1 < V + s.nHidden ∧ e.2 < V + s.nHidden
  last : ∃ e ∈ s.edges, e.1 + 1 = V + s.nHidden ∨ e.2 + 1 = V + s.nHidden
  labels : s.y.size = V ∨ s.y.size = 1
  range : ∀ j < s.y.size, s.y.get j < L

theorem listMaxNat_some {l : List ℕ} {k : ℕ} : l.max? = some k ↔ k ∈ l ∧ ∀ a ∈ l, a ≤ k :=
  List.max?_eq_some_iff

theorem edgesAddUp_iff (V : ℕ) (s : Sample) : edgesAddUp V s ↔
    (∀ e ∈ s.edges, e.1 < V + s.nHidden ∧ e.2 < V + s.nHidden) ∧ ∃ e ∈ s.edges, e.1 + 1 = V + s.nHidden ∨ e.2 + 1 = V + s.nHidden := by
  unfold edgesAddUp
  split
  · rename_i h
    have : s.edges = [] := by
      have := List.max?_eq_none_iff.mp h
      simpa using this
    rw [this]
    simp
  · rename_i k h
    obtain ⟨h1, h2⟩ := listMaxNat_some.mp h
    obtain ⟨e0, he0, rfl⟩ := List.mem_map.mp h1
    constructor
    · intro hk
      refine ⟨fun e he => ?_, e0, he0, ?_⟩
      · have := h2 _ (List.mem_map.mpr ⟨e, he, rfl⟩)
        omega
      · omega
    · rintro ⟨a, e, he, b⟩
      have h3 := h2 _ (List.mem_map.mpr ⟨e, he, rfl⟩)
      have h4 := a e0 he0
      omega

/-- **C133, acceptance.** A sample is accepted iff it is well formed. -/
theorem C133_accepts (L : ℕ) (latentFeatures : Bool) (s : Sample) :
    (∃ F, hiddenFeatures L latentFeatures s = .ok F) ↔ ∃ V, InitSample L latentFeatures s V := by
  have key : ∀ V, visibleCount latentFeatures s = .ok V ↔ if latentFeatures then s.rows = V + s.nHidden else s.rows = V := by
    intro V
    unfold visibleCount
    cases latentFeatures
    · simp
    · simp only [if_true]
      split
      · simp only [reduceCtorEq, false_iff]
        omega
      · simp only [Except.ok.injEq]
        omega
  unfold hiddenFeatures
  constructor
  · rintro ⟨F, h⟩
    cases hv : visibleCount latentFeatures s with
    | error err =>
      rw [hv] at h
      cases h
    | ok V =>
      rw [hv] at h
      simp only [bind, Except.bind] at h
      split_ifs at h with h1 h2 h3 h4
      rw [edgesAddUp_iff] at h1
      exact ⟨V, (key V).mp hv, Nat.pos_of_ne_zero h3, h1.1, h1.2, by omega, h4⟩
  · rintro ⟨V, h⟩
    rw [(key V).mpr h.rows]
    simp only [bind, Except.bind]
    have h1 : edgesAddUp V s := (edgesAddUp_iff V s).mpr ⟨h.inside, h.last⟩
    have h2 : ¬ (s.y.size ≠ V ∧ s.y.size ≠ 1) := by have := h.labels; omega
    rw [if_neg (not_not.mpr h1), if_neg h2, if_neg h.pos.ne', if_neg (not_not.mpr h.range)]
    exact ⟨_, rfl⟩

theorem adjacency_sum (edges : Edges) (V u : ℕ) (f : ℕ → ℚ) :
    ∑ j ∈ range V, adjacency edges u j * f j = ((visibleNeighbors edges V u).map f).sum := by
  have h1 : ∀ (a : ℕ × ℕ → ℕ) (b : ℕ × ℕ → ℕ) (es : Edges),
      ∑ j ∈ range V, (es.map fun e => if a e = u ∧ b e = j then (1 : ℚ) else 0).sum * f j =
        (((es.filter fun e => a e = u ∧ b e < V).map b).map f).sum := by
    intro a b es
    induction es with
    | nil => simp
    | cons e es ih =>
      simp only [List.map_cons, List.sum_cons, add_mul, sum_add_distrib, ih]
      rw [List.filter_cons]
      by_cases hc : a e = u ∧ b e < V
      · rw [if_pos (decide_eq_true hc), List.map_cons, List.map_cons, List.sum_cons]
        congr 1
        rw [sum_eq_single (b e)]
        · rw [if_pos ⟨hc.1, rfl⟩, one_mul]
        · intro j _ hj
          rw [if_neg (fun h => hj h.2.symm), zero_mul]
        · intro h
          exact absurd (mem_range.mpr hc.2) h
      · rw [if_neg (by simpa using hc)]
        rw [sum_eq_zero, zero_add]
        intro j hj
        rw [if_neg, zero_mul]
        rintro ⟨h2, h3⟩
        exact hc ⟨h2, h3 ▸ mem_range.mp hj⟩
  unfold adjacency visibleNeighbors
  rw [List.map_append, List.sum_append, ← h1 Prod.fst Prod.snd, ← h1 Prod.snd Prod.fst, ← sum_add_distrib]
  refine sum_congr rfl fun j _ => ?_
  rw [add_mul]
  simp only [Prod.ext_iff]
  congr 4
  funext e
  simp only [and_comm]

theorem sum_indicator_countP (l : List ℕ) (p : ℕ → Prop) [DecidablePred p] :
    (l.map fun j => if p j then (1 : ℚ) else 0).sum = (l.countP fun j => p j) := by
  induction l with
  | nil => simp
  | cons a l ih =>
    rw [List.map_cons, List.sum_cons, ih, List.countP_cons]
    by_cases h : p a <;> simp [h, add_comm]

/-- **C133, features.** The features that are clustered: for every hidden node, the shares of the labels among its visible
neighbours. -/
theorem C133_features (L : ℕ) (latentFeatures : Bool) (s : Sample) (V : ℕ) (h : InitSample L latentFeatures s V) (hH : 0 < s.nHidden) :
    ∃ F, hiddenFeatures L latentFeatures s = .ok F ∧ F.rows = s.nHidden ∧ F.cols = L ∧ ∀ i < s.nHidden, ∀ l < L,
      F.get i l = labelShare s.edges V (broadcastLabel s.y) (V + i) l := by
  have hv : visibleCount latentFeatures s = .ok V := by
    have := h.rows
    unfold visibleCount
    cases latentFeatures
    · simpa using this
    · simp only [if_true] at this ⊢
      rw [if_neg (by omega)]
      congr 1
      omega
  have h1 : edgesAddUp V s := (edgesAddUp_iff V s).mpr ⟨h.inside, h.last⟩
  have h2 : ¬ (s.y.size ≠ V ∧ s.y.size ≠ 1) := by have := h.labels; omega
  have hst : sliceStart V s.nHidden = V := by
    unfold sliceStart
    rw [if_neg hH.ne']
  refine ⟨⟨V + s.nHidden - sliceStart V s.nHidden, L, fun i l =>
    neighborCount V s i l / max (∑ l' ∈ range L, neighborCount V s i l') 1⟩, ?_, ?_, rfl, ?_⟩
  · unfold hiddenFeatures
    rw [hv]
    simp only [bind, Except.bind]
    rw [if_neg (not_not.mpr h1), if_neg h2, if_neg h.pos.ne', if_neg (not_not.mpr h.range)]
  · change V + s.nHidden - sliceStart V s.nHidden = _
    rw [hst]
    omega
  · intro i hi l hl
    have hc : ∀ l, neighborCount V s i l = ((visibleNeighbors s.edges V (V + i)).countP fun j => broadcastLabel s.y j = l) := by
      intro l
      unfold neighborCount
      rw [hst, adjacency_sum, sum_indicator_countP]
    have hlab : ∀ j < V, broadcastLabel s.y j < L := by
      intro j hj
      unfold broadcastLabel
      split
      · exact h.range 0 (by omega)
      · exact h.range j (by have := h.labels; omega)
    have hnb : ∀ j ∈ visibleNeighbors s.edges V (V + i), j < V := by
      intro j hj
      unfold visibleNeighbors at hj
      rcases List.mem_append.mp hj with hj | hj <;> obtain ⟨e, he, rfl⟩ := List.mem_map.mp hj <;>
        exact (of_decide_eq_true (List.mem_filter.mp he).2).2
    have hsum : ∑ l' ∈ range L, neighborCount V s i l' = (visibleNeighbors s.edges V (V + i)).length := by
      simp only [hc]
      generalize visibleNeighbors s.edges V (V + i) = nb at hnb
      induction nb with
      | nil => simp
      | cons a nb ih =>
        simp only [List.countP_cons, Nat.cast_add, sum_add_distrib]
        rw [ih (fun j hj => hnb j (List.mem_cons_of_mem _ hj)), List.length_cons, Nat.cast_add]
        congr 1
        rw [sum_eq_single (broadcastLabel s.y a)]
        · simp
        · intro b _ hb
          rw [if_neg]
          · rfl
          · simpa using fun h => hb h.symm
        · intro hn
          exact absurd (mem_range.mpr (hlab a (hnb a List.mem_cons_self))) hn
    change neighborCount V s i l / max (∑ l' ∈ range L, neighborCount V s i l') 1 = _
    rw [hsum, hc]
    unfold labelShare
    by_cases h0 : (visibleNeighbors s.edges V (V + i)).length = 0
    · have : visibleNeighbors s.edges V (V + i) = [] := List.length_eq_zero_iff.mp h0
      rw [this]
      simp
    · congr 1
      rw [max_eq_left]
      exact_mod_cast Nat.pos_of_ne_zero h0

/-- Contract of k-means with `k` clusters on rows of length `L`: what is predicted is a cluster, and depends on the row only. -/
def KMeansOk (km : KMeans) (L k : ℕ) : Prop :=
  ∀ A p, km A k = .ok p → (∀ r, p r < k) ∧ ∀ r r', (∀ l < L, r l = r' l) → p r = p r'

theorem allFeatures_ok {L : ℕ} {lf : Bool} {samples : List Sample} {Fs : List Mat} :
    allFeatures L lf samples = .ok Fs ↔ List.Forall₂ (fun s F => hiddenFeatures L lf s = .ok F) samples Fs := by
  induction samples generalizing Fs with
  | nil =>
    unfold allFeatures
    simp [eq_comm]
  | cons s l ih =>
    unfold allFeatures
    cases h : hiddenFeatures L lf s with
    | error err =>
      simp only [reduceCtorEq, false_iff]
      rintro (_ | ⟨h1, _⟩)
      rw [h] at h1
      cases h1
    | ok F =>
      simp only
      cases h2 : allFeatures L lf l with
      | error err =>
        simp only [reduceCtorEq, false_iff]
        rintro (_ | ⟨h1, h3⟩)
        rw [ih.mpr h3] at h2
        cases h2
      | ok Gs =>
        simp only [Except.ok.injEq]
        constructor
        · rintro rfl
          exact .cons h (ih.mp h2)
        · rintro (_ | ⟨h1, h3⟩)
          rw [h, Except.ok.injEq] at h1
          rw [ih.mpr h3, Except.ok.injEq] at h2
          rw [h1, h2]

/-- **C133, success.** `init_latent` returns iff there are samples, all of them are well formed, and k-means accepts the features. -/
theorem C133_returns (km : KMeans) (L k : ℕ) (lf : Bool) (samples : List Sample) :
    (∃ H, LatentNode.initLatent km L k lf samples = .ok H) ↔
    samples ≠ [] ∧ (∀ s ∈ samples, ∃ V, InitSample L lf s V) ∧
      ∃ Fs, List.Forall₂ (fun s F => hiddenFeatures L lf s = .ok F) samples Fs ∧ ∃ p, km (stack L Fs) k = .ok p := by
  unfold LatentNode.initLatent
  constructor
  · rintro ⟨H, h⟩
    cases hf : allFeatures L lf samples with
    | error err =>
      rw [hf] at h
      cases h
    | ok Fs =>
      rw [hf] at h
      simp only [bind, Except.bind] at h
      split_ifs at h with he
      have h2 := allFeatures_ok.mp hf
      refine ⟨?_, fun s hs => ?_, Fs, h2, ?_⟩
      · rintro rfl
        cases h2
        exact he rfl
      · refine (C133_accepts L lf s).mp ?_
        obtain ⟨i, hi, rfl⟩ := List.getElem_of_mem hs
        exact ⟨Fs[i]'(h2.length_eq ▸ hi), h2.get hi (h2.length_eq ▸ hi)⟩
      · cases hk : km (stack L Fs) k with
        | error err =>
          rw [hk] at h
          cases h
        | ok p => exact ⟨p, rfl⟩
  · rintro ⟨hne, -, Fs, hF, p, hp⟩
    rw [allFeatures_ok.mpr hF]
    simp only [bind, Except.bind]
    rw [if_neg]
    · rw [hp]
      exact ⟨_, rfl⟩
    · rw [List.isEmpty_iff]
      rintro rfl
      cases hF
      exact hne rfl

/-- **C133, states.** What `init_latent` returns for a sample with hidden nodes and one label per visible node: the labels, then a hidden
state for every hidden node; hidden nodes, of the same or of different samples, whose visible neighbours have the same shares of labels
get the same state. -/
theorem C133_states_partial (km : KMeans) (L k : ℕ) (hkm : KMeansOk km L k) (lf : Bool) (samples : List Sample) (H : List Labels)
    (h : LatentNode.initLatent km L k lf samples = .ok H) :
    H.length = samples.length ∧ ∃ state : (ℕ → ℚ) → ℕ, (∀ r r', (∀ l < L, r l = r' l) → state r = state r') ∧
      ∀ (q : ℕ) (s : Sample) (hh : Labels), samples[q]? = some s → H[q]? = some hh → 0 < s.nHidden → ∀ V, InitSample L lf s V →
        hh.size = s.y.size + s.nHidden ∧ Legal s.y.size s.nHidden L (k + L) hh.get ∧
        (labelFromLatent L hh).size = s.y.size ∧ (∀ i < s.y.size, (labelFromLatent L hh).get i = s.y.get i) ∧
        ∀ i < s.nHidden, hh.get (s.y.size + i) = L + state fun l => labelShare s.edges V (broadcastLabel s.y) (V + i) l := by
  unfold LatentNode.initLatent at h
  cases hf : allFeatures L lf samples with
  | error err =>
    rw [hf] at h
    cases h
  | ok Fs =>
    rw [hf] at h
    simp only [bind, Except.bind] at h
    split_ifs at h with he
    cases hp : km (stack L Fs) k with
    | error err =>
      rw [hp] at h
      cases h
    | ok p =>
      rw [hp] at h
      simp only [Except.ok.injEq] at h
      have h2 := allFeatures_ok.mp hf
      obtain ⟨hp1, hp2⟩ := hkm _ _ hp
      refine ⟨?_, p, hp2, fun q s hh hs hq hH V hV => ?_⟩
      · rw [← h]
        unfold kmeansInit
        simp
      · obtain ⟨hqlt, hsq⟩ := List.getElem?_eq_some_iff.mp hs
        obtain ⟨F, hF1, hF2, hF3, hF4⟩ := C133_features L lf s V hV hH
        have hFq : Fs.getD q ⟨0, 0, fun _ _ => 0⟩ = F := by
          have hlt : q < Fs.length := h2.length_eq ▸ hqlt
          rw [List.getD_eq_getElem _ _ hlt]
          have := h2.get hqlt hlt
          simp only [List.get_eq_getElem] at this
          rw [hsq, hF1, Except.ok.injEq] at this
          exact this.symm
        have hyq : (samples.map Sample.y).getD q ⟨0, fun _ => 0⟩ = s.y := by
          rw [List.getD_eq_getElem _ _ (by simpa using hqlt), List.getElem_map, hsq]
        have hhe : hh = ⟨s.y.size + s.nHidden, fun i => if i < s.y.size then s.y.get i else p (F.get (i - s.y.size)) + L⟩ := by
          rw [← h] at hq
          unfold kmeansInit at hq
          rw [List.getElem?_map, List.getElem?_range (by simpa using hqlt)] at hq
          simp only [Option.map_some, Option.some.injEq, hyq, hFq, hF2] at hq
          exact hq.symm
        have hleg : Legal s.y.size s.nHidden L (k + L) hh.get := by
          rw [hhe]
          constructor
          · intro i hi
            simp only [hi, if_true]
            exact hV.range i hi
          · intro i hi _
            simp only [not_lt.mpr hi, if_false]
            have := hp1 (F.get (i - s.y.size))
            omega
        have hsz : hh.size = s.y.size + s.nHidden := by rw [hhe]
        obtain ⟨e1, e2⟩ := labelFromLatent_legal hsz hleg
        refine ⟨hsz, hleg, e1, fun i hi => ?_, fun i hi => ?_⟩
        · rw [e2 i hi, hhe]
          simp only [hi, if_true]
        · rw [hhe]
          simp only
          rw [if_neg (by omega), Nat.add_sub_cancel_left, Nat.add_comm]
          congr 1
          exact hp2 _ _ (fun l hl => hF4 i hi l hl)

/-- **C133, violated.** A sample without hidden nodes is not completed by its labels: every visible node gets a hidden state as well, so
the completion has twice as many entries as there are nodes. -/
theorem C133_violated_without_hidden (km : KMeans) (L k : ℕ) (lf : Bool) (samples : List Sample) (H : List Labels)
    (h : LatentNode.initLatent km L k lf samples = .ok H) (q : ℕ) (s : Sample) (hh : Labels) (hs : samples[q]? = some s)
    (hq : H[q]? = some hh) (hH : s.nHidden = 0) (V : ℕ) (hV : InitSample L lf s V) : hh.size = s.y.size + V := by
  unfold LatentNode.initLatent at h
  cases hf : allFeatures L lf samples with
  | error err =>
    rw [hf] at h
    cases h
  | ok Fs =>
    rw [hf] at h
    simp only [bind, Except.bind] at h
    split_ifs at h with he
    cases hp : km (stack L Fs) k with
    | error err =>
      rw [hp] at h
      cases h
    | ok p =>
      rw [hp] at h
      simp only [Except.ok.injEq] at h
      have h2 := allFeatures_ok.mp hf
      obtain ⟨hqlt, hsq⟩ := List.getElem?_eq_some_iff.mp hs
      have hlt : q < Fs.length := h2.length_eq ▸ hqlt
      have hF := h2.get hqlt hlt
      simp only [List.get_eq_getElem] at hF
      rw [hsq] at hF
      have hv : visibleCount lf s = .ok V := by
        have := hV.rows
        unfold visibleCount
        cases lf
        · simpa using this
        · simp only [if_true] at this ⊢
          rw [if_neg (by omega)]
          congr 1
          omega
      unfold hiddenFeatures at hF
      rw [hv] at hF
      simp only [bind, Except.bind] at hF
      split_ifs at hF
      rw [Except.ok.injEq] at hF
      have hr : (Fs[q]).rows = V := by
        rw [← hF]
        change V + s.nHidden - sliceStart V s.nHidden = V
        unfold sliceStart
        rw [if_pos hH, hH]
        rfl
      rw [← h] at hq
      unfold kmeansInit at hq
      rw [List.getElem?_map, List.getElem?_range (by simpa using hqlt)] at hq
      simp only [Option.map_some, Option.some.injEq] at hq
      rw [← hq]
      change ((samples.map Sample.y).getD q ⟨0, fun _ => 0⟩).size + (Fs.getD q ⟨0, 0, fun _ _ => 0⟩).rows = _
      rw [List.getD_eq_getElem _ _ (by simpa using hqlt), List.getElem_map, hsq, List.getD_eq_getElem _ _ hlt, hr]

/-! ### the hypotheses can be met -/

/-- A clustering into two clusters: rows with more of label 0 than a half, and others. -/
def splitKMeans : KMeans := fun _ _ => .ok fun r => if 1 / 2 < r 0 then 0 else 1

theorem splitKMeans_ok : KMeansOk splitKMeans 2 2 := by
  intro A p h
  unfold splitKMeans at h
  rw [Except.ok.injEq] at h
  subst h
  refine ⟨fun r => ?_, fun r r' hr => ?_⟩
  · simp only
    split <;> omega
  · simp only [hr 0 (by omega)]

/-- Three labelled nodes and two hidden ones; a second sample without hidden nodes. -/
def initSamples : List Sample :=
  [⟨3, [(0, 3), (3, 1), (2, 4)], 2, ⟨3, fun i => if i = 2 then 1 else 0⟩⟩, ⟨2, [(0, 1)], 0, ⟨2, fun _ => 0⟩⟩]

example : ∃ H, LatentNode.initLatent splitKMeans 2 2 false initSamples = .ok H ∧
    H.map (fun h => (List.range h.size).map h.get) = [[0, 0, 1, 2, 3], [0, 0, 2, 2]] ∧
    (∀ s ∈ initSamples, ∃ V, InitSample 2 false s V) := by
  refine ⟨_, rfl, by decide +kernel, ?_⟩
  intro s hs
  rcases List.mem_cons.mp hs with rfl | hs
  · exact ⟨3, by decide, by decide, by decide, by decide, by decide, by decide⟩
  · rw [List.mem_singleton] at hs
    subst hs
    exact ⟨2, by decide, by decide, by decide, by decide, by decide, by decide⟩

end Verif.Props
