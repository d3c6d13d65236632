import Verif.Lemmas.LatentTraining
import Verif.Lemmas.PairwiseTraining
import Verif.Lemmas.BallLatent

/-!
# Models with hidden nodes behind the interface of the latent learners

What `LatentNodeCRF` and `EdgeFeatureLatentNodeCRF` have in common.
-/

namespace Verif.Props

open Finset Verif.Common Verif.Spec Verif.Learner Verif.LatentNode

/-! ### legal labellings -/

/-- Labellings with labels at visible nodes and hidden states at hidden nodes, for the instances of the training data. -/
def legalOutputs {X : Type} (L S : ℕ) (nv nh : X → ℕ) (data : List (X × Labels)) (x : X) : Set YVal :=
  {v | (∃ y, (x, y) ∈ data) ∧ ∃ h : Labels, v = .discrete h ∧ h.size = nv x + nh x ∧ Legal (nv x) (nh x) L S h.get}

/-- The legal labellings that agree with the label array on the visible nodes. -/
def legalCompletions {X : Type} (L S : ℕ) (nv nh : X → ℕ) (data : List (X × Labels)) (x : X) (y : Labels) : Set YVal :=
  {v | (x, y) ∈ data ∧ ∃ h : Labels, v = .discrete h ∧ h.size = nv x + nh x ∧ Legal (nv x) (nh x) L S h.get ∧
    ∀ i < nv x, h.get i = y.get i}

/-- A model whose outputs are legal labellings, with weighted Hamming loss on the visible nodes, and training data for it. `R` bounds
squared distances of joint features. -/
structure HiddenNodes {X : Type} (m : SModel X YVal) (L S : ℕ) (cw : Vec) (nv nh : X → ℕ) (data : List (X × Labels)) (R : ℚ) :
    Prop where
  plain : m.rescaleC = false
  labels : 2 ≤ L
  weights : ∀ c : ℕ, c < L → 0 < cw.get c
  ne : data ≠ []
  samples : ∀ d ∈ data, 1 ≤ nv d.1 ∧ d.2.size = nv d.1 ∧ ∀ i < nv d.1, d.2.get i < L
  hidden : ∀ d ∈ data, 0 < nh d.1 → L < S
  loss : ∀ (a b : ℕ) (h g : Labels), h.size = a + b → g.size = a + b → Legal a b L S h.get → Legal a b L S g.get →
    m.lossOf (.discrete h) (.discrete g) = weightedHamming a cw.get h.get g.get
  loss_labels : ∀ (a b : ℕ) (h h' : Labels), h.size = a + b → h'.size = a + b → Legal a b L S h.get → Legal a b L S h'.get →
    (∀ i < a, h.get i = h'.get i) → ∀ o, m.lossOf (.discrete h) o = m.lossOf (.discrete h') o
  feature : ∀ d ∈ data, ∀ a b : Labels, a.size = nv d.1 + nh d.1 → b.size = nv d.1 + nh d.1 → Legal (nv d.1) (nh d.1) L S a.get →
    Legal (nv d.1) (nh d.1) L S b.get → (∀ i < nv d.1 + nh d.1, a.get i = b.get i) → ∀ k < m.dim,
    m.jointFeature d.1 (.discrete a) k = m.jointFeature d.1 (.discrete b) k
  range : ∀ d ∈ data, ∀ a b : Labels, a.size = nv d.1 + nh d.1 → b.size = nv d.1 + nh d.1 → Legal (nv d.1) (nh d.1) L S a.get →
    Legal (nv d.1) (nh d.1) L S b.get → ∑ k ∈ Finset.range m.dim,
      (m.jointFeature d.1 (.discrete a) k - m.jointFeature d.1 (.discrete b) k) ^ 2 ≤ R

variable {X : Type} {m : SModel X YVal} {L S : ℕ} {cw : Vec} {nv nh : X → ℕ} {data : List (X × Labels)} {R : ℚ}

theorem weightedHamming_self (n : ℕ) (c : ℕ → ℚ) (y : ℕ → ℕ) : weightedHamming n c y y = 0 := by
  unfold weightedHamming
  simp

theorem completion_output {x : X} {y : Labels} {v : YVal} (h : v ∈ legalCompletions L S nv nh data x y) :
    v ∈ legalOutputs L S nv nh data x := by
  obtain ⟨h1, h, e, h2, h3, -⟩ := h
  exact ⟨⟨y, h1⟩, h, e, h2, h3⟩

theorem HiddenNodes.labelOnly (hm : HiddenNodes m L S cw nv nh data R) :
    (problemOf m (legalOutputs L S nv nh data)).LabelOnly (legalCompletions L S nv nh data) data := by
  rintro s hs h hh
  obtain ⟨hd, t, rfl, ts, tl, ty⟩ := id hh
  refine ⟨⟨completion_output hh, ?_⟩, ?_⟩
  · change m.lossOf (.discrete t) (.discrete t) = 0
    rw [hm.loss _ _ t t ts ts tl tl, weightedHamming_self]
  · rintro h' ⟨-, t', rfl, ts', tl', ty'⟩ o
    refine ⟨hm.loss_labels _ _ t t' ts ts' tl tl' (fun i hi => (ty i hi).trans (ty' i hi).symm) o, fun k => ?_⟩
    change m.feat _ _ _ k = m.feat _ _ _ k
    unfold SModel.feat
    rw [hm.plain]
    rfl

theorem HiddenNodes.feat_eq (hm : HiddenNodes m L S cw nv nh data R) (x : X) (a y : YVal) : m.feat x a y = m.jointFeature x a := by
  unfold SModel.feat
  rw [hm.plain]
  rfl

/-- for all weights some legal labelling has maximal violation. -/
theorem HiddenNodes.attained (hm : HiddenNodes m L S cw nv nh data R) :
    ∃ la, (problemOf m (legalOutputs L S nv nh data)).ExactLossAug la := by
  classical
  have key : ∀ x y w, ∃ z, y ∈ legalOutputs L S nv nh data x → z ∈ legalOutputs L S nv nh data x ∧
      ∀ z' ∈ legalOutputs L S nv nh data x, (problemOf m (legalOutputs L S nv nh data)).violation w x y z' ≤
        (problemOf m (legalOutputs L S nv nh data)).violation w x y z := by
    intro x y w
    by_cases hy : y ∈ legalOutputs L S nv nh data x
    swap
    · exact ⟨y, fun h => absurd h hy⟩
    obtain ⟨⟨l, hd⟩, t, rfl, ts, tl⟩ := id hy
    set n := nv x + nh x with hn
    have hval : ∀ h : ℕ → ℕ, Legal (nv x) (nh x) L S h → ∀ i < n, h i < S + L := by
      intro h hl i hi
      by_cases h1 : i < nv x
      · have := hl.1 i h1
        omega
      · have := (hl.2 i (by omega) (by omega)).2
        omega
    let toL : (Fin n → Fin (S + L)) → Labels := fun f => ⟨n, fun i => if h : i < n then (f ⟨i, h⟩ : ℕ) else 0⟩
    let fin : Set (Fin n → Fin (S + L)) := {f | Legal (nv x) (nh x) L S (toL f).get}
    have hpos : ∀ f : Fin n → Fin (S + L), ∀ i, (h : i < n) → (toL f).get i = f ⟨i, h⟩ := by
      intro f i h
      change (if h : i < n then (f ⟨i, h⟩ : ℕ) else 0) = _
      rw [dif_pos h]
    have hof : ∀ h : Labels, h.size = n → Legal (nv x) (nh x) L S h.get → ∃ f ∈ fin, ∀ i < n, (toL f).get i = h.get i := by
      intro h hs hl
      let f : Fin n → Fin (S + L) := fun i => ⟨h.get i, hval _ hl i i.2⟩
      have e : ∀ i < n, (toL f).get i = h.get i := fun i hi => hpos f i hi
      refine ⟨f, ?_, e⟩
      change Legal _ _ _ _ _
      refine ⟨fun i hi => ?_, fun i hi hi' => ?_⟩
      · rw [e i (by omega)]
        exact hl.1 i hi
      · rw [e i (by omega)]
        exact hl.2 i hi hi'
    obtain ⟨f0, hf0, -⟩ := hof t ts tl
    obtain ⟨f, hf, hmax⟩ := Set.exists_max_image fin
      (fun f => (problemOf m (legalOutputs L S nv nh data)).violation w x (.discrete t) (.discrete (toL f))) (Set.toFinite _) ⟨f0, hf0⟩
    refine ⟨.discrete (toL f), fun _ => ⟨⟨⟨l, hd⟩, _, rfl, rfl, hf⟩, ?_⟩⟩
    rintro z ⟨-, z, rfl, zs, zl⟩
    obtain ⟨g, hg, hgz⟩ := hof z zs zl
    refine le_trans (le_of_eq ?_) (hmax g hg)
    unfold Problem.violation
    congr 2
    · change m.lossOf (.discrete t) (.discrete z) = m.lossOf (.discrete t) (.discrete (toL g))
      rw [hm.loss _ _ t z ts zs tl zl, hm.loss _ _ t (toL g) ts rfl tl hg]
      exact weightedHamming_congr (fun i _ => rfl) fun i hi => (hgz i (by omega)).symm
    · unfold Problem.value
      refine sum_congr rfl fun k hk => ?_
      change w k * m.feat _ _ _ k = w k * m.feat _ _ _ k
      rw [hm.feat_eq, hm.feat_eq]
      congr 1
      exact hm.feature _ hd z (toL g) zs rfl zl hg (fun i hi => (hgz i hi).symm) k (mem_range.mp hk)
  choose la hla using key
  exact ⟨la, fun x y w hy _ => hla x y w hy⟩

/-- another legal labelling with one wrong label. -/
theorem HiddenNodes.confuse (hm : HiddenNodes m L S cw nv nh data R) {x : X} {y : Labels} {h : YVal}
    (hh : h ∈ legalCompletions L S nv nh data x y) {i : ℕ} (hi : i < nv x) :
    ∃ z ∈ legalOutputs L S nv nh data x, m.lossOf h z = cw.get (y.get i) := by
  obtain ⟨hd, t, rfl, ts, tl, ty⟩ := hh
  obtain ⟨l, hl, hne⟩ : ∃ l < L, l ≠ t.get i := by
    have := hm.labels
    by_cases h : t.get i = 0
    · exact ⟨1, by omega, by omega⟩
    · exact ⟨0, by omega, by omega⟩
  have zl : Legal (nv x) (nh x) L S (setState t.get i l) := by
    refine ⟨fun j hj => ?_, fun j hj hj' => ?_⟩
    · unfold setState
      split
      · exact hl
      · exact tl.1 j hj
    · unfold setState
      rw [if_neg (by omega)]
      exact tl.2 j hj hj'
  refine ⟨.discrete ⟨nv x + nh x, setState t.get i l⟩, ⟨⟨y, hd⟩, _, rfl, rfl, zl⟩, ?_⟩
  rw [hm.loss _ _ t ⟨nv x + nh x, setState t.get i l⟩ ts rfl tl zl]
  unfold weightedHamming
  rw [sum_eq_single i]
  · have e : setState t.get i l i = l := if_pos rfl
    have e' : ¬ t.get i = setState t.get i l i := fun h => hne (h.trans e).symm
    rw [if_neg e', ty i hi]
  · intro j _ hj
    have e : t.get j = setState t.get i l j := (if_neg hj).symm
    rw [if_pos e]
  · intro h
    exact absurd (mem_range.mpr hi) h

theorem hidden_mem {hs : List YVal}
    (hc : List.Forall₂ (fun s h => h ∈ legalCompletions L S nv nh data s.1 s.2) data hs) {s : X × YVal}
    (h : s ∈ (data.map Prod.fst).zip hs) : ∃ d ∈ data, s.1 = d.1 ∧ s.2 ∈ legalCompletions L S nv nh data d.1 d.2 := by
  have key : ∀ (l : List (X × Labels)) (hs : List YVal),
      List.Forall₂ (fun s h => h ∈ legalCompletions L S nv nh data s.1 s.2) l hs → s ∈ (l.map Prod.fst).zip hs →
      ∃ d ∈ l, s.1 = d.1 ∧ s.2 ∈ legalCompletions L S nv nh data d.1 d.2 := by
    intro l hs hc h
    induction hc with
    | nil => simp at h
    | @cons d h0 data hs hh _ ih =>
      rw [List.map_cons, List.zip_cons_cons, List.mem_cons] at h
      rcases h with rfl | h
      · exact ⟨d, by simp, rfl, hh⟩
      · obtain ⟨d', h1, h2⟩ := ih h
        exact ⟨d', by simp [h1], h2⟩
  exact key _ _ hc h

/-- A bound for the loss of each sample. -/
def visibleWeight (cw : Vec) (nv : X → ℕ) (s : X × YVal) : ℚ :=
  match s.2 with
  | .discrete t => ∑ i ∈ range (nv s.1), cw.get (t.get i)
  | .relaxed _ _ => 0

theorem visibleWeight_sum (hm : HiddenNodes m L S cw nv nh data R) {hs : List YVal}
    (hc : List.Forall₂ (fun s h => h ∈ legalCompletions L S nv nh data s.1 s.2) data hs) :
    (((data.map Prod.fst).zip hs).map (visibleWeight cw nv)).sum = totalWeight cw data := by
  have key : ∀ (l : List (X × Labels)) (hs : List YVal), (∀ d ∈ l, d ∈ data) →
      List.Forall₂ (fun s h => h ∈ legalCompletions L S nv nh data s.1 s.2) l hs →
      (((l.map Prod.fst).zip hs).map (visibleWeight cw nv)).sum = totalWeight cw l := by
    intro l hs hsub hc
    induction hc with
    | nil => rfl
    | @cons d h0 l hs hh _ ih =>
      have h1 := ih fun d hd => hsub d (by simp [hd])
      unfold totalWeight at h1 ⊢
      rw [List.map_cons, List.zip_cons_cons, List.map_cons, List.sum_cons, h1, List.map_cons, List.sum_cons]
      congr 1
      obtain ⟨-, t, rfl, -, -, ty⟩ := hh
      rw [(hm.samples d (hsub d (by simp))).2.1]
      change ∑ i ∈ range (nv d.1), cw.get (t.get i) = _
      exact sum_congr rfl fun i hi => by rw [ty i (mem_range.mp hi)]
  exact key _ _ (fun _ h => h) hc

theorem HiddenNodes.trainable (hm : HiddenNodes m L S cw nv nh data R) {good : W → Prop}
    (hgood : ∀ x y w, y ∈ legalOutputs L S nv nh data x → good w →
      m.lossAug x y w true ∈ legalOutputs L S nv nh data x ∧ ∀ z ∈ legalOutputs L S nv nh data x,
        (problemOf m (legalOutputs L S nv nh data)).violation w x y z ≤
          (problemOf m (legalOutputs L S nv nh data)).violation w x y (m.lossAug x y w true)) {hs : List YVal}
    (hc : List.Forall₂ (fun s h => h ∈ legalCompletions L S nv nh data s.1 s.2) data hs) :
    TrainableOn good m (legalOutputs L S nv nh data) ((data.map Prod.fst).zip hs) R (totalWeight cw data) := by
  have hlen := List.Forall₂.length_eq hc
  have hfirst : ∃ s, s ∈ (data.map Prod.fst).zip hs := by
    refine List.exists_mem_of_ne_nil _ fun h0 => hm.ne ?_
    have h1 := congrArg List.length h0
    rw [List.length_zip, List.length_map, ← hlen, min_self] at h1
    exact List.length_eq_zero_iff.mp h1
  exact {
    ne := by
      obtain ⟨s, h⟩ := hfirst
      exact List.ne_nil_of_mem h
    plain := hm.plain
    exact_good := fun x y w hy _ hw => hgood x y w hy hw
    attained := hm.attained
    labelled := by
      intro s h
      obtain ⟨d, hd, e, hcm⟩ := hidden_mem hc h
      have ho := completion_output hcm
      rw [← e] at ho
      refine ⟨ho, ?_⟩
      obtain ⟨-, t, et, ts, tl, -⟩ := hcm
      change m.lossOf s.2 s.2 = 0
      rw [et, hm.loss _ _ t t ts ts tl tl, weightedHamming_self]
    range_nonneg := by
      obtain ⟨s, h⟩ := hfirst
      obtain ⟨d, hd, e, -, t, et, ts, tl, -⟩ := hidden_mem hc h
      exact le_trans (sum_nonneg fun _ _ => sq_nonneg _) (hm.range d hd t t ts ts tl tl)
    range := by
      rintro s h _ ⟨-, a, rfl, as, al⟩ _ ⟨-, b, rfl, bs, bl⟩
      obtain ⟨d, hd, e, -⟩ := hidden_mem hc h
      rw [e] at as bs al bl
      have := hm.range d hd a b as bs al bl
      refine le_trans (le_of_eq ?_) this
      refine sum_congr rfl fun k _ => ?_
      change (m.feat _ _ _ k - m.feat _ _ _ k) ^ 2 = _
      rw [hm.feat_eq, hm.feat_eq, e]
    cost := by
      refine ⟨visibleWeight cw nv, ?_, le_of_eq (visibleWeight_sum hm hc)⟩
      rintro s h _ ⟨-, z, rfl, zs, zl⟩
      obtain ⟨d, hd, e, -, t, et, ts, tl, -⟩ := hidden_mem hc h
      rw [← e] at ts tl
      change m.lossOf s.2 (.discrete z) ≤ _
      unfold visibleWeight
      rw [et, hm.loss _ _ t z ts zs tl zl]
      unfold weightedHamming
      refine sum_le_sum fun i hi => ?_
      have := hm.weights _ (tl.1 i (mem_range.mp hi))
      split <;> linarith
    confusable := by
      obtain ⟨s, h⟩ := hfirst
      obtain ⟨d, hd, e, hcm⟩ := hidden_mem hc h
      obtain ⟨h1, h2, h3⟩ := hm.samples d hd
      obtain ⟨z, hz, hl⟩ := hm.confuse hcm (i := 0) (by omega)
      rw [← e] at hz
      refine ⟨s, h, z, hz, ?_⟩
      change 0 < m.lossOf s.2 z
      rw [hl]
      exact hm.weights _ (h3 0 (by omega)) }

/-- outputs without loss are completions. -/
theorem HiddenNodes.zero (hm : HiddenNodes m L S cw nv nh data R) : ∀ s ∈ data, ∀ h ∈ legalCompletions L S nv nh data s.1 s.2,
    ∀ z ∈ legalOutputs L S nv nh data s.1, (problemOf m (legalOutputs L S nv nh data)).loss h z ≤ 0 →
      z ∈ legalCompletions L S nv nh data s.1 s.2 := by
  rintro s - _ ⟨hd, t, rfl, ts, tl, ty⟩ _ ⟨-, z, rfl, zs, zl⟩ hle
  refine ⟨hd, z, rfl, zs, zl, fun i hi => ?_⟩
  change m.lossOf (.discrete t) (.discrete z) ≤ 0 at hle
  rw [hm.loss _ _ t z ts zs tl zl] at hle
  unfold weightedHamming at hle
  have hnn : ∀ i ∈ Finset.range (nv s.1), 0 ≤ if t.get i = z.get i then 0 else cw.get (t.get i) := by
    intro i hi
    have := hm.weights _ (tl.1 i (mem_range.mp hi))
    split <;> linarith
  have h0 := (sum_eq_zero_iff_of_nonneg hnn).mp (le_antisymm hle (sum_nonneg hnn)) i (mem_range.mpr hi)
  by_contra hne
  rw [← ty i hi] at hne
  rw [if_neg (fun h => hne h.symm)] at h0
  have := hm.weights _ (tl.1 i hi)
  linarith

theorem HiddenNodes.eqSound (hm : HiddenNodes m L S cw nv nh data R) {hs : List YVal}
    (hc : List.Forall₂ (fun s h => h ∈ legalCompletions L S nv nh data s.1 s.2) data hs) :
    EqSound m (legalOutputs L S nv nh data) graphEq ((data.map Prod.fst).zip hs) := by
  rintro s h _ ⟨-, a, rfl, as, al⟩ _ ⟨-, b, rfl, bs, bl⟩ hab
  have hag : ∀ i < nv s.1 + nh s.1, a.get i = b.get i := by
    unfold graphEq at hab
    simp only [decide_eq_true_eq] at hab
    exact fun i hi => hab.2 i (by omega)
  obtain ⟨d, hd, e, -, t, et, ts, tl, -⟩ := hidden_mem hc h
  rw [← e] at ts tl
  constructor
  · rw [et, hm.loss _ _ t a ts as tl al, hm.loss _ _ t b ts bs tl bl]
    exact weightedHamming_congr (fun i _ => rfl) fun i hi => hag i (by omega)
  · intro k hk
    rw [hm.feat_eq, hm.feat_eq]
    rw [e] at as bs al bl hag ⊢
    exact hm.feature d hd a b as bs al bl hag k hk

/-! ### which labellings have maximal score -/

/-- Sum of the bounds `q` of the couplings at vertex `i`. -/
def load (edges : Edges) (q : ℕ → ℚ) (i : ℕ) : ℚ :=
  ∑ e ∈ range edges.length, if (edges.getD e (0, 0)).1 = i ∨ (edges.getD e (0, 0)).2 = i then q e else 0

theorem load_const (edges : Edges) (ρ : ℚ) (i : ℕ) : load edges (fun _ => ρ) i = degree edges i * ρ := by
  unfold load degree
  rw [← sum_filter, sum_const, nsmul_eq_mul]

/-- changing one vertex changes only the couplings at this vertex. -/
theorem score_switch_load {n S : ℕ} {edges : Edges} (hE : EdgesIn n edges) (U : ℕ → ℕ → ℚ) (P : ℕ → ℕ → ℕ → ℚ) {q : ℕ → ℚ}
    (hP : ∀ e < edges.length, ∀ a < S, ∀ b < S, |P e a b| ≤ q e) {h : ℕ → ℕ} (hv : Valid n S h) {i s : ℕ} (hi : i < n)
    (hs : s < S) :
    Spec.score n edges U P h + U i s - U i (h i) - 2 * load edges q i ≤ Spec.score n edges U P (setState h i s) := by
  have hv' : Valid n S (setState h i s) := by
    intro j hj
    unfold setState
    split
    · exact hs
    · exact hv j hj
  unfold Spec.score
  have hu : ∑ j ∈ range n, U j (setState h i s j) = ∑ j ∈ range n, U j (h j) + U i s - U i (h i) := by
    have h1 := Finset.add_sum_erase (range n) (fun j => U j (setState h i s j)) (mem_range.mpr hi)
    have h2 := Finset.add_sum_erase (range n) (fun j => U j (h j)) (mem_range.mpr hi)
    have h3 : ∑ j ∈ (range n).erase i, U j (setState h i s j) = ∑ j ∈ (range n).erase i, U j (h j) := by
      apply sum_congr rfl; intro j hj
      unfold setState
      rw [if_neg (Finset.ne_of_mem_erase hj)]
    have h4 : setState h i s i = s := by unfold setState; simp
    simp only [h4] at h1
    rw [← h1, ← h2, h3]; ring
  have hp : ∑ e ∈ range edges.length, P e (h (edges.getD e (0, 0)).1) (h (edges.getD e (0, 0)).2) - 2 * load edges q i ≤
      ∑ e ∈ range edges.length, P e (setState h i s (edges.getD e (0, 0)).1) (setState h i s (edges.getD e (0, 0)).2) := by
    unfold load
    rw [mul_sum, ← sum_sub_distrib]
    apply sum_le_sum; intro e he
    have he := mem_range.mp he
    have hr := hE _ (getD_mem he)
    generalize edges.getD e (0, 0) = p at hr ⊢
    by_cases hq : p.1 = i ∨ p.2 = i
    · rw [if_pos hq]
      have h6 := abs_le.mp (hP e he _ (hv _ hr.1) _ (hv _ hr.2))
      have h7 := abs_le.mp (hP e he _ (hv' _ hr.1) _ (hv' _ hr.2))
      linarith [h6.2, h7.1]
    · rw [if_neg hq]
      have h1 : setState h i s p.1 = h p.1 := by unfold setState; rw [if_neg fun e => hq (.inl e)]
      have h2 : setState h i s p.2 = h p.2 := by unfold setState; rw [if_neg fun e => hq (.inr e)]
      rw [h1, h2]
      linarith
  rw [hu]; linarith

/-- Sum of the absolute values of the features of node `i`; nodes without features count as 0. -/
def featureMass (x : Mat) (i : ℕ) : ℚ := if i < x.rows then ∑ f ∈ range x.cols, |x.get i f| else 0

/-- The potentials of allowed states are not very small if weights are. -/
theorem node_unary_ge {mm : LatentNode.Model} {x : Mat} {w : ℕ → ℚ} {a b : ℕ} {U : Mat} {M : ℚ} (hU : UnarySpec mm x w a b U M)
    (hF : x.cols = mm.nFeatures) (hr : x.rows = if mm.latentFeatures then a + b else a) {ρ : ℚ}
    (hw : ∀ k < mm.nInput * mm.nFeatures, |w k| ≤ ρ) :
    (∀ i < a, ∀ s < mm.nLabels, -(ρ * featureMass x i) ≤ U.get i s) ∧
    ∀ i, a ≤ i → i < a + b → ∀ s, mm.nLabels ≤ s → s < mm.nStates → -(ρ * featureMass x i) ≤ U.get i s := by
  have key : ∀ i s, i < x.rows → s < mm.nInput → -(ρ * featureMass x i) ≤ LU mm x w i s := by
    intro i s hi hs
    unfold featureMass LU
    rw [if_pos hi, hF, mul_sum, ← sum_neg_distrib]
    refine sum_le_sum fun f hf => ?_
    have h1 := hw _ (flat_lt hs (mem_range.mp hf))
    have h2 := mul_le_mul_of_nonneg_right h1 (abs_nonneg (x.get i f))
    rw [← abs_mul, mul_comm (w _)] at h2
    have h3 := neg_abs_le (x.get i f * w (s * mm.nFeatures + f))
    linarith
  constructor
  · intro i hi s hs
    rw [hU.visible i hi s hs]
    refine key i s ?_ ?_
    · rw [hr]
      split <;> omega
    · have := nLabels_le mm
      unfold LatentNode.Model.nInput
      split <;> omega
  · intro i hi hi' s hs hs'
    rw [hU.hidden i hi hi' s hs hs']
    by_cases hl : mm.latentFeatures
    · rw [if_pos hl]
      refine key i s ?_ ?_
      · rw [hr, if_pos hl]
        exact hi'
      · unfold LatentNode.Model.nInput
        rw [if_pos hl]
        exact hs'
    · rw [if_neg hl]
      rw [if_neg hl] at hr
      unfold featureMass
      rw [if_neg (by omega)]
      simp

/-- The potentials after loss augmentation. -/
def augmented (S a : ℕ) (c : ℕ → ℚ) (t : ℕ → ℕ) (U : ℕ → ℕ → ℚ) (i s : ℕ) : ℚ :=
  if s < S ∧ i < a ∧ t i ≠ s then U i s + c (t i) else U i s

theorem visible_augmented_score {S a b L : ℕ} {c : ℕ → ℚ} {t : ℕ → ℕ} {U : ℕ → ℕ → ℚ} {edges : Edges} {P : ℕ → ℕ → ℕ → ℚ} (hLS : L ≤ S)
    {z : ℕ → ℕ} (hz : Legal a b L S z) :
    Spec.score (a + b) edges (augmented S a c t U) P z = Spec.score (a + b) edges U P z + weightedHamming a c t z := by
  have hham : weightedHamming a c t z = ∑ i ∈ range (a + b), if i < a then (if t i = z i then 0 else c (t i)) else 0 := by
    rw [sum_range_add]
    unfold weightedHamming
    have h2 : ∑ i ∈ range b, (if a + i < a then (if t (a + i) = z (a + i) then 0 else c (t (a + i))) else 0) = 0 :=
      sum_eq_zero fun i _ => if_neg (by omega)
    rw [h2, add_zero]
    exact sum_congr rfl fun i hi => by rw [if_pos (mem_range.mp hi)]
  rw [hham]
  unfold Spec.score
  rw [add_right_comm, ← sum_add_distrib]
  congr 1
  refine sum_congr rfl fun i hi => ?_
  have hv := hz.valid hLS i (mem_range.mp hi)
  unfold augmented
  by_cases h1 : i < a
  · by_cases h2 : t i = z i <;> simp [h1, h2, hv]
  · simp [h1]

/-- A best labelling under the augmented potentials is legal if weights are small. -/
theorem visible_augmented_legal {mm : LatentNode.Model} {x : Mat} {w : ℕ → ℚ} {a b : ℕ} {U : Mat} {M : ℚ} (hU : UnarySpec mm x w a b U M)
    {edges : Edges} (hE : EdgesIn (a + b) edges) {P : ℕ → ℕ → ℕ → ℚ} {q : ℕ → ℚ}
    (hP : ∀ e < edges.length, ∀ s < mm.nStates, ∀ s' < mm.nStates, |P e s s'| ≤ q e) {β : ℕ → ℚ}
    (hvis : ∀ i < a, ∀ s < mm.nLabels, -β i ≤ U.get i s)
    (hhid : ∀ i, a ≤ i → i < a + b → ∀ s, mm.nLabels ≤ s → s < mm.nStates → -β i ≤ U.get i s)
    {c : ℕ → ℚ} {κ : ℚ} (hκ0 : 0 ≤ κ) (hκ : ∀ l < mm.nLabels, c l ≤ κ) {t : ℕ → ℕ} (ht : Legal a b mm.nLabels mm.nStates t)
    (hsmall : ∀ i < a + b, β i + 2 * load edges q i + κ < 99) {g : ℕ → ℕ} (hg : Valid (a + b) mm.nStates g)
    (hbest : ∀ z, Valid (a + b) mm.nStates z →
      Spec.score (a + b) edges (augmented mm.nStates a c t U.get) P z ≤ Spec.score (a + b) edges (augmented mm.nStates a c t U.get) P g) :
    Legal a b mm.nLabels mm.nStates g := by
  have htv := ht.valid (nLabels_le mm)
  have key : ∀ i < a + b, -β i ≤ U.get i (t i) → ¬ U.get i (g i) = -100 * M := by
    intro i hi hlow heq
    have h1 := score_switch_load hE (augmented mm.nStates a c t U.get) P hP hg hi (htv i hi)
    have h2 := hbest (setState g i (t i)) (by
      intro j hj
      unfold setState
      split
      · exact htv i hi
      · exact hg j hj)
    have h3 : augmented mm.nStates a c t U.get i (t i) = U.get i (t i) := by
      unfold augmented
      rw [if_neg (fun h => h.2.2 rfl)]
    have h4 : augmented mm.nStates a c t U.get i (g i) ≤ -100 * M + κ := by
      unfold augmented
      split
      · rename_i h
        have := hκ _ (ht.1 i h.2.1)
        rw [heq]
        linarith
      · rw [heq]
        linarith
    have h5 := hsmall i hi
    have h6 := hU.one_le
    rw [h3] at h1
    linarith
  constructor
  · intro i hi
    by_contra hn
    exact key i (by omega) (hvis i hi _ (ht.1 i hi)) (hU.forbidden_visible i hi _ (not_lt.mp hn))
  · intro i hi hi'
    refine ⟨?_, hg i hi'⟩
    by_contra hn
    have := ht.2 i hi hi'
    exact key i hi' (hhid i hi hi' _ this.1 this.2) (hU.forbidden_hidden i hi _ (not_le.mp hn))

/-- The potentials after the given labels were rewarded. -/
def rewarded (a : ℕ) (y : ℕ → ℕ) (M : ℚ) (U : ℕ → ℕ → ℚ) (i s : ℕ) : ℚ := if i < a ∧ s = y i then 100 * M else U i s

/-- A best labelling under the rewarded potentials is a legal completion if weights are small. -/
theorem clamped_legal {mm : LatentNode.Model} {x : Mat} {w : ℕ → ℚ} {a b : ℕ} {U : Mat} {M : ℚ} (hU : UnarySpec mm x w a b U M)
    {edges : Edges} (hE : EdgesIn (a + b) edges) {P : ℕ → ℕ → ℕ → ℚ} {q : ℕ → ℚ}
    (hP : ∀ e < edges.length, ∀ s < mm.nStates, ∀ s' < mm.nStates, |P e s s'| ≤ q e) {β : ℕ → ℚ} (hβ : ∀ i < a + b, 0 ≤ β i)
    (hhid : ∀ i, a ≤ i → i < a + b → ∀ s, mm.nLabels ≤ s → s < mm.nStates → -β i ≤ U.get i s)
    (hpos : 0 < b → mm.nLabels < mm.nStates)
    {y : ℕ → ℕ} (hy : ∀ i < a, y i < mm.nLabels) (hsmall : ∀ i < a + b, β i + 2 * load edges q i < 99) {M' : ℚ} (hM1 : 1 ≤ M')
    (hM : ∀ i < a + b, ∀ s < mm.nStates, U.get i s ≤ M') {g : ℕ → ℕ} (hg : Valid (a + b) mm.nStates g)
    (hbest : ∀ z, Valid (a + b) mm.nStates z →
      Spec.score (a + b) edges (rewarded a y M' U.get) P z ≤ Spec.score (a + b) edges (rewarded a y M' U.get) P g) :
    Legal a b mm.nLabels mm.nStates g ∧ ∀ i < a, g i = y i := by
  have hL := nLabels_le mm
  have hset : ∀ i s, s < mm.nStates → Valid (a + b) mm.nStates (setState g i s) := by
    intro i s hs j hj
    unfold setState
    split
    · exact hs
    · exact hg j hj
  have hvis : ∀ i < a, g i = y i := by
    intro i hi
    by_contra hne
    have hs : y i < mm.nStates := lt_of_lt_of_le (hy i hi) hL
    have h1 := score_switch_load hE (rewarded a y M' U.get) P hP hg (i := i) (by omega) hs
    have h2 := hbest _ (hset i _ hs)
    have h3 : rewarded a y M' U.get i (y i) = 100 * M' := if_pos ⟨hi, rfl⟩
    have h4 : rewarded a y M' U.get i (g i) = U.get i (g i) := if_neg fun h => hne h.2
    have h5 := hM i (by omega) _ (hg i (by omega))
    have h6 := hsmall i (by omega)
    have h7 := hβ i (by omega)
    rw [h3, h4] at h1
    linarith
  refine ⟨⟨fun i hi => by rw [hvis i hi]; exact hy i hi, fun i hi hi' => ⟨?_, hg i hi'⟩⟩, hvis⟩
  by_contra hn
  have hs := hpos (by omega)
  have h1 := score_switch_load hE (rewarded a y M' U.get) P hP hg hi' hs
  have h2 := hbest _ (hset i _ hs)
  have h3 : rewarded a y M' U.get i mm.nLabels = U.get i mm.nLabels := if_neg fun h => absurd h.1 (not_lt.mpr hi)
  have h4 : rewarded a y M' U.get i (g i) = U.get i (g i) := if_neg fun h => absurd h.1 (not_lt.mpr hi)
  have h5 := hhid i hi hi' _ le_rfl hs
  have h6 := hsmall i hi'
  have h7 := hU.one_le
  rw [h3, h4, hU.forbidden_hidden i hi _ (not_le.mp hn)] at h1
  linarith

/-- rewards are the same for all completions. -/
theorem clamped_score {a b : ℕ} {y : ℕ → ℕ} {M : ℚ} {U : ℕ → ℕ → ℚ} {edges : Edges} {P : ℕ → ℕ → ℕ → ℚ} {z z' : ℕ → ℕ}
    (hz : ∀ i < a, z i = y i) (hz' : ∀ i < a, z' i = y i) :
    Spec.score (a + b) edges (rewarded a y M U) P z - Spec.score (a + b) edges (rewarded a y M U) P z' =
      Spec.score (a + b) edges U P z - Spec.score (a + b) edges U P z' := by
  have key : ∀ z : ℕ → ℕ, (∀ i < a, z i = y i) → ∑ i ∈ range (a + b), rewarded a y M U i (z i) =
      ∑ i ∈ range (a + b), U i (z i) + ∑ i ∈ range a, (100 * M - U i (y i)) := by
    intro z hz
    rw [sum_range_add, sum_range_add, add_right_comm, ← sum_add_distrib]
    congr 1
    · refine sum_congr rfl fun i hi => ?_
      have hi := mem_range.mp hi
      unfold rewarded
      rw [if_pos ⟨hi, hz i hi⟩, hz i hi]
      ring
    · refine sum_congr rfl fun i _ => ?_
      unfold rewarded
      rw [if_neg fun h => absurd h.1 (by omega)]
  unfold Spec.score
  rw [key z hz, key z' hz']
  ring

end Verif.Props
