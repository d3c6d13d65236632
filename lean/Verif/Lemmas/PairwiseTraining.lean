import Verif.Props.C110

/-!
# Training a pairwise model with Hamming loss

What the learners need to know about a model whose outputs are labellings (and relaxed labellings) of a graph.
-/

namespace Verif.Props

open Finset Verif.Common Verif.Spec Verif.Learner Verif.Lemmas

/-- A model behind the learner interface whose outputs are labellings of a graph with `nodes x` vertices, or points of its local
polytope; `good x` says that the instance is well formed, `O x` are the outputs that compete, `bound x` bounds squared distances of
joint features. -/
structure PairwiseLearner {X : Type} (M : SModel X YVal) (S : ℕ) (cw : Vec) (nodes : X → ℕ) (edges : X → Edges) (good : X → Prop)
    (O : X → Set YVal) (bound : X → ℚ) : Prop where
  plain : M.rescaleC = false
  states : 2 ≤ S
  weights : cw.size = S
  weights_pos : ∀ c < S, 0 < cw.get c
  nodes_pos : ∀ x, good x → 1 ≤ nodes x
  edges_in : ∀ x, good x → EdgesIn (nodes x) (edges x)
  outputs : ∀ x, good x → ∀ v ∈ O x, IsRelaxed (nodes x) S (edges x) v
  exact_lossAug : (problemOf M fun x => {v | good x ∧ v ∈ O x}).ExactLossAug fun x y w => M.lossAug x y w true
  lossOf : ∀ x, good x → ∀ (t : Labels) (v : YVal), t.size = nodes x → Valid (nodes x) S t.get →
    IsRelaxed (nodes x) S (edges x) v → M.lossOf (.discrete t) v = marginalLoss (nodes x) cw.get S t.get v
  feature : ∀ x, good x → ∀ y z : Labels, IsLabelling (nodes x) S (.discrete y) → IsLabelling (nodes x) S (.discrete z) →
    (∀ i < nodes x, y.get i = z.get i) → ∀ k < M.dim, M.jointFeature x (.discrete y) k = M.jointFeature x (.discrete z) k
  bound_nonneg : ∀ x, 0 ≤ bound x
  range : ∀ x, good x → ∀ y ∈ O x, ∀ z ∈ O x, ∑ k ∈ Finset.range M.dim, (M.jointFeature x y k - M.jointFeature x z k) ^ 2 ≤ bound x

/-- Training data: instances and label arrays. -/
def labelled {X : Type} (data : List (X × Labels)) : List (X × YVal) := data.map fun d => (d.1, .discrete d.2)

/-- The instances are well formed, there is one label in range per vertex, and all labellings compete. -/
def LabelledData {X : Type} (S : ℕ) (nodes : X → ℕ) (good : X → Prop) (O : X → Set YVal) (data : List (X × Labels)) : Prop :=
  ∀ d ∈ data, good d.1 ∧ d.2.size = nodes d.1 ∧ Valid (nodes d.1) S d.2.get ∧ ∀ v, IsLabelling (nodes d.1) S v → v ∈ O d.1

/-- Sum of the class weights of all labels. -/
def totalWeight {X : Type} (cw : Vec) (data : List (X × Labels)) : ℚ :=
  (data.map fun d => ∑ i ∈ Finset.range d.2.size, cw.get (d.2.get i)).sum

variable {X : Type} {M : SModel X YVal} {S : ℕ} {cw : Vec} {nodes : X → ℕ} {edges : X → Edges} {good : X → Prop}
  {O : X → Set YVal} {bound : X → ℚ}

theorem labelled_length (data : List (X × Labels)) : (labelled data).length = data.length := by
  unfold labelled
  rw [List.length_map]

/-- The flipped labelling: every label is wrong. -/
def flipped (n : ℕ) (t : Labels) : Labels := ⟨n, fun i => if t.get i = 0 then 1 else 0⟩

theorem flipped_labelling (hS : 2 ≤ S) (n : ℕ) (t : Labels) : IsLabelling n S (.discrete (flipped n t)) := by
  refine ⟨_, rfl, rfl, fun i _ => ?_⟩
  change (if t.get i = 0 then 1 else 0) < S
  split <;> omega

theorem PairwiseLearner.flipped_loss (h : PairwiseLearner M S cw nodes edges good O bound) {x : X} (hx : good x) {t : Labels}
    (ht : t.size = nodes x) (htv : Valid (nodes x) S t.get) :
    M.lossOf (.discrete t) (.discrete (flipped (nodes x) t)) = ∑ i ∈ Finset.range (nodes x), cw.get (t.get i) := by
  rw [h.lossOf x hx t _ ht htv (.inl (flipped_labelling h.states _ _))]
  unfold marginalLoss nodeMarg flipped
  refine sum_congr rfl fun i _ => ?_
  have : ¬ t.get i = if t.get i = 0 then 1 else 0 := by split <;> omega
  simp only
  rw [if_neg this, sub_zero, mul_one]

theorem PairwiseLearner.trainable (h : PairwiseLearner M S cw nodes edges good O bound) (data : List (X × Labels)) (hne : data ≠ [])
    (hd : LabelledData S nodes good O data) (R : ℚ) (hR : ∀ d ∈ data, bound d.1 ≤ R) :
    Trainable M (fun x => {v | good x ∧ v ∈ O x}) (labelled data) R (totalWeight cw data) := by
  have hS1 : 1 ≤ S := by have := h.states; omega
  obtain ⟨d0, hd0⟩ := List.exists_mem_of_ne_nil _ hne
  constructor
  · unfold labelled
    simpa using hne
  · exact h.plain
  · exact h.exact_lossAug
  · intro s hs
    obtain ⟨d, hdm, rfl⟩ := List.mem_map.mp hs
    obtain ⟨h1, h2, h3, h4⟩ := hd d hdm
    have hl : IsLabelling (nodes d.1) S (.discrete d.2) := ⟨d.2, rfl, h2, h3⟩
    refine ⟨⟨h1, h4 _ hl⟩, ?_⟩
    change M.lossOf (.discrete d.2) (.discrete d.2) = 0
    rw [h.lossOf d.1 h1 d.2 _ h2 h3 (.inl hl)]
    unfold marginalLoss nodeMarg
    simp
  · exact (h.bound_nonneg d0.1).trans (hR d0 hd0)
  · rintro s hs y ⟨hg, hy⟩ z ⟨-, hz⟩
    obtain ⟨d, hdm, rfl⟩ := List.mem_map.mp hs
    refine le_trans ?_ (hR d hdm)
    have e : ∀ v, (problemOf M fun x => {v | good x ∧ v ∈ O x}).feat d.1 v (.discrete d.2) = M.jointFeature d.1 v := by
      intro v
      change M.feat _ _ _ = _
      unfold SModel.feat
      rw [h.plain]
      rfl
    simp only [e]
    exact h.range d.1 hg y hy z hz
  · refine ⟨fun s => match s.2 with
      | .discrete t => ∑ i ∈ Finset.range t.size, cw.get (t.get i)
      | _ => 0, ?_, ?_⟩
    · rintro s hs v ⟨hg, hv⟩
      obtain ⟨d, hdm, rfl⟩ := List.mem_map.mp hs
      obtain ⟨h1, h2, h3, h4⟩ := hd d hdm
      have hr := h.outputs d.1 h1 v hv
      change M.lossOf (.discrete d.2) v ≤ _
      rw [h.lossOf d.1 h1 d.2 v h2 h3 hr]
      unfold marginalLoss
      simp only
      rw [h2]
      refine sum_le_sum fun i hi => ?_
      have hm := (isRelaxed_polytope (h.edges_in d.1 h1) hr).nonneg i (mem_range.mp hi) _ (h3 i (mem_range.mp hi))
      have := h.weights_pos _ (h3 i (mem_range.mp hi))
      nlinarith
    · unfold labelled totalWeight
      rw [List.map_map]
      exact le_rfl
  · obtain ⟨h1, h2, h3, h4⟩ := hd d0 hd0
    refine ⟨_, List.mem_map.mpr ⟨d0, hd0, rfl⟩, .discrete (flipped (nodes d0.1) d0.2),
      ⟨h1, h4 _ (flipped_labelling h.states _ _)⟩, ?_⟩
    change 0 < M.lossOf (.discrete d0.2) _
    rw [h.flipped_loss h1 h2 h3]
    exact sum_pos (fun i hi => h.weights_pos _ (h3 i (mem_range.mp hi))) ⟨0, mem_range.mpr (h.nodes_pos _ h1)⟩

theorem PairwiseLearner.feat (h : PairwiseLearner M S cw nodes edges good O bound) (x : X) (v y : YVal) :
    M.feat x v y = M.jointFeature x v := by
  unfold SModel.feat
  rw [h.plain]
  rfl

theorem PairwiseLearner.eqSound (h : PairwiseLearner M S cw nodes edges good O bound)
    (hO : ∀ x, good x → ∀ v ∈ O x, IsLabelling (nodes x) S v) (data : List (X × Labels))
    (hd : LabelledData S nodes good O data) : EqSound M (fun x => {v | good x ∧ v ∈ O x}) graphEq (labelled data) := by
  intro s hs a ha b hb heq
  obtain ⟨d, hd', rfl⟩ := List.mem_map.mp hs
  obtain ⟨h1, h2, h3, h4⟩ := hd d hd'
  have la := hO _ h1 a ha.2
  have lb := hO _ h1 b hb.2
  obtain ⟨y, rfl, hy, -⟩ := id la
  obtain ⟨z, rfl, hz, -⟩ := id lb
  unfold graphEq at heq
  simp only [decide_eq_true_eq] at heq
  rw [hy] at heq
  refine ⟨?_, fun k hk => ?_⟩
  · rw [h.lossOf d.1 h1 d.2 _ h2 h3 (.inl la), h.lossOf d.1 h1 d.2 _ h2 h3 (.inl lb)]
    unfold marginalLoss
    exact sum_congr rfl fun i hi => by rw [nodeMarg_congr heq.2 (mem_range.mp hi)]
  · rw [h.feat, h.feat]
    exact h.feature d.1 h1 y z la lb heq.2 k hk

theorem PairwiseLearner.zeroLoss (h : PairwiseLearner M S cw nodes edges good O bound)
    (hO : ∀ x, good x → ∀ v ∈ O x, IsLabelling (nodes x) S v) (data : List (X × Labels))
    (hd : LabelledData S nodes good O data) : ∀ s ∈ labelled data, ∀ v ∈ {v | good s.1 ∧ v ∈ O s.1},
      (problemOf M fun x => {v | good x ∧ v ∈ O x}).loss s.2 v ≤ 0 → ∀ k < M.dim,
        (problemOf M fun x => {v | good x ∧ v ∈ O x}).feat s.1 v s.2 k =
          (problemOf M fun x => {v | good x ∧ v ∈ O x}).feat s.1 s.2 s.2 k := by
  intro s hs v hv hl k hk
  obtain ⟨d, hd', rfl⟩ := List.mem_map.mp hs
  obtain ⟨h1, h2, h3, h4⟩ := hd d hd'
  have lv := hO _ h1 v hv.2
  obtain ⟨y, rfl, hy, -⟩ := id lv
  have hl' : M.lossOf (.discrete d.2) (.discrete y) ≤ 0 := hl
  rw [h.lossOf d.1 h1 d.2 _ h2 h3 (.inl lv)] at hl'
  have hnn : ∀ i ∈ Finset.range (nodes d.1), 0 ≤ cw.get (d.2.get i) * (1 - nodeMarg S (.discrete y) i (d.2.get i)) := by
    intro i hi
    refine mul_nonneg (h.weights_pos _ (h3 i (mem_range.mp hi))).le ?_
    unfold nodeMarg
    simp only
    split <;> norm_num
  have hz := (sum_eq_zero_iff_of_nonneg hnn).mp (le_antisymm hl' (sum_nonneg hnn))
  have hag : ∀ i < nodes d.1, y.get i = d.2.get i := by
    intro i hi
    by_contra hne
    have := hz i (mem_range.mpr hi)
    unfold nodeMarg at this
    simp only at this
    rw [if_neg (fun h => hne h.symm), sub_zero, mul_one] at this
    exact absurd this (h.weights_pos _ (h3 i hi)).ne'
  change M.feat _ _ _ k = M.feat _ _ _ k
  rw [h.feat, h.feat]
  exact h.feature d.1 h1 y d.2 lv ⟨d.2, rfl, h2, h3⟩ hag k hk

theorem PairwiseLearner.finite (h : PairwiseLearner M S cw nodes edges good O bound)
    (hO : ∀ x, good x → ∀ v ∈ O x, IsLabelling (nodes x) S v) (data : List (X × Labels))
    (hd : LabelledData S nodes good O data) :
    FinitelyMany (problemOf M fun x => {v | good x ∧ v ∈ O x}) (labelled data) := by
  have hS := h.states
  refine finitelyMany_of_key fun s hs => ?_
  refine ⟨Fin (nodes s.1) → Fin S, inferInstance, fun v i => match v with
    | .discrete y => ⟨y.get i % S, Nat.mod_lt _ (by omega)⟩
    | _ => ⟨0, by omega⟩, ?_⟩
  intro a ha b hb hab
  refine h.eqSound hO data hd s hs a ha b hb ?_
  obtain ⟨y, rfl, hy, hy'⟩ := hO _ ha.1 a ha.2
  obtain ⟨z, rfl, hz, hz'⟩ := hO _ hb.1 b hb.2
  unfold graphEq
  simp only [decide_eq_true_eq]
  refine ⟨by rw [hy, hz], fun i hi => ?_⟩
  rw [hy] at hi
  have := congrFun hab ⟨i, hi⟩
  simp only [Fin.mk.injEq] at this
  rw [Nat.mod_eq_of_lt (hy' i hi), Nat.mod_eq_of_lt (hz' i hi)] at this
  exact this

/-- One-slack and Frank-Wolfe training. -/
theorem PairwiseLearner.trains (h : PairwiseLearner M S cw nodes edges good O bound) (data : List (X × Labels)) (hne : data ≠ [])
    (hd : LabelledData S nodes good O data) (R : ℚ) (hR : ∀ d ∈ data, bound d.1 ≤ R) :
    OneSlackTrains M (fun x => {v | good x ∧ v ∈ O x}) (labelled data) R (totalWeight cw data) ∧
    FrankWolfeTrains M (fun x => {v | good x ∧ v ∈ O x}) (labelled data) R (totalWeight cw data) :=
  ⟨C110_oneslack _ _ _ _ _ (h.trainable data hne hd R hR), C110_frankwolfe _ _ _ _ _ (h.trainable data hne hd R hR)⟩

/-- With labellings as outputs also n-slack training, if the weights of the labels of some sample add up to `1e-5`, and subgradient
training. -/
theorem PairwiseLearner.trains_discrete (h : PairwiseLearner M S cw nodes edges good O bound)
    (hO : ∀ x, good x → ∀ v ∈ O x, IsLabelling (nodes x) S v) (data : List (X × Labels)) (hne : data ≠ [])
    (hd : LabelledData S nodes good O data) (R : ℚ) (hR : ∀ d ∈ data, bound d.1 ≤ R) :
    ((∃ d ∈ data, 1 / 10 ^ 5 ≤ ∑ i ∈ Finset.range d.2.size, cw.get (d.2.get i)) →
      NSlackTrains M (fun x => {v | good x ∧ v ∈ O x}) graphEq (labelled data) R (totalWeight cw data)) ∧
    SubgradientTrains M (fun x => {v | good x ∧ v ∈ O x}) (labelled data) := by
  refine ⟨?_, C110_subgradient _ _ _ _ _ (h.trainable data hne hd R hR) (h.finite hO data hd)⟩
  rintro ⟨d, hdm, hbig⟩
  refine C110_nslack _ _ _ _ _ (h.trainable data hne hd R hR) _ (h.eqSound hO data hd) (h.zeroLoss hO data hd) ?_
  obtain ⟨h1, h2, h3, h4⟩ := hd d hdm
  refine ⟨_, List.mem_map.mpr ⟨d, hdm, rfl⟩, _, ⟨h1, h4 _ (flipped_labelling h.states (nodes d.1) d.2)⟩, ?_⟩
  change _ ≤ M.lossOf (.discrete d.2) _
  rw [h.flipped_loss h1 h2 h3, ← h2]
  exact hbig

end Verif.Props
