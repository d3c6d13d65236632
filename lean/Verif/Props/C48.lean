import Verif.Props.C29
import Verif.Props.C50
import Verif.Spec.Subgradient
import Verif.Lemmas.Averaging
import Mathlib.Data.List.Forall2
import Mathlib.Algebra.BigOperators.Field

/-!
# C48, C49, C51: subgradient training
-/

namespace Verif.Props

open Finset Verif.Spec Verif.Learner Verif.Subgradient

variable {X Y : Type}

/-- `-d` is a subgradient of the hinge loss of sample `s` at `w`. -/
def Slope (P : Problem X Y) (w : W) (s : X × Y) (d : W) : Prop :=
  ∀ w' h h', P.IsHinge w s.1 s.2 h → P.IsHinge w' s.1 s.2 h' →
    h - ∑ k ∈ range P.dim, d k * (w' k - w k) ≤ h'

theorem violation_affine (P : Problem X Y) (w w' : W) (x : X) (y ŷ : Y) :
    P.violation w' x y ŷ = P.violation w x y ŷ -
      ∑ k ∈ range P.dim, (-P.feat x ŷ y k + P.feat x y y k) * (w' k - w k) := by
  unfold Problem.violation Problem.value
  have : ∑ k ∈ range P.dim, (-P.feat x ŷ y k + P.feat x y y k) * (w' k - w k) =
      (∑ k ∈ range P.dim, w k * P.feat x ŷ y k - ∑ k ∈ range P.dim, w' k * P.feat x ŷ y k) +
      (∑ k ∈ range P.dim, w' k * P.feat x y y k - ∑ k ∈ range P.dim, w k * P.feat x y y k) := by
    rw [← sum_sub_distrib, ← sum_sub_distrib, ← sum_add_distrib]
    exact sum_congr rfl fun k _ => by ring
  rw [this]
  ring

/-- an output of maximal violation gives a subgradient. -/
theorem slope_max (P : Problem X Y) (w : W) (s : X × Y) (ŷ : Y) (hy : ŷ ∈ P.outputs s.1)
    (hmax : P.IsHinge w s.1 s.2 (P.violation w s.1 s.2 ŷ)) :
    Slope P w s (fun k => -P.feat s.1 ŷ s.2 k + P.feat s.1 s.2 s.2 k) := by
  intro w' h h' hh hh'
  have he : h = P.violation w s.1 s.2 ŷ := hh.unique hmax
  have := hh'.2 ⟨ŷ, hy, rfl⟩
  rw [violation_affine P w w'] at this
  rw [he]
  exact this

theorem slope_zero (P : Problem X Y) (w : W) (s : X × Y) (hy : s.2 ∈ P.outputs s.1)
    (h0 : P.loss s.2 s.2 = 0) (hh : P.IsHinge w s.1 s.2 0) : Slope P w s (fun _ => 0) := by
  intro w' h h' h1 h2
  have he : h = 0 := h1.unique hh
  have := h2.2 ⟨s.2, hy, rfl⟩
  rw [violation_self, h0] at this
  simpa [he] using this

theorem hinge_sums (P : Problem X Y) (w w' : W) (b : List (X × Y)) (d : X × Y → W)
    (hd : ∀ s ∈ b, Slope P w s (d s)) (hs hs' : List ℚ)
    (h : List.Forall₂ (fun s h => P.IsHinge w s.1 s.2 h) b hs)
    (h' : List.Forall₂ (fun s h => P.IsHinge w' s.1 s.2 h) b hs') :
    hs.sum - ∑ k ∈ range P.dim, (b.map fun s => d s k).sum * (w' k - w k) ≤ hs'.sum := by
  induction b generalizing hs hs' with
  | nil =>
    cases h
    cases h'
    simp
  | cons s b ih =>
    cases h with
    | cons h1 h2 =>
      cases h' with
      | cons h1' h2' =>
        have := ih (fun s hs => hd s (List.mem_cons_of_mem _ hs)) _ _ h2 h2'
        have hs := hd s (by simp) _ _ _ h1 h1'
        simp only [List.map_cons, List.sum_cons, add_mul, sum_add_distrib]
        linarith

/-- adding slopes gives a subgradient of the risk of a block. -/
theorem block_subgradient (P : Problem X Y) (c : ℚ) (hc : 0 ≤ c) (w : W) (b : List (X × Y))
    (d : X × Y → W) (hd : ∀ s ∈ b, Slope P w s (d s)) (hex : ∃ a, P.IsObjective c b w a) (g : W)
    (hg : ∀ k < P.dim, g k = w k - c * (b.map fun s => d s k).sum) : P.IsSubgradient c b w g := by
  refine ⟨hex, ?_⟩
  rintro w' _ _ ⟨hs, h1, rfl⟩ ⟨hs', h2, rfl⟩
  have h3 := hinge_sums P w w' b d hd hs hs' h1 h2
  have h4 : ∑ k ∈ range P.dim, g k * (w' k - w k) =
      ∑ k ∈ range P.dim, w k * (w' k - w k) -
        c * ∑ k ∈ range P.dim, (b.map fun s => d s k).sum * (w' k - w k) := by
    rw [mul_sum, ← sum_sub_distrib]
    refine sum_congr rfl fun k hk => ?_
    rw [hg k (mem_range.mp hk)]
    ring
  have h5 : (∑ k ∈ range P.dim, w k * w k) / 2 + ∑ k ∈ range P.dim, w k * (w' k - w k) ≤
      (∑ k ∈ range P.dim, w' k * w' k) / 2 := by
    rw [Finset.sum_div, Finset.sum_div, ← sum_add_distrib]
    refine sum_le_sum fun k _ => ?_
    nlinarith [sq_nonneg (w' k - w k)]
  rw [h4]
  have h6 := mul_le_mul_of_nonneg_left h3 hc
  rw [mul_sub] at h6
  linarith

/-- the slope found by `find_constraint`. -/
theorem slope_constraint (m : SModel X Y) (outputs : X → Set Y)
    (hLA : (problemOf m outputs).ExactLossAug (fun x y w => m.lossAug x y w true))
    (s : X × Y) (w : W) (hy : s.2 ∈ outputs s.1) (h0 : m.lossOf s.2 s.2 = 0) :
    Slope (problemOf m outputs) w s (findConstraint m s.1 s.2 w none true true).delta := by
  obtain ⟨h1, -, h3, h4, -⟩ := C29_slack m outputs true hLA s.1 s.2 w hy h0
  refine slope_max (problemOf m outputs) w s (findConstraint m s.1 s.2 w none true true).yhat h3 ?_
  rw [← h4]
  exact h1

theorem objective_exists (m : SModel X Y) (outputs : X → Set Y)
    (hLA : (problemOf m outputs).ExactLossAug (fun x y w => m.lossAug x y w true))
    (b : List (X × Y)) (hl : (problemOf m outputs).Labelled b) (c : ℚ) (w : W) :
    ∃ a, (problemOf m outputs).IsObjective c b w a := by
  refine ⟨_, b.map (sampleSlack m w), ?_, rfl⟩
  rw [List.forall₂_map_right_iff, List.forall₂_same]
  intro s hs
  exact (C29_slack m outputs true hLA s.1 s.2 w (hl s hs).1 (hl s hs).2).1

/-! ### the blocks of a pass -/

/-- whether a sequential pass uses mini-batches. -/
def usesBatches (cfg : Config) : Bool :=
  cfg.nJobs = 1 ∧ cfg.batchSize ≠ none ∧ cfg.batchSize ≠ some 1

/-- the blocks of samples that lead to one step each. -/
def blocksOf (cfg : Config) (data : List (X × Y)) : Except PyErr (List (List (X × Y))) :=
  if cfg.nJobs = 1 then
    match cfg.batchSize with
    | none => .ok (data.map fun s => [s])
    | some b => if b = 1 then .ok (data.map fun s => [s]) else miniBatches data b
  else
    match evenSlices data.length (ceilDiv data.length cfg.nJobs) with
    | .error err => .error err
    | .ok sl => .ok (cut data sl)

/-- the direction used for a block. -/
def blockDelta (m : SModel X Y) (cfg : Config) (w : W) (b : List (X × Y)) : W :=
  if usesBatches cfg then meanDelta m b w
  else if cfg.nJobs = 1 then fun k => (b.map fun s => (findConstraint m s.1 s.2 w none true true).delta k).sum
  else fun k => (((b.map fun s => findConstraint m s.1 s.2 w none true true).filter
    fun c => 0 < c.slack).map fun c => c.delta k).sum

def blockStep (m : SModel X Y) (cfg : Config) (lr : ℚ) (n : ℕ) (st : St) (b : List (X × Y)) : St :=
  solveSubgradient cfg lr n st (blockDelta m cfg st.w b)

theorem foldl_fst {α β γ : Type} (f : α × γ → β → α × γ) (g : α → β → α) (l : List β)
    (h : ∀ p b, b ∈ l → (f p b).1 = g p.1 b) (p : α × γ) : (l.foldl f p).1 = l.foldl g p.1 := by
  induction l generalizing p with
  | nil => rfl
  | cons b l ih =>
    rw [List.foldl_cons, List.foldl_cons, ih (fun p b hb => h p b (by simp [hb])), h p b (by simp)]

theorem foldl_map' {α β γ : Type} (f : α → γ → α) (g : β → γ) (l : List β) (a : α) :
    (l.map g).foldl f a = l.foldl (fun a b => f a (g b)) a := by
  rw [List.foldl_map]

theorem learn_blocks (m : SModel X Y) (cfg : Config) (lr : ℚ) (data : List (X × Y)) (st st' : St) (p : ℤ)
    (h : learn m cfg lr data st = .ok (st', p)) :
    ∃ bs, blocksOf cfg data = .ok bs ∧ st' = bs.foldl (blockStep m cfg lr data.length) st ∧
      (usesBatches cfg = true → bs ≠ [] → m.rescaleC = false) := by
  unfold learn at h
  unfold blocksOf
  by_cases hj : cfg.nJobs = 1
  · rw [if_pos hj] at h ⊢
    unfold sequentialLearning at h
    have online : ∀ (hu : usesBatches cfg = false),
        (data.foldl (onlineStep m cfg lr data.length) (st, 0)).1 =
          (data.map fun s => [s]).foldl (blockStep m cfg lr data.length) st := by
      intro hu
      rw [List.foldl_map]
      refine foldl_fst _ _ data ?_ _
      intro p s _
      unfold onlineStep blockStep blockDelta
      rw [hu, if_neg (by simp), if_pos hj]
      change solveSubgradient _ _ _ _ _ = solveSubgradient _ _ _ _ _
      congr 1
      funext k
      simp
    cases hb : cfg.batchSize with
    | none =>
      rw [hb] at h
      have hu : usesBatches cfg = false := by simp [usesBatches, hb]
      simp only [Except.ok.injEq] at h
      refine ⟨_, rfl, ?_, by simp [hu]⟩
      rw [← online hu, h]
    | some b =>
      rw [hb] at h
      simp only at h ⊢
      by_cases hb1 : b = 1
      · have hu : usesBatches cfg = false := by simp [usesBatches, hb, hb1]
        rw [if_pos hb1] at h ⊢
        rw [Except.ok.injEq] at h
        refine ⟨_, rfl, ?_, by simp [hu]⟩
        rw [← online hu, h]
      · have hu : usesBatches cfg = true := by simp [usesBatches, hb, hb1, hj]
        rw [if_neg hb1] at h ⊢
        cases hm : miniBatches data b with
        | error err => rw [hm] at h; cases h
        | ok bs =>
          rw [hm] at h
          simp only at h
          split_ifs at h with hr
          rw [Except.ok.injEq] at h
          refine ⟨bs, rfl, ?_, ?_⟩
          · have := foldl_fst (batchStep m cfg lr data.length b) (blockStep m cfg lr data.length) bs
              (fun p c _ => by
                unfold batchStep blockStep blockDelta
                rw [hu, if_pos rfl]) (st, 0)
            rw [h] at this
            exact this
          · intro _ hne
            by_contra hc
            exact hr ⟨by simpa using hc, hne⟩
  · rw [if_neg hj] at h ⊢
    unfold parallelLearning at h
    have hu : usesBatches cfg = false := by simp [usesBatches, hj]
    split_ifs at h with h1 h2
    cases hs : evenSlices data.length (ceilDiv data.length cfg.nJobs) with
    | error err => rw [hs] at h; cases h
    | ok sl =>
      rw [hs] at h
      simp only [Except.ok.injEq] at h
      refine ⟨_, rfl, ?_, by simp [hu]⟩
      have := foldl_fst (parallelStep m cfg lr data.length) (blockStep m cfg lr data.length) (cut data sl)
        (fun p c _ => by
          unfold parallelStep blockStep blockDelta
          rw [hu, if_neg (by simp), if_neg hj]) (st, 0)
      rw [h] at this
      exact this

/-- size restriction on the blocks: single samples, or the requested batch size, or the number of
jobs. -/
def BlockSize (cfg : Config) (n : ℕ) (b : List (X × Y)) : Prop :=
  b ≠ [] ∧
  (cfg.nJobs ≠ 1 → b.length ≤ cfg.nJobs) ∧
  (cfg.nJobs = 1 → cfg.batchSize = none → b.length = 1) ∧
  (cfg.nJobs = 1 → ∀ k, cfg.batchSize = some k → (k = -1 → b.length = n) ∧ (k ≠ -1 → (b.length : ℤ) ≤ k))

theorem blocks_partition (cfg : Config) (data : List (X × Y)) (hne : data ≠ [])
    (bs : List (List (X × Y))) (h : blocksOf cfg data = .ok bs) :
    bs.flatten = data ∧ ∀ b ∈ bs, BlockSize cfg data.length b := by
  have sing : (data.map fun s => [s]).flatten = data := by
    induction data with
    | nil => rfl
    | cons a l ih =>
      rw [List.map_cons, List.flatten_cons]
      by_cases hl : l = []
      · simp [hl]
      · rw [List.singleton_append]
        congr 1
        clear h ih hne hl
        induction l with
        | nil => rfl
        | cons a l ih => rw [List.map_cons, List.flatten_cons, ih]; rfl
  unfold blocksOf at h
  by_cases hj : cfg.nJobs = 1
  · rw [if_pos hj] at h
    cases hb : cfg.batchSize with
    | none =>
      rw [hb] at h
      simp only [Except.ok.injEq] at h
      subst h
      refine ⟨sing, ?_⟩
      intro b hbm
      obtain ⟨s, -, rfl⟩ := List.mem_map.mp hbm
      exact ⟨by simp, fun h => absurd hj h, fun _ _ => rfl, fun _ k hk => by simp [hb] at hk⟩
    | some k =>
      rw [hb] at h
      simp only at h
      by_cases hk : k = 1
      · rw [if_pos hk, Except.ok.injEq] at h
        subst h
        refine ⟨sing, ?_⟩
        intro b hbm
        obtain ⟨s, -, rfl⟩ := List.mem_map.mp hbm
        refine ⟨by simp, fun h => absurd hj h, fun _ _ => rfl, fun _ k' hk' => ?_⟩
        rw [hb, Option.some.injEq] at hk'
        subst hk'
        subst hk
        simp
      · rw [if_neg hk] at h
        obtain ⟨h1, h2, h3⟩ := (C50_minibatches data k).1 bs h
        refine ⟨h1, ?_⟩
        intro b hbm
        refine ⟨?_, fun h => absurd hj h, fun _ h => by simp [hb] at h, fun _ k' hk' => ?_⟩
        · by_cases hk1 : k = -1
          · have := h2 hk1
            subst this
            have : b = data := by simpa using hbm
            rw [this]; exact hne
          · exact ((h3 hk1).1 b hbm).1
        · rw [hb, Option.some.injEq] at hk'
          subst hk'
          refine ⟨?_, fun hk1 => ((h3 hk1).1 b hbm).2⟩
          intro hk1
          have := h2 hk1
          subst this
          have : b = data := by simpa using hbm
          rw [this]
  · rw [if_neg hj] at h
    cases hs : evenSlices data.length (ceilDiv data.length cfg.nJobs) with
    | error err => rw [hs] at h; cases h
    | ok sl =>
      rw [hs] at h
      simp only [Except.ok.injEq] at h
      subst h
      obtain ⟨-, h2, h3, -⟩ := (even_slices (cfg.nJobs : ℤ) data).1 sl hs
      refine ⟨h2, ?_⟩
      intro b hb
      exact ⟨(h3 b hb).1, fun _ => by exact_mod_cast (h3 b hb).2, fun h => absurd h hj,
        fun h => absurd h hj⟩

/-- number of blocks, that is of steps, in a pass over `n` samples. -/
def blockCount (cfg : Config) (n : ℕ) : ℤ :=
  if cfg.nJobs = 1 then
    match cfg.batchSize with
    | none => n
    | some k => if k = 1 then n else if k = -1 then 1 else ⌈(n : ℚ) / (k : ℚ)⌉
  else ⌈(n : ℚ) / (cfg.nJobs : ℚ)⌉

theorem genEvenSlices_length (n k : ℕ) (hk : 0 < k) (hkn : k ≤ n) :
    ∀ left pack start, (genEvenSlices n k left pack start).length = left := by
  have h1 : 0 < n / k := Nat.div_pos hkn hk
  intro left
  induction left with
  | zero => intro _ _; rfl
  | succ left ih =>
    intro pack start
    unfold genEvenSlices
    simp only
    rw [if_pos (by omega), List.length_cons, ih]

theorem evenSlices_length (b : ℤ) {α : Type} (data : List α) (sl : List (ℕ × ℕ))
    (h : evenSlices data.length (ceilDiv data.length b) = .ok sl) :
    ((cut data sl).length : ℤ) = ⌈(data.length : ℚ) / (b : ℚ)⌉ := by
  have hb := ((even_slices b data).1 sl h).1
  unfold evenSlices at h
  split_ifs at h with hc
  rw [Except.ok.injEq] at h
  subst h
  have hle : ceilDiv data.length b ≤ data.length := by
    unfold ceilDiv
    rw [Int.ceil_le]
    have h1 : (1 : ℚ) ≤ b := by exact_mod_cast hb
    have h2 : (0 : ℚ) ≤ data.length := by positivity
    push_cast
    exact div_le_self h2 h1
  unfold cut
  rw [List.length_map, genEvenSlices_length _ _ (by omega) (by omega)]
  change ((ceilDiv data.length b).toNat : ℤ) = ceilDiv data.length b
  omega

theorem blocks_count (cfg : Config) (data : List (X × Y)) (bs : List (List (X × Y)))
    (h : blocksOf cfg data = .ok bs) : (bs.length : ℤ) = blockCount cfg data.length := by
  unfold blocksOf at h
  unfold blockCount
  by_cases hj : cfg.nJobs = 1
  · rw [if_pos hj] at h ⊢
    cases hb : cfg.batchSize with
    | none =>
      rw [hb] at h
      simp only [Except.ok.injEq] at h
      subst h
      simp
    | some k =>
      rw [hb] at h
      simp only at h ⊢
      by_cases hk : k = 1
      · rw [if_pos hk, Except.ok.injEq] at h
        subst h
        simp [hk]
      · rw [if_neg hk] at h ⊢
        unfold miniBatches at h
        by_cases hk1 : k = -1
        · rw [if_pos hk1, Except.ok.injEq] at h
          subst h
          simp [hk1]
        · rw [if_neg hk1] at h ⊢
          split_ifs at h
          cases hs : evenSlices data.length (ceilDiv data.length k) with
          | error err => rw [hs] at h; cases h
          | ok sl =>
            rw [hs] at h
            simp only [Except.ok.injEq] at h
            subst h
            exact evenSlices_length k data sl hs
  · rw [if_neg hj] at h ⊢
    cases hs : evenSlices data.length (ceilDiv data.length cfg.nJobs) with
    | error err => rw [hs] at h; cases h
    | ok sl =>
      rw [hs] at h
      simp only [Except.ok.injEq] at h
      subst h
      exact evenSlices_length (cfg.nJobs : ℤ) data sl hs

/-- how a block is weighted: mini-batches by their mean, other blocks by their sum. -/
def blockScale (cfg : Config) (b : List (X × Y)) : ℚ :=
  if usesBatches cfg then 1 / b.length else 1

/-- The direction of a block is a negative multiple of a subgradient. -/
theorem delta_subgradient (m : SModel X Y) (outputs : X → Set Y)
    (hLA : (problemOf m outputs).ExactLossAug (fun x y w => m.lossAug x y w true))
    (cfg : Config) (b : List (X × Y)) (hne : b ≠ []) (hl : (problemOf m outputs).Labelled b)
    (hr : usesBatches cfg = true → m.rescaleC = false) (w : W) (c : ℚ) (hc : 0 ≤ c) :
    (problemOf m outputs).IsSubgradient (c * blockScale cfg b) b w
      (fun k => w k - c * blockDelta m cfg w b k) := by
  have hlen : (0 : ℚ) < b.length := by exact_mod_cast List.length_pos_iff.mpr hne
  have hex := fun c => objective_exists m outputs hLA b hl c w
  have hslope : ∀ s ∈ b, Slope (problemOf m outputs) w s
      (findConstraint m s.1 s.2 w none true true).delta :=
    fun s hs => slope_constraint m outputs hLA s w (hl s hs).1 (hl s hs).2
  unfold blockScale blockDelta
  by_cases hu : usesBatches cfg = true
  · rw [if_pos hu, if_pos hu]
    refine block_subgradient _ _ (by positivity) w b _ hslope (hex _) _ ?_
    intro k _
    have hf : ∀ x y yh, m.feat x yh y = m.jointFeature x yh := by
      intro x y yh; unfold SModel.feat; rw [hr hu]; rfl
    have hd : (b.map fun s => (findConstraint m s.1 s.2 w none true true).delta k).sum =
        (b.map fun s => m.jointFeature s.1 s.2 k).sum -
          (b.map fun s => m.jointFeature s.1 (m.lossAug s.1 s.2 w true) k).sum := by
      have : ∀ s : X × Y, (findConstraint m s.1 s.2 w none true true).delta k =
          1 * m.jointFeature s.1 s.2 k + (-1) * m.jointFeature s.1 (m.lossAug s.1 s.2 w true) k := by
        intro s
        change -m.feat _ _ _ k + m.feat _ _ _ k = _
        rw [hf, hf]; ring
      rw [List.map_congr_left (fun s _ => this s), list_sum_linear]
      ring
    rw [hd]
    unfold meanDelta
    field_simp
  · rw [if_neg hu, if_neg hu, mul_one]
    by_cases hj : cfg.nJobs = 1
    · rw [if_pos hj]
      exact block_subgradient _ _ hc w b _ hslope (hex _) _ fun k _ => rfl
    · rw [if_neg hj]
      refine block_subgradient _ _ hc w b (fun s k =>
        if 0 < (findConstraint m s.1 s.2 w none true true).slack then
          (findConstraint m s.1 s.2 w none true true).delta k else 0) ?_ (hex _) _ ?_
      · intro s hs
        by_cases hp : 0 < (findConstraint m s.1 s.2 w none true true).slack
        · simp only [hp, if_true]
          exact hslope s hs
        · simp only [hp, if_false]
          obtain ⟨h1, h2, -⟩ := C29_slack m outputs true hLA s.1 s.2 w (hl s hs).1 (hl s hs).2
          have h0 : (findConstraint m s.1 s.2 w none true true).slack = 0 :=
            le_antisymm (not_lt.mp hp) h2
          rw [h0] at h1
          exact slope_zero _ w s (hl s hs).1 (hl s hs).2 h1
      · intro k _
        congr 2
        clear hne hl hlen hex hslope
        induction b with
        | nil => rfl
        | cons s b ih =>
          rw [List.map_cons, List.map_cons, List.sum_cons, ← ih, List.filter_cons]
          by_cases hp : 0 < (findConstraint m s.1 s.2 w none true true).slack
          · simp [hp]
          · simp [hp]

/-! ### whole runs -/

theorem loop_run (m : SModel X Y) (cfg : Config) (lr : ℚ) (order : ℕ → List (X × Y))
    (samples : List (X × Y)) (hne : samples ≠ []) (hord : ∀ it, (order it).Perm samples) :
    ∀ n it data st c data' st' c', data.Perm samples → (cfg.shuffle = false → data = samples) →
      loop m cfg lr order n it data st c = .ok (data', st', c') →
      data'.Perm samples ∧ ∃ passes : List (List (List (X × Y))),
        passes.length ≤ n ∧ (cfg.breakOnNoConstraints = false → passes.length = n) ∧
        (∀ p ∈ passes, p.flatten.Perm samples ∧ (cfg.shuffle = false → p.flatten = samples) ∧
          (p.length : ℤ) = blockCount cfg samples.length ∧
          (∀ b ∈ p, BlockSize cfg samples.length b) ∧
          (usesBatches cfg = true → m.rescaleC = false)) ∧
        st' = passes.flatten.foldl (blockStep m cfg lr samples.length) st := by
  intro n
  induction n with
  | zero =>
    intro it data st c data' st' c' hd _ h
    unfold loop at h
    simp only [Except.ok.injEq, Prod.mk.injEq] at h
    obtain ⟨rfl, rfl, rfl⟩ := h
    exact ⟨hd, [], by simp, by simp, by simp, rfl⟩
  | succ n ih =>
    intro it data st c data' st' c' hd hsh h
    unfold loop at h
    simp only at h
    set dat := if cfg.shuffle = true then order it else data with hdat
    have hdp : dat.Perm samples := by
      rw [hdat]; split_ifs
      · exact hord it
      · exact hd
    have hds : cfg.shuffle = false → dat = samples := by
      intro h0
      rw [hdat, if_neg (by simp [h0])]
      exact hsh h0
    have hdne : dat ≠ [] := by
      intro h0
      rw [h0] at hdp
      exact hne (List.Perm.nil_eq hdp).symm
    cases hl : learn m cfg lr dat st with
    | error err => rw [hl] at h; cases h
    | ok r =>
      obtain ⟨st1, pos⟩ := r
      rw [hl] at h
      simp only at h
      obtain ⟨bs, hb, hst, hr⟩ := learn_blocks m cfg lr dat st st1 pos hl
      obtain ⟨hf, hsz⟩ := blocks_partition cfg dat hdne bs hb
      have hbne : bs ≠ [] := by
        intro h0; rw [h0] at hf; exact hdne hf.symm
      have hcnt := blocks_count cfg dat bs hb
      rw [hdp.length_eq] at hst hsz hcnt
      have hpass : bs.flatten.Perm samples ∧ (cfg.shuffle = false → bs.flatten = samples) ∧
          (bs.length : ℤ) = blockCount cfg samples.length ∧
          (∀ b ∈ bs, BlockSize cfg samples.length b) ∧
          (usesBatches cfg = true → m.rescaleC = false) :=
        ⟨hf ▸ hdp, fun h0 => hf.trans (hds h0), hcnt, hsz, fun hu => hr hu hbne⟩
      split_ifs at h with hbr
      · simp only [Except.ok.injEq, Prod.mk.injEq] at h
        obtain ⟨rfl, rfl, rfl⟩ := h
        refine ⟨hdp, [bs], by simp, ?_, by simpa using hpass, by simpa using hst⟩
        intro h0
        rw [h0] at hbr
        simp at hbr
      · cases ho : objectivePrimal m st1.selfW dat cfg.C true with
        | error err => rw [ho] at h; cases h
        | ok obj =>
          rw [ho] at h
          simp only at h
          obtain ⟨h1, passes, h2, h2', h3, h4⟩ := ih _ _ _ _ _ _ _ hdp hds h
          refine ⟨h1, bs :: passes, by simpa using h2, fun h0 => by simpa using h2' h0, ?_, ?_⟩
          · intro p hp
            rcases List.mem_cons.mp hp with rfl | hp
            · exact hpass
            · exact h3 p hp
          · rw [List.flatten_cons, List.foldl_append, ← hst]
            exact h4

/-- state after the first `t` blocks. -/
def stateAt (m : SModel X Y) (cfg : Config) (lr : ℚ) (n : ℕ) (blocks : List (List (X × Y))) (st : St)
    (t : ℕ) : St :=
  (blocks.take t).foldl (blockStep m cfg lr n) st

theorem stateAt_succ (m : SModel X Y) (cfg : Config) (lr : ℚ) (n : ℕ) (blocks : List (List (X × Y)))
    (st : St) (t : ℕ) (ht : t < blocks.length) :
    stateAt m cfg lr n blocks st (t + 1) =
      blockStep m cfg lr n (stateAt m cfg lr n blocks st t) blocks[t] := by
  unfold stateAt
  rw [← List.take_concat_get' _ _ ht, List.foldl_append]
  rfl

theorem stateAt_t (m : SModel X Y) (cfg : Config) (lr : ℚ) (n : ℕ) (blocks : List (List (X × Y)))
    (st : St) (t : ℕ) (ht : t ≤ blocks.length) :
    (stateAt m cfg lr n blocks st t).t = st.t + t := by
  induction t with
  | zero => rfl
  | succ t ih =>
    rw [stateAt_succ m cfg lr n blocks st t ht]
    change (stateAt m cfg lr n blocks st t).t + 1 = _
    rw [ih (by omega)]
    omega

theorem stateAt_descent (m : SModel X Y) (outputs : X → Set Y)
    (hLA : (problemOf m outputs).ExactLossAug (fun x y w => m.lossAug x y w true))
    (cfg : Config) (lr : ℚ) (n : ℕ) (hC : 0 < cfg.C) (hn : 0 < n) (blocks : List (List (X × Y)))
    (hb : ∀ b ∈ blocks, b ≠ [] ∧ (problemOf m outputs).Labelled b ∧
      (usesBatches cfg = true → m.rescaleC = false)) (st : St) (hg : ∀ k, st.gradOld k = 0) :
    (problemOf m outputs).IsDescent (fun b => cfg.C * n * blockScale cfg b) cfg.momentum
      (fun t => lr / cfg.decay (st.t + t) / (cfg.C * n)) blocks
      (fun t => (stateAt m cfg lr n blocks st t).w) := by
  have hn' : (0 : ℚ) < n := by exact_mod_cast hn
  refine ⟨fun t k => if h : t < blocks.length then (stateAt m cfg lr n blocks st t).w k - cfg.C * n *
      blockDelta m cfg (stateAt m cfg lr n blocks st t).w blocks[t] k else 0,
    fun t k => cfg.C * n * (stateAt m cfg lr n blocks st t).gradOld k, ?_, ?_⟩
  · intro k
    change cfg.C * n * st.gradOld k = 0
    rw [hg k, mul_zero]
  · intro t ht
    obtain ⟨h1, h2, h3⟩ := hb blocks[t] (List.getElem_mem ht)
    refine ⟨?_, ?_⟩
    · simp only [ht, dif_pos]
      exact delta_subgradient m outputs hLA cfg blocks[t] h1 h2 h3 _ (cfg.C * n) (by positivity)
    · intro k
      simp only [ht, dif_pos]
      rw [stateAt_succ m cfg lr n blocks st t ht]
      have ht' := stateAt_t m cfg lr n blocks st t ht.le
      unfold blockStep solveSubgradient
      simp only
      rw [ht']
      constructor
      · field_simp
        ring
      · field_simp

/-- weighted mean of the iterates `1, …, T`. -/
def weightedMean (c : ℕ → ℚ) (ws : ℕ → W) (T : ℕ) (k : ℕ) : ℚ :=
  (∑ j ∈ range T, c (j + 1) * ws (j + 1) k) / ∑ j ∈ range T, c (j + 1)

/-- extend a recurrence that holds for `t < T` to all `t`. -/
theorem linear_average_upto (a v : ℕ → ℚ) (T : ℕ)
    (h : ∀ t < T, a (t + 1) = (1 - 2 / ((t : ℚ) + 2)) * a t + 2 / ((t : ℚ) + 2) * v t) :
    (∑ j ∈ range T, ((j : ℚ) + 1)) * a T = ∑ j ∈ range T, ((j : ℚ) + 1) * v j := by
  let a' : ℕ → ℚ := fun t => Nat.rec (a 0)
    (fun t r => (1 - 2 / ((t : ℚ) + 2)) * r + 2 / ((t : ℚ) + 2) * v t) t
  have he : ∀ t ≤ T, a' t = a t := by
    intro t
    induction t with
    | zero => intro _; rfl
    | succ t ih =>
      intro ht
      rw [h t (by omega), ← ih (by omega)]
  rw [← he T le_rfl]
  exact linear_average a' v (fun t => rfl) T

theorem squared_average_upto (a v : ℕ → ℚ) (T : ℕ)
    (h : ∀ t < T, a (t + 1) = (1 - 6 * ((t : ℚ) + 1) / (((t : ℚ) + 2) * (2 * t + 3))) * a t +
      6 * ((t : ℚ) + 1) / (((t : ℚ) + 2) * (2 * t + 3)) * v t) :
    (∑ j ∈ range T, ((j : ℚ) + 1) ^ 2) * a T = ∑ j ∈ range T, ((j : ℚ) + 1) ^ 2 * v j := by
  let a' : ℕ → ℚ := fun t => Nat.rec (a 0)
    (fun t r => (1 - 6 * ((t : ℚ) + 1) / (((t : ℚ) + 2) * (2 * t + 3))) * r +
      6 * ((t : ℚ) + 1) / (((t : ℚ) + 2) * (2 * t + 3)) * v t) t
  have he : ∀ t ≤ T, a' t = a t := by
    intro t
    induction t with
    | zero => intro _; rfl
    | succ t ih =>
      intro ht
      rw [h t (by omega), ← ih (by omega)]
  rw [← he T le_rfl]
  exact squared_average a' v (fun t => rfl) T

theorem stateAt_average (m : SModel X Y) (cfg : Config) (lr : ℚ) (n : ℕ)
    (blocks : List (List (X × Y))) (st : St) (h0 : st.t = 0) (hT : 0 < blocks.length) :
    (cfg.averaging = .linear → ∀ k, (stateAt m cfg lr n blocks st blocks.length).selfW k =
      weightedMean (fun j => j) (fun t => (stateAt m cfg lr n blocks st t).w) blocks.length k) ∧
    (cfg.averaging = .squared → ∀ k, (stateAt m cfg lr n blocks st blocks.length).selfW k =
      weightedMean (fun j => (j : ℚ) ^ 2) (fun t => (stateAt m cfg lr n blocks st t).w)
        blocks.length k) := by
  set S := stateAt m cfg lr n blocks st with hS
  set T := blocks.length with hTdef
  constructor
  · intro ha k
    have := linear_average_upto (fun t => (S t).selfW k) (fun t => (S (t + 1)).w k) T (by
      intro t ht
      have h1 := stateAt_t m cfg lr n blocks st t ht.le
      rw [h0, Nat.zero_add] at h1
      simp only [hS]
      rw [stateAt_succ m cfg lr n blocks st t ht]
      unfold blockStep solveSubgradient
      simp only [ha]
      rw [h1])
    unfold weightedMean
    push_cast
    rw [← this, mul_comm, mul_div_assoc, div_self, mul_one]
    apply ne_of_gt
    exact sum_pos (fun j _ => by positivity) ⟨0, mem_range.mpr hT⟩
  · intro ha k
    have := squared_average_upto (fun t => (S t).selfW k) (fun t => (S (t + 1)).w k) T (by
      intro t ht
      have h1 := stateAt_t m cfg lr n blocks st t ht.le
      rw [h0, Nat.zero_add] at h1
      simp only [hS]
      rw [stateAt_succ m cfg lr n blocks st t ht]
      unfold blockStep solveSubgradient
      simp only [ha]
      rw [h1])
    unfold weightedMean
    push_cast
    rw [← this, mul_comm, mul_div_assoc, div_self, mul_one]
    apply ne_of_gt
    exact sum_pos (fun j _ => by positivity) ⟨0, mem_range.mpr hT⟩

/-- **C48 and C49 for SubgradientSSVM.** A successful `fit` (fresh, repeated or warm started; online,
mini-batch or parallel) with exact loss-augmented inference performs subgradient descent: it makes at most
`max_iter` passes, each of which splits all samples into as many blocks as the sizes ask for; each block leads to one step along a
negative subgradient (with momentum) of the risk of this block with constant `C · n` — for a mini-batch of
`b` samples with `C · n / b`, so the risk of the whole data if the batch is the whole data. The resulting
`w` is the last iterate without averaging; for a learner that never was fitted before, with linear or
squared averaging it is the weighted mean of the iterates with weights `1, 2, 3, …` or `1, 4, 9, …`. The
last entry of the objective curve is the objective of the resulting `w`. -/
theorem C48_fit (m : SModel X Y) (outputs : X → Set Y)
    (hLA : (problemOf m outputs).ExactLossAug (fun x y w => m.lossAug x y w true))
    (order : ℕ → List (X × Y)) (samples : List (X × Y)) (hne : samples ≠ [])
    (hl : (problemOf m outputs).Labelled samples) (hord : ∀ it, (order it).Perm samples)
    (o o' : Obj) (hC : 0 < o.cfg.C) (warm : Bool) (h : Subgradient.fit m order o samples warm = .ok o') :
    ∃ (lr : ℚ) (passes : List (List (List (X × Y)))) (ws : ℕ → W) (w : W),
      o'.lr = some lr ∧ (warm = true → o.lr = some lr) ∧
      (warm = false → lr = (o.cfg.learningRate.getD (o.cfg.C * samples.length))) ∧
      passes.length ≤ o.cfg.maxIter ∧
      (o.cfg.breakOnNoConstraints = false → passes.length = o.cfg.maxIter) ∧
      (∀ p ∈ passes, p.flatten.Perm samples ∧ (o.cfg.shuffle = false → p.flatten = samples) ∧
        (p.length : ℤ) = blockCount o.cfg samples.length ∧ ∀ b ∈ p, BlockSize o.cfg samples.length b) ∧
      ws 0 = o.w.getD (fun _ => 0) ∧
      (problemOf m outputs).IsDescent (fun b => o.cfg.C * samples.length * blockScale o.cfg b)
        o.cfg.momentum (fun t => lr / o.cfg.decay (o.t + t) / (o.cfg.C * samples.length))
        passes.flatten ws ∧
      o'.t = o.t + passes.flatten.length ∧ o'.w = some w ∧
      (o.cfg.averaging = .none → w = ws passes.flatten.length) ∧
      (o.cfg.averaging = .linear → o.t = 0 → passes ≠ [] → ∀ k,
        w k = weightedMean (fun j => j) ws passes.flatten.length k) ∧
      (o.cfg.averaging = .squared → o.t = 0 → passes ≠ [] → ∀ k,
        w k = weightedMean (fun j => (j : ℚ) ^ 2) ws passes.flatten.length k) ∧
      ∃ obj, o'.curves.objective.getLast? = some obj ∧
        (problemOf m outputs).IsObjective o.cfg.C samples w obj := by
  unfold Subgradient.fit at h
  simp only at h
  set w0 : W := o.w.getD (fun _ => 0) with hw0
  cases hs : Subgradient.setup o samples.length warm with
  | error err => rw [hs] at h; cases h
  | ok r =>
    obtain ⟨lr, curve⟩ := r
    rw [hs] at h
    simp only at h
    have hlr : (warm = true → o.lr = some lr) ∧
        (warm = false → lr = (o.cfg.learningRate.getD (o.cfg.C * samples.length))) := by
      unfold Subgradient.setup at hs
      cases warm with
      | true =>
        rw [if_pos rfl] at hs
        cases hol : o.lr with
        | none => rw [hol] at hs; cases hs
        | some l =>
          rw [hol] at hs
          simp only [Except.ok.injEq, Prod.mk.injEq] at hs
          simp [hs.1]
      | false =>
        rw [if_neg (by simp)] at hs
        simp only [Except.ok.injEq, Prod.mk.injEq] at hs
        exact ⟨by simp, fun _ => hs.1.symm⟩
    cases hlp : loop m o.cfg lr order o.cfg.maxIter 0 samples ⟨w0, fun _ => 0, w0, o.t⟩
        ⟨curve, o.curves.loss⟩ with
    | error err => rw [hlp] at h; cases h
    | ok r =>
      obtain ⟨data', st', c'⟩ := r
      rw [hlp] at h
      simp only at h
      obtain ⟨hdp, passes, h1, h1', h2, h3⟩ :=
        loop_run m o.cfg lr order samples hne hord _ _ _ _ _ _ _ _ (List.Perm.refl _) (fun _ => rfl) hlp
      cases ho : objectivePrimal m st'.selfW data' o.cfg.C true with
      | error err => rw [ho] at h; cases h
      | ok obj =>
        rw [ho] at h
        simp only [Except.ok.injEq] at h
        subst h
        have hn : 0 < samples.length := List.length_pos_iff.mpr hne
        have hfull : st' = stateAt m o.cfg lr samples.length passes.flatten
            ⟨w0, fun _ => 0, w0, o.t⟩ passes.flatten.length := by
          rw [h3]; unfold stateAt; rw [List.take_length]
        have hTpos : passes ≠ [] → 0 < passes.flatten.length := by
          intro hp
          rw [List.length_pos_iff]
          intro h0
          obtain ⟨p, hp⟩ := List.exists_mem_of_ne_nil _ hp
          have hpf := (h2 p hp).1
          have : p = [] := by
            by_contra hne'
            obtain ⟨b, hb⟩ := List.exists_mem_of_ne_nil _ hne'
            have : b ∈ passes.flatten := List.mem_flatten.mpr ⟨p, hp, hb⟩
            rw [h0] at this
            simp at this
          rw [this] at hpf
          exact hne (List.Perm.nil_eq hpf).symm
        refine ⟨lr, passes, fun t => (stateAt m o.cfg lr samples.length passes.flatten
          ⟨w0, fun _ => 0, w0, o.t⟩ t).w, st'.selfW, rfl, hlr.1, hlr.2, h1, h1',
          fun p hp => ⟨(h2 p hp).1, (h2 p hp).2.1, (h2 p hp).2.2.1, (h2 p hp).2.2.2.1⟩, rfl, ?_, ?_, rfl, ?_, ?_, ?_, ?_⟩
        · refine stateAt_descent m outputs hLA o.cfg lr samples.length hC hn passes.flatten ?_
            ⟨w0, fun _ => 0, w0, o.t⟩ (fun _ => rfl)
          intro b hb
          obtain ⟨p, hp, hbp⟩ := List.mem_flatten.mp hb
          obtain ⟨g1, g2, -, g3, g4⟩ := h2 p hp
          refine ⟨(g3 b hbp).1, ?_, g4⟩
          intro s hs
          exact hl s (g1.mem_iff.mp (List.mem_flatten.mpr ⟨b, hbp, hs⟩))
        · simp only
          rw [hfull, stateAt_t _ _ _ _ _ _ _ le_rfl]
        · intro ha
          rw [hfull]
          cases hT : passes.flatten.length with
          | zero => rfl
          | succ t =>
            have e : ∀ (S : St) b, (blockStep m o.cfg lr samples.length S b).selfW =
                (blockStep m o.cfg lr samples.length S b).w := by
              intro S b
              unfold blockStep solveSubgradient
              simp only [ha]
            simp only [stateAt_succ m o.cfg lr samples.length passes.flatten _ t (by omega : t < _)]
            exact e _ _
        · intro ha ht hp k
          rw [hfull]
          exact (stateAt_average m o.cfg lr samples.length passes.flatten _ ht (hTpos hp)).1 ha k
        · intro ha ht hp k
          rw [hfull]
          exact (stateAt_average m o.cfg lr samples.length passes.flatten _ ht (hTpos hp)).2 ha k
        · refine ⟨obj, by simp, ?_⟩
          have hne' : data' ≠ [] := by
            intro h0; rw [h0] at hdp; exact hne (List.Perm.nil_eq hdp).symm
          have hpo := objectivePrimal_ok m st'.selfW data' o.cfg.C true hne'
          rw [ho, Except.ok.injEq] at hpo
          refine ⟨samples.map (sampleSlack m st'.selfW), ?_, ?_⟩
          · rw [List.forall₂_map_right_iff, List.forall₂_same]
            intro s hs
            exact (C29_slack m outputs true hLA s.1 s.2 _ (hl s hs).1 (hl s hs).2).1
          · rw [hpo, (hdp.map (sampleSlack m st'.selfW)).sum_eq]
            have : ∑ k ∈ range m.dim, st'.selfW k ^ 2 = ∑ k ∈ range m.dim, st'.selfW k * st'.selfW k :=
              sum_congr rfl fun k _ => by ring
            rw [this]
            change _ = (∑ k ∈ range m.dim, st'.selfW k * st'.selfW k) / 2 + _
            ring

/-- **C66.** With `break_on_no_constraints`, an online or parallel run that stops before its last pass
found no violated constraint in its last pass. Here: the number of positive slacks that decides about
stopping is zero exactly if every sample had slack zero when it was visited (online mode). -/
theorem C66_online_stop (m : SModel X Y) (cfg : Config) (lr : ℚ) (data : List (X × Y)) (st st' : St) (p : ℤ)
    (hj : cfg.nJobs = 1) (hb : cfg.batchSize = none ∨ cfg.batchSize = some 1)
    (h : learn m cfg lr data st = .ok (st', p)) :
    p = 0 ↔ ∀ t (ht : t < data.length), sampleSlack m
      (stateAt m cfg lr data.length (data.map fun s => [s]) st t).w data[t] = 0 := by
  have hu : usesBatches cfg = false := by rcases hb with h | h <;> simp [usesBatches, h]
  have hseq : learn m cfg lr data st = .ok (data.foldl (onlineStep m cfg lr data.length) (st, 0)) := by
    unfold learn sequentialLearning
    rw [if_pos hj]
    rcases hb with h | h <;> rw [h] <;> simp
  rw [hseq, Except.ok.injEq] at h
  set n := data.length with hn
  have main : ∀ (l : List (X × Y)) (q : St × ℤ), 0 ≤ q.2 →
      0 ≤ (l.foldl (onlineStep m cfg lr n) q).2 ∧
      ((l.foldl (onlineStep m cfg lr n) q).2 = 0 ↔ q.2 = 0 ∧ ∀ t (ht : t < l.length), sampleSlack m
        (stateAt m cfg lr n (l.map fun s => [s]) q.1 t).w l[t] = 0) := by
    intro l
    induction l with
    | nil => intro q hq; exact ⟨hq, by simp⟩
    | cons s l ih =>
      intro q hq
      rw [List.foldl_cons]
      have hq' : 0 ≤ (onlineStep m cfg lr n q s).2 := by
        unfold onlineStep
        simp only
        split_ifs <;> omega
      obtain ⟨i1, i2⟩ := ih _ hq'
      refine ⟨i1, i2.trans ?_⟩
      have hz : (onlineStep m cfg lr n q s).2 = 0 ↔ q.2 = 0 ∧ sampleSlack m q.1.w s = 0 := by
        have h0 := sampleSlack_nonneg m q.1.w s
        unfold onlineStep
        change (if 0 < sampleSlack m q.1.w s then q.2 + 1 else q.2) = 0 ↔ _
        split_ifs with hp
        · constructor
          · intro; omega
          · rintro ⟨-, h⟩; rw [h] at hp; exact absurd hp (lt_irrefl _)
        · constructor
          · intro h; exact ⟨h, le_antisymm (not_lt.mp hp) h0⟩
          · exact fun h => h.1
      have hstep : (onlineStep m cfg lr n q s).1 = blockStep m cfg lr n q.1 [s] := by
        unfold onlineStep blockStep blockDelta
        rw [hu, if_neg (by simp), if_pos hj]
        change solveSubgradient _ _ _ _ _ = solveSubgradient _ _ _ _ _
        congr 1
        funext k
        simp
      rw [hz, hstep, and_assoc]
      constructor
      · rintro ⟨a, b, c⟩
        refine ⟨a, ?_⟩
        intro t ht
        cases t with
        | zero => exact b
        | succ t => exact c t (by simpa using ht)
      · rintro ⟨a, b⟩
        exact ⟨a, b 0 (by simp), fun t ht => b (t + 1) (by simpa using ht)⟩
  have := (main data (st, 0) le_rfl).2
  rw [h] at this
  simpa using this

/-- **C66 fails for mini-batches.** Every mini-batch counts as `batch_size` positive slacks whatever its
violations, so a mini-batch pass never stops training. -/
theorem C66_violated_minibatch (m : SModel X Y) (cfg : Config) (lr : ℚ) (data : List (X × Y)) (st st' : St)
    (p b : ℤ) (hne : data ≠ []) (hj : cfg.nJobs = 1) (hb : cfg.batchSize = some b) (hb1 : b ≠ 1)
    (h : learn m cfg lr data st = .ok (st', p)) : p ≠ 0 := by
  unfold learn sequentialLearning at h
  rw [if_pos hj, hb] at h
  simp only [hb1, if_false] at h
  cases hm : miniBatches data b with
  | error err => rw [hm] at h; cases h
  | ok bs =>
    rw [hm] at h
    simp only at h
    split_ifs at h
    rw [Except.ok.injEq] at h
    have hcount : ∀ (l : List (List (X × Y))) (q : St × ℤ),
        (l.foldl (batchStep m cfg lr data.length b) q).2 = q.2 + b * l.length := by
      intro l
      induction l with
      | nil => intro q; simp
      | cons c l ih =>
        intro q
        rw [List.foldl_cons, ih]
        change q.2 + b + _ = _
        rw [List.length_cons]
        push_cast
        ring
    have h1 := hcount bs (st, 0)
    rw [h] at h1
    have hf := ((C50_minibatches data b).1 bs hm).1
    have hbs : bs.length ≠ 0 := by
      intro h0
      rw [List.length_eq_zero_iff.mp h0] at hf
      exact hne hf.symm
    have hb0 : b ≠ 0 := by
      intro h0
      rw [h0] at hm
      simp [miniBatches] at hm
    simp only [zero_add] at h1
    rw [h1]
    exact mul_ne_zero hb0 (by exact_mod_cast hbs)

/-! ### refitting, non-vacuity -/

/-- A fresh learner for the examples: `C = 1`, no momentum, step length 1 (relative to `1/(C n)`). -/
def exampleSG (maxIter : ℕ) (jobs : ℕ) (batch : Option ℤ) (avg : Averaging) : Subgradient.Obj :=
  ⟨⟨maxIter, 1, 0, some 1, fun t => t + 1, false, batch, avg, false, jobs, 0⟩, none, 0, none, ⟨[], []⟩⟩

/-- One sample of class 1, and the same sample with class 0. -/
def sgA : List ((ℕ → ℚ) × ℕ) := [(fun k => if k = 0 then 1 else 0, 1)]
@[inherit_doc sgA] def sgB : List ((ℕ → ℚ) × ℕ) := [(fun k => if k = 0 then 1 else 0, 0)]

/-- **C51 does not hold for SubgradientSSVM.** A learner fitted on `sgA` and then, without warm start, on
`sgB` has other weights than a fresh learner fitted on `sgB`. -/
theorem C51_violated_subgradient :
    ∃ o1 o2 o3,
      Subgradient.fit (multiClassModel exampleClf) (fun _ => sgA) (exampleSG 1 1 none .none) sgA false =
        .ok o1 ∧
      Subgradient.fit (multiClassModel exampleClf) (fun _ => sgB) o1 sgB false = .ok o2 ∧
      Subgradient.fit (multiClassModel exampleClf) (fun _ => sgB) (exampleSG 1 1 none .none) sgB false =
        .ok o3 ∧
      o2.w ≠ o3.w ∧ o2.t ≠ o3.t := by
  have key : (do
      let o1 ← Subgradient.fit (multiClassModel exampleClf) (fun _ => sgA) (exampleSG 1 1 none .none) sgA false
      let o2 ← Subgradient.fit (multiClassModel exampleClf) (fun _ => sgB) o1 sgB false
      let o3 ← Subgradient.fit (multiClassModel exampleClf) (fun _ => sgB) (exampleSG 1 1 none .none) sgB false
      pure (decide (o2.w.map (· 0) = o3.w.map (· 0)), decide (o2.t = o3.t)) :
        Except PyErr (Bool × Bool)) = .ok (false, false) := by decide +kernel
  obtain ⟨o1, h1, key⟩ := bind_eq_ok.mp key
  obtain ⟨o2, h2, key⟩ := bind_eq_ok.mp key
  obtain ⟨o3, h3, key⟩ := bind_eq_ok.mp key
  injection key with key
  simp only [Prod.mk.injEq, decide_eq_false_iff_not] at key
  exact ⟨o1, o2, o3, h1, h2, h3, fun h => key.1 (by rw [h]), key.2⟩

/-- training succeeds in all modes, with all kinds of averaging. -/
example : ∀ avg ∈ [Averaging.none, .linear, .squared],
    ∀ jb ∈ [(1, none), (1, some 1), (1, some (-1)), (1, some 2), (2, none)],
    (Subgradient.fit (multiClassModel exampleClf) (fun _ => exampleSamples)
      (exampleSG 2 jb.1 jb.2 avg) exampleSamples false).toOption.isSome = true := by decide +kernel

/-- linear averaging of three online steps on one sample: the first weight is a mean with weights 1, 2, 3. -/
example : (Subgradient.fit (multiClassModel exampleClf) (fun _ => sgB)
      (exampleSG 3 1 none .linear) sgB false).toOption.map (fun o => (o.curves.objective, o.w.map (· 0))) =
    (Subgradient.fit (multiClassModel exampleClf) (fun _ => sgB)
      (exampleSG 3 1 none .linear) sgB false).toOption.map (fun o => (o.curves.objective,
        some ((1 * 1 + 2 * (1 / 2) + 3 * (2 / 3)) / 6))) := by decide +kernel

/-- warm starting a learner that was never fitted raises. -/
example : (Subgradient.fit (multiClassModel exampleClf) (fun _ => sgB)
      (exampleSG 3 1 none .linear) sgB true) = .error .attributeError := rfl

end Verif.Props
