import Verif.Model.SubgradientLatent
import Verif.Model.LatentNode
import Verif.Props.C33
import Verif.Props.C48
import Verif.Props.C57

/-!
# C58, C81, C82, C83: scores of latent learners, SubgradientLatentSSVM
-/

namespace Verif.Props

open Finset Verif.Spec Verif.Common Verif.Learner Verif.LatentSSVM Verif.SubgradientLatent

variable {X Y H : Type}

/-! ### C58: scores -/

/-- a structured model with given losses, to reuse the theorems on `BaseSSVM.score`. -/
def lossOnly (X : Type) (loss : Y → Y → ℚ) (maxLoss : Y → ℚ) (y : Y) : SModel X Y where
  dim := 0
  jointFeature := fun _ _ _ => 0
  rescaleC := false
  jointFeatureR := fun _ _ _ _ => 0
  lossAug := fun _ _ _ _ => y
  inference := fun _ _ => y
  isTuple := fun _ => false
  loss := loss
  continuousLoss := loss
  maxLoss := maxLoss

/-- **C58 for LatentSSVM.** If `base_loss` and `max_loss` are those of `StructuredModel` (positive class weights,
or none) and predicted labellings have the right length, the score lies in [0, 1] and is 1 exactly if every
label of every prediction is correct. -/
theorem C58_latent_ssvm (L : LModel X Labels H) (w : W) (cw : Option Vec) (samples : List (X × Labels))
    (hm : ∀ p ∈ (samples.map Prod.snd).zip (LatentSSVM.predict L w (samples.map Prod.fst)),
      Loss.loss cw p.1 p.2 = .ok (L.baseLoss p.1 p.2))
    (hM : ∀ s ∈ samples, Loss.maxLoss cw s.2 = .ok (L.maxLoss s.2))
    (hcw : ∀ c, cw = some c → ∀ k < c.size, 0 < c.get k) (hsome : ∃ s ∈ samples, 0 < s.2.size) :
    0 ≤ LatentSSVM.score L w samples ∧ LatentSSVM.score L w samples ≤ 1 ∧
      (LatentSSVM.score L w samples = 1 ↔
        ∀ s ∈ samples, ∀ i < s.2.size, (L.labelFromLatent (L.m.inference s.1 w)).get i = s.2.get i) := by
  have e : LatentSSVM.score L w samples = Learner.score (lossOnly X L.baseLoss L.maxLoss ⟨0, fun _ => 0⟩)
      (samples.map Prod.snd) (LatentSSVM.predict L w (samples.map Prod.fst)) := by
    unfold LatentSSVM.score Learner.score
    rw [List.map_map]
    rfl
  have hz : (samples.map Prod.snd).zip (LatentSSVM.predict L w (samples.map Prod.fst)) =
      samples.map fun s => (s.2, L.labelFromLatent (L.m.inference s.1 w)) := by
    unfold LatentSSVM.predict Learner.predict
    rw [List.map_map, List.map_map, List.zip_map']
    rfl
  obtain ⟨h1, h2, h3⟩ := C28_hamming (lossOnly X L.baseLoss L.maxLoss ⟨0, fun _ => 0⟩) cw (samples.map Prod.snd)
    (LatentSSVM.predict L w (samples.map Prod.fst)) hm (by
      intro y hy
      obtain ⟨s, hs, rfl⟩ := List.mem_map.mp hy
      exact hM s hs) hcw (by simp [LatentSSVM.predict, Learner.predict]) (by
      obtain ⟨s, hs, h⟩ := hsome
      exact ⟨s.2, List.mem_map_of_mem hs, h⟩)
  rw [e]
  refine ⟨h1, h2, h3.trans ?_⟩
  rw [hz]
  constructor
  · intro h s hs i hi
    exact h _ (List.mem_map_of_mem hs) i hi
  · intro h p hp i hi
    obtain ⟨s, hs, rfl⟩ := List.mem_map.mp hp
    exact h s hs i hi

theorem node_labels_of_labels {nL : ℕ} {y : Labels} (h : ∀ i < y.size, y.get i < nL) :
    (LatentNode.labelFromLatent nL y).size = y.size ∧
    ∀ i < y.size, (LatentNode.labelFromLatent nL y).get i = y.get i := by
  have hf : (List.range y.size).filter (fun i => y.get i < nL) = List.range y.size := by
    rw [List.filter_eq_self]
    intro i hi
    simpa using h i (List.mem_range.mp hi)
  unfold LatentNode.labelFromLatent
  simp only [hf]
  refine ⟨by simp, fun i hi => ?_⟩
  rw [List.getD_eq_getElem?_getD]
  simp [hi]

/-- **C58 for SubgradientLatentSSVM with LatentNodeCRF.** Since a labelling is its own label, passing true labels
to `model.loss` is harmless: the score lies in [0, 1] and is 1 exactly if every label of every prediction is
correct. -/
theorem C58_latent_node (L : SLModel X Labels Labels) (nL : ℕ) (cw : Vec) (w : W) (samples : List (X × Labels))
    (hloss : ∀ s ∈ samples, LatentNode.loss nL cw s.2 (L.m.inference s.1 w) =
      .ok (L.lossLabel s.2 (L.m.inference s.1 w)))
    (hmax : ∀ s ∈ samples, LatentNode.maxLoss nL cw s.2 = .ok (L.maxLoss s.2))
    (hlab : ∀ s ∈ samples, ∀ i < s.2.size, s.2.get i < nL)
    (hcw : ∀ k < cw.size, 0 < cw.get k) (hsome : ∃ s ∈ samples, 0 < s.2.size) :
    0 ≤ SubgradientLatent.score L w samples ∧ SubgradientLatent.score L w samples ≤ 1 ∧
      (SubgradientLatent.score L w samples = 1 ↔ ∀ s ∈ samples, ∀ i < s.2.size,
        (LatentNode.labelFromLatent nL (L.m.inference s.1 w)).get i = s.2.get i) := by
  set lf := LatentNode.labelFromLatent nL with hlf
  let m' : SModel X Labels := lossOnly X
    (fun a b => ((Loss.loss (some cw) a b).toOption.getD 0))
    (fun a => ((Loss.maxLoss (some cw) a).toOption.getD 0)) ⟨0, fun _ => 0⟩
  have hl : ∀ s ∈ samples, Loss.loss (some cw) (lf s.2) (lf (L.m.inference s.1 w)) =
      .ok (L.lossLabel s.2 (L.m.inference s.1 w)) := hloss
  have hx : ∀ s ∈ samples, Loss.maxLoss (some cw) (lf s.2) = .ok (L.maxLoss s.2) := hmax
  have hz : (samples.map fun s => lf s.2).zip (samples.map fun s => lf (L.m.inference s.1 w)) =
      samples.map fun s => (lf s.2, lf (L.m.inference s.1 w)) := by
    rw [List.zip_map']
  have e : SubgradientLatent.score L w samples =
      Learner.score m' (samples.map fun s => lf s.2) (samples.map fun s => lf (L.m.inference s.1 w)) := by
    unfold SubgradientLatent.score Learner.score
    rw [hz, List.map_map, List.map_map]
    congr 3
    · refine List.map_congr_left fun s hs => ?_
      change _ = (Loss.loss (some cw) _ _).toOption.getD 0
      simp only
      rw [hl s hs]
      rfl
    · refine List.map_congr_left fun s hs => ?_
      change _ = (Loss.maxLoss (some cw) (lf s.2)).toOption.getD 0
      rw [hx s hs]
      rfl
  obtain ⟨h1, h2, h3⟩ := C28_hamming m' (some cw) (samples.map fun s => lf s.2)
    (samples.map fun s => lf (L.m.inference s.1 w)) (by
      rw [hz]
      intro p hp
      obtain ⟨s, hs, rfl⟩ := List.mem_map.mp hp
      change _ = Except.ok ((Loss.loss (some cw) _ _).toOption.getD 0)
      simp only
      rw [hl s hs]
      rfl) (by
      intro y hy
      obtain ⟨s, hs, rfl⟩ := List.mem_map.mp hy
      change _ = Except.ok ((Loss.maxLoss (some cw) _).toOption.getD 0)
      rw [hx s hs]
      rfl) (by
      intro c hc k hk
      have := Option.some.inj hc
      subst this
      exact hcw k hk) (by simp) (by
      obtain ⟨s, hs, h⟩ := hsome
      refine ⟨lf s.2, List.mem_map_of_mem hs, ?_⟩
      rw [(node_labels_of_labels (hlab s hs)).1]
      exact h)
  rw [e]
  refine ⟨h1, h2, h3.trans ?_⟩
  rw [hz]
  constructor
  · intro h s hs i hi
    obtain ⟨g1, g2⟩ := node_labels_of_labels (hlab s hs)
    have := h _ (List.mem_map_of_mem hs) i (by simp only; rw [hlf, g1]; exact hi)
    rw [← g2 i hi]
    exact this
  · intro h p hp i hi
    obtain ⟨s, hs, rfl⟩ := List.mem_map.mp hp
    obtain ⟨g1, g2⟩ := node_labels_of_labels (hlab s hs)
    simp only at hi ⊢
    rw [hlf, g1] at hi
    rw [hlf, g2 i hi]
    exact h s hs i hi

/-- **C58, what `LatentGraphCRF.loss` of a true label is.** If a completion has exactly the true labels `y`, then
`loss(y, h)` counts the nodes whose *label*, read as a *state*, belongs to another label. -/
theorem C58_graph_loss (m : LatentGraph.Model) (y h lab : Labels) (hlab : LatentGraph.labelFromLatent m h = .ok lab)
    (hsz : y.size = h.size) (heq : ∀ i < y.size, lab.get i = y.get i) (hst : ∀ i < y.size, y.get i < m.nStates)
    (hmap : ∀ s < m.nStates, (LatentGraph.statesMap m.nStatesPerLabel).get s < m.nLabels) :
    LatentGraph.loss m y h =
      .ok (((range y.size).filter fun i =>
        (LatentGraph.statesMap m.nStatesPerLabel).get (y.get i) ≠ y.get i).card : ℚ) := by
  have hls : lab.size = h.size := by
    unfold LatentGraph.labelFromLatent at hlab
    split_ifs at hlab with hc
    cases hlab
    rfl
  have e1 : LatentGraph.labelFromLatent m y =
      .ok ⟨y.size, fun i => (LatentGraph.statesMap m.nStatesPerLabel).get (y.get i)⟩ := by
    unfold LatentGraph.labelFromLatent
    rw [if_neg (not_not.mpr hst)]
  unfold LatentGraph.loss
  rw [e1, hlab]
  change Loss.loss (some ⟨m.nLabels, fun _ => 1⟩)
    ⟨y.size, fun i => (LatentGraph.statesMap m.nStatesPerLabel).get (y.get i)⟩ lab = _
  unfold Loss.loss
  simp only
  rw [if_neg (by simp [hls, hsz]), if_pos fun i hi => hmap _ (hst i hi)]
  congr 1
  rw [card_eq_sum_ones, sum_filter]
  push_cast
  refine sum_congr rfl fun i hi => ?_
  rw [heq i (mem_range.mp hi), one_mul]

/-- A latent graph model with one node: two states for label 0 and one for label 1; the prediction is state 2,
whose label is 1. -/
def graphLatentExample : LatentGraph.Model := ⟨[2, 1], 1, false⟩

def graphSL : SLModel Unit Labels Labels where
  m := { lossOnly Unit (fun a b => ((LatentGraph.loss graphLatentExample a b).toOption.getD 0))
      (fun _ => 1) ⟨1, fun _ => 2⟩ with dim := 1 }
  initLatent := fun s => s.map fun _ => ⟨1, fun _ => 2⟩
  latent := fun _ _ _ => ⟨1, fun _ => 2⟩
  labelFromLatent := fun h => ((LatentGraph.labelFromLatent graphLatentExample h).toOption.getD ⟨0, fun _ => 0⟩)
  baseLoss := fun a b => ((Loss.loss (some ⟨2, fun _ => 1⟩) a b).toOption.getD 0)
  maxLoss := fun y => ((Loss.maxLoss (some ⟨2, fun _ => 1⟩) y).toOption.getD 0)
  lossLabel := fun y h => ((LatentGraph.loss graphLatentExample y h).toOption.getD 0)

/-- **C58 violated** by SubgradientLatentSSVM with LatentGraphCRF: with two states for label 0 and one for label 1
and the only true label 1, the prediction is the state of label 1 and so correct, but the score is 0; the score
of LatentSSVM is 1. -/
theorem C58_violated :
    (SubgradientLatent.predict graphSL (fun _ => 0) [()]).map (fun y => (y.size, y.get 0)) = [(1, 1)] ∧
    LatentGraph.loss graphLatentExample ⟨1, fun _ => 1⟩ ⟨1, fun _ => 2⟩ = .ok 1 ∧
    SubgradientLatent.score graphSL (fun _ => 0) [((), ⟨1, fun _ => 1⟩)] = 0 ∧
    LatentSSVM.score graphSL.toLModel (fun _ => 0) [((), ⟨1, fun _ => 1⟩)] = 1 := by
  refine ⟨by decide +kernel, by decide +kernel, by decide +kernel, by decide +kernel⟩

/-! ### C83: number of jobs -/

/-- **C83 violated.** For `n_jobs` other than 1 and -1, `fit` raises `AttributeError`, whatever the model and the
data, if there is an iteration to do. -/
theorem C83_violated_jobs (L : SLModel X Y H) (w0 : W) (o : Subgradient.Obj) (samples : List (X × Y)) (warm : Bool)
    (lr : ℚ) (curve : List ℚ) (hs : Subgradient.setup o samples.length warm = .ok (lr, curve))
    (hit : 0 < o.cfg.maxIter) :
    SubgradientLatent.fit L .other w0 o samples warm = .error .attributeError := by
  unfold SubgradientLatent.fit
  rw [hs]
  simp only
  obtain ⟨k, hk⟩ : ∃ k, o.cfg.maxIter = k + 1 := ⟨o.cfg.maxIter - 1, by omega⟩
  rw [hk]
  rfl

/-! ### C81: the steps -/

/-- a block of samples completed by weights. -/
def completedAt (L : LModel X Y H) (w : W) (b : List (X × Y)) : List (X × H) :=
  completed b fun s => L.latent s.1 s.2 w

/-- the configuration under which the plain learner averages over blocks. -/
def batchCfg (cfg : Subgradient.Config) : Subgradient.Config := { cfg with nJobs := 1, batchSize := some 2 }

theorem batchCfg_uses (cfg : Subgradient.Config) : usesBatches (batchCfg cfg) = true := by
  unfold usesBatches batchCfg
  simp

/-- one step of the latent learner: the step of the plain learner for the completed block. -/
def latentBlockStep (L : LModel X Y H) (cfg : Subgradient.Config) (lr : ℚ) (n : ℕ) (st : Subgradient.St)
    (b : List (X × Y)) : Subgradient.St :=
  blockStep L.m (batchCfg cfg) lr n st (completedAt L st.w b)

theorem latentBlockStep_eq (L : LModel X Y H) (cfg : Subgradient.Config) (lr : ℚ) (n : ℕ) (st : Subgradient.St)
    (b : List (X × Y)) :
    latentBlockStep L cfg lr n st b = Subgradient.solveSubgradient cfg lr n st (fun k =>
      (b.map fun s => L.m.jointFeature s.1 (L.latent s.1 s.2 st.w) k -
        L.m.jointFeature s.1 (L.m.lossAug s.1 (L.latent s.1 s.2 st.w) st.w true) k).sum / b.length) := by
  unfold latentBlockStep blockStep blockDelta
  rw [if_pos (batchCfg_uses cfg)]
  change Subgradient.solveSubgradient cfg _ _ _ _ = _
  congr 1
  funext k
  unfold Subgradient.meanDelta completedAt completed
  rw [List.map_map, List.map_map, List.length_map]
  congr 1
  have := list_sum_linear b (fun s : X × Y => L.m.jointFeature s.1 (L.latent s.1 s.2 st.w) k)
    (fun s : X × Y => L.m.jointFeature s.1 (L.m.lossAug s.1 (L.latent s.1 s.2 st.w) st.w true) k) 1 (-1)
  rw [one_mul, neg_one_mul, ← sub_eq_add_neg] at this
  have h2 : (b.map fun s : X × Y => L.m.jointFeature s.1 (L.latent s.1 s.2 st.w) k -
        L.m.jointFeature s.1 (L.m.lossAug s.1 (L.latent s.1 s.2 st.w) st.w true) k) =
      b.map fun s : X × Y => 1 * L.m.jointFeature s.1 (L.latent s.1 s.2 st.w) k +
        -1 * L.m.jointFeature s.1 (L.m.lossAug s.1 (L.latent s.1 s.2 st.w) st.w true) k := by
    refine List.map_congr_left fun s _ => ?_
    ring
  rw [h2, this]
  rfl

/-- what a pass does: blocks of samples, one step each. -/
structure LatentPass (jobs : Jobs) (samples : List (X × Y)) (bs : List (List (X × Y))) : Prop where
  all : bs.flatten = samples
  nonempty : ∀ b ∈ bs, b ≠ []
  online : jobs = .one → ∀ b ∈ bs, b.length = 1
  parallel : ∀ n, jobs = .allCpus n → ∀ b ∈ bs, b.length ≤ n

theorem flatten_singletons {α : Type} (l : List α) : (l.map fun s => [s]).flatten = l := by
  induction l with
  | nil => rfl
  | cons a l ih => rw [List.map_cons, List.flatten_cons, ih]; rfl

theorem pass_ok (L : SLModel X Y H) (cfg : Subgradient.Config) (jobs : Jobs) (lr : ℚ) (samples : List (X × Y))
    (st st' : Subgradient.St) (pos : ℤ) (obj : ℚ)
    (h : SubgradientLatent.pass L cfg jobs lr samples st = .ok (st', pos, obj)) :
    ∃ bs, LatentPass jobs samples bs ∧ st' = bs.foldl (latentBlockStep L.toLModel cfg lr samples.length) st := by
  unfold SubgradientLatent.pass at h
  cases jobs with
  | other => cases h
  | one =>
    simp only [Except.ok.injEq] at h
    refine ⟨samples.map fun s => [s], ⟨flatten_singletons samples, ?_, ?_, fun n h => by cases h⟩, ?_⟩
    · intro b hb
      obtain ⟨s, -, rfl⟩ := List.mem_map.mp hb
      simp
    · intro _ b hb
      obtain ⟨s, -, rfl⟩ := List.mem_map.mp hb
      rfl
    · rw [List.foldl_map]
      have := foldl_fst (SubgradientLatent.onlineStep L cfg lr samples.length)
        (fun st s => latentBlockStep L.toLModel cfg lr samples.length st [s]) samples (fun p s _ => by
          rw [latentBlockStep_eq]
          unfold SubgradientLatent.onlineStep
          simp only
          congr 1
          funext k
          simp) (st, 0, 0)
      rw [h] at this
      exact this
  | allCpus n =>
    simp only at h
    split_ifs at h with hn
    cases hs : Subgradient.evenSlices samples.length (Subgradient.ceilDiv samples.length n) with
    | error err => rw [hs] at h; cases h
    | ok sl =>
      rw [hs] at h
      simp only [Except.ok.injEq] at h
      obtain ⟨-, h2, h3, -⟩ := (even_slices (n : ℤ) samples).1 sl hs
      refine ⟨Subgradient.cut samples sl, ⟨h2, fun b hb => (h3 b hb).1, (fun h => by cases h), ?_⟩, ?_⟩
      · rintro k hk b hb
        cases hk
        exact_mod_cast (h3 b hb).2
      · have := foldl_fst (SubgradientLatent.parallelStep L cfg lr samples.length)
          (latentBlockStep L.toLModel cfg lr samples.length) (Subgradient.cut samples sl) (fun p b _ => by
            rw [latentBlockStep_eq]
            unfold SubgradientLatent.parallelStep
            simp only
            congr 1
            funext k
            rw [List.map_map]
            rfl) (st, 0, 0)
        rw [h] at this
        exact this

theorem latent_loop_run (L : SLModel X Y H) (cfg : Subgradient.Config) (jobs : Jobs) (lr : ℚ)
    (samples : List (X × Y)) (n it : ℕ) (st st' : Subgradient.St) (c c' : Subgradient.Curves)
    (h : SubgradientLatent.loop L cfg jobs lr samples n it st c = .ok (st', c')) :
    ∃ passes : List (List (List (X × Y))), passes.length ≤ n ∧
      (cfg.breakOnNoConstraints = false → passes.length = n) ∧ (∀ p ∈ passes, LatentPass jobs samples p) ∧
      st' = passes.flatten.foldl (latentBlockStep L.toLModel cfg lr samples.length) st := by
  induction n generalizing it st c with
  | zero =>
    simp only [SubgradientLatent.loop, Except.ok.injEq, Prod.mk.injEq] at h
    exact ⟨[], le_rfl, fun _ => rfl, by simp, h.1.symm⟩
  | succ n ih =>
    unfold SubgradientLatent.loop at h
    cases hp : SubgradientLatent.pass L cfg jobs lr samples st with
    | error err => rw [hp] at h; cases h
    | ok r =>
      obtain ⟨st1, pos, obj⟩ := r
      rw [hp] at h
      simp only at h
      obtain ⟨bs, hbs, hst⟩ := pass_ok L cfg jobs lr samples st st1 pos obj hp
      by_cases hb : pos = 0 ∧ cfg.breakOnNoConstraints = true
      · rw [if_pos hb] at h
        simp only [Except.ok.injEq, Prod.mk.injEq] at h
        refine ⟨[bs], by simp, fun h0 => by rw [h0] at hb; exact absurd hb.2 (by simp), by simpa using hbs, ?_⟩
        rw [List.flatten_singleton, ← hst, h.1]
      · rw [if_neg hb] at h
        obtain ⟨passes, h1, h2, h3, h4⟩ := ih _ _ _ h
        refine ⟨bs :: passes, by simpa using h1, fun h0 => by simpa using h2 h0, ?_, ?_⟩
        · intro p hp
          rcases List.mem_cons.mp hp with rfl | hp
          · exact hbs
          · exact h3 p hp
        · rw [List.flatten_cons, List.foldl_append, ← hst]
          exact h4

/-- state after the first `t` blocks. -/
def latentAt (L : LModel X Y H) (cfg : Subgradient.Config) (lr : ℚ) (n : ℕ) (blocks : List (List (X × Y)))
    (st : Subgradient.St) (t : ℕ) : Subgradient.St :=
  (blocks.take t).foldl (latentBlockStep L cfg lr n) st

/-- the blocks, each completed by the weights it met. -/
def latentBlocks (L : LModel X Y H) (cfg : Subgradient.Config) (lr : ℚ) (n : ℕ) (blocks : List (List (X × Y)))
    (st : Subgradient.St) : List (List (X × H)) :=
  (List.range blocks.length).map fun t => completedAt L (latentAt L cfg lr n blocks st t).w (blocks.getD t [])

theorem latentBlocks_get (L : LModel X Y H) (cfg : Subgradient.Config) (lr : ℚ) (n : ℕ)
    (blocks : List (List (X × Y))) (st : Subgradient.St) (t : ℕ) (ht : t < blocks.length)
    (ht' : t < (latentBlocks L cfg lr n blocks st).length) :
    (latentBlocks L cfg lr n blocks st)[t] = completedAt L (latentAt L cfg lr n blocks st t).w blocks[t] := by
  have e : (latentBlocks L cfg lr n blocks st)[t]? =
      some (completedAt L (latentAt L cfg lr n blocks st t).w blocks[t]) := by
    unfold latentBlocks
    rw [List.getElem?_map, List.getElem?_range ht, Option.map_some, List.getD_eq_getElem?_getD,
      List.getElem?_eq_getElem ht]
    rfl
  rw [List.getElem?_eq_getElem ht'] at e
  exact Option.some.inj e

theorem latentAt_eq (L : LModel X Y H) (cfg : Subgradient.Config) (lr : ℚ) (n : ℕ)
    (blocks : List (List (X × Y))) (st : Subgradient.St) (t : ℕ) (ht : t ≤ blocks.length) :
    latentAt L cfg lr n blocks st t = stateAt L.m (batchCfg cfg) lr n (latentBlocks L cfg lr n blocks st) st t := by
  induction t with
  | zero => rfl
  | succ t ih =>
    have hlen : (latentBlocks L cfg lr n blocks st).length = blocks.length := by
      unfold latentBlocks; simp
    rw [stateAt_succ _ _ _ _ _ _ _ (by omega), ← ih (by omega), latentBlocks_get L cfg lr n blocks st t (by omega)]
    unfold latentAt
    rw [← List.take_concat_get' _ _ (by omega : t < blocks.length), List.foldl_append]
    rfl

/-- what a run over blocks of samples is: descent along completed blocks. -/
theorem latent_blocks_descent (L : SLModel X Y H) (outputs : X → Set H) (completions : X → Y → Set H)
    (hLA : (problemOf L.m outputs).ExactLossAug (fun x y w => L.m.lossAug x y w true)) (hr : L.m.rescaleC = false)
    (samples : List (X × Y)) (hne : samples ≠ [])
    (hlab : (problemOf L.m outputs).LabelOnly completions samples)
    (hlat : (problemOf L.m outputs).ExactCompletion completions L.latent samples)
    (cfg : Subgradient.Config) (hC : 0 < cfg.C) (lr : ℚ) (w : W) (t0 : ℕ) (bl : List (List (X × Y)))
    (hmem : ∀ b ∈ bl, b ≠ [] ∧ ∀ s ∈ b, s ∈ samples) (st' : Subgradient.St)
    (h4 : st' = bl.foldl (latentBlockStep L.toLModel cfg lr samples.length) ⟨w, fun _ => 0, w, t0⟩) :
    ∃ (done : List (List (X × H))) (ws : ℕ → W), ws 0 = w ∧ done.length = bl.length ∧
      (∀ t (ht : t < bl.length) (ht' : t < done.length),
        done[t] = completed bl[t] (fun s => L.latent s.1 s.2 (ws t)) ∧
        ∀ c : ℚ, 0 ≤ c →
          (∀ v, (problemOf L.m outputs).IsLatentObjective completions c bl[t] (ws t) v ↔
            (problemOf L.m outputs).IsObjective c done[t] (ws t) v) ∧
          ∀ w v, (problemOf L.m outputs).IsLatentObjective completions c bl[t] w v →
            ∃ u, (problemOf L.m outputs).IsObjective c done[t] w u ∧ v ≤ u) ∧
      (problemOf L.m outputs).IsDescent (fun b => cfg.C * samples.length * (1 / b.length)) cfg.momentum
        (fun t => lr / cfg.decay (t0 + t) / (cfg.C * samples.length)) done ws ∧
      st'.t = t0 + bl.length ∧ (cfg.averaging = .none → st'.selfW = ws bl.length) ∧
      (cfg.averaging = .linear → t0 = 0 → 0 < bl.length → ∀ k, st'.selfW k = weightedMean (fun j => j) ws bl.length k) ∧
      (cfg.averaging = .squared → t0 = 0 → 0 < bl.length →
        ∀ k, st'.selfW k = weightedMean (fun j => (j : ℚ) ^ 2) ws bl.length k) ∧
      (bl.length = 0 → st'.selfW = w) := by
  set st0 : Subgradient.St := ⟨w, fun _ => 0, w, t0⟩ with hst0
  have hn : 0 < samples.length := List.length_pos_iff.mpr hne
  set done := latentBlocks L.toLModel cfg lr samples.length bl st0 with hdone
  have hlen : done.length = bl.length := by rw [hdone]; unfold latentBlocks; simp
  have hat : ∀ t ≤ bl.length, latentAt L.toLModel cfg lr samples.length bl st0 t =
      stateAt L.m (batchCfg cfg) lr samples.length done st0 t :=
    fun t ht => latentAt_eq _ _ _ _ _ _ _ ht
  have hend : st' = stateAt L.m (batchCfg cfg) lr samples.length done st0 bl.length := by
    rw [← hat _ le_rfl, h4]
    unfold latentAt
    rw [List.take_length]
  refine ⟨done, fun t => (stateAt L.m (batchCfg cfg) lr samples.length done st0 t).w, rfl, hlen, ?_, ?_, ?_, ?_, ?_, ?_, ?_⟩
  · intro t ht ht'
    have hd : done[t] = completed bl[t] fun s => L.latent s.1 s.2
        (stateAt L.m (batchCfg cfg) lr samples.length done st0 t).w := by
      have := latentBlocks_get L.toLModel cfg lr samples.length bl st0 t ht ht'
      rw [hat t ht.le] at this
      exact this
    refine ⟨hd, ?_⟩
    obtain ⟨-, hsub⟩ := hmem bl[t] (List.getElem_mem ht)
    have hlab' : (problemOf L.m outputs).LabelOnly completions bl[t] := fun s hs => hlab s (hsub s hs)
    have hlat' : (problemOf L.m outputs).ExactCompletion completions L.latent bl[t] :=
      fun s hs => hlat s (hsub s hs)
    intro c hc
    rw [hd]
    exact ⟨fun v => latentObjective_iff hlab' hlat' c _ v, fun w v hv =>
      latentObjective_le hlab' hc (fun s hs => (hlat' s hs _).1) hv⟩
  · have := stateAt_descent L.m outputs hLA (batchCfg cfg) lr samples.length hC hn done (by
      intro b hb
      obtain ⟨t, ht, rfl⟩ := List.mem_iff_getElem.mp hb
      have ht2 : t < bl.length := by omega
      obtain ⟨hne', hsub⟩ := hmem bl[t] (List.getElem_mem ht2)
      have hd := latentBlocks_get L.toLModel cfg lr samples.length bl st0 t ht2 ht
      rw [hd]
      refine ⟨?_, ?_, fun _ => hr⟩
      · unfold completedAt completed
        simpa using hne'
      · intro q hq
        obtain ⟨s, hs, rfl⟩ := List.mem_map.mp hq
        exact (hlab s (hsub s hs) _ (hlat s (hsub s hs) _).1).1) st0 (fun _ => rfl)
    have hsc : (fun b : List (X × H) => (batchCfg cfg).C * samples.length * blockScale (batchCfg cfg) b) =
        fun b => cfg.C * samples.length * (1 / b.length) := by
      funext b
      unfold blockScale
      rw [if_pos (batchCfg_uses _)]
      rfl
    rw [hsc] at this
    exact this
  · rw [hend, stateAt_t _ _ _ _ _ _ _ (by omega)]
  · intro ha
    simp only
    rw [hend]
    cases hT : bl.length with
    | zero => rfl
    | succ t =>
      rw [stateAt_succ _ _ _ _ _ _ _ (by omega)]
      unfold blockStep Subgradient.solveSubgradient
      have ha' : (batchCfg cfg).averaging = .none := ha
      simp only [ha']
  · intro ha ht hp k
    rw [hend, ← hlen]
    exact (stateAt_average L.m (batchCfg cfg) lr samples.length done st0 ht (by omega)).1 ha k
  · intro ha ht hp k
    rw [hend, ← hlen]
    exact (stateAt_average L.m (batchCfg cfg) lr samples.length done st0 ht (by omega)).2 ha k
  · intro h0
    rw [hend, h0]
    rfl

/-- **C81.** A successful `fit` of SubgradientLatentSSVM (online or parallel) with exact loss-augmented inference,
exact completion, and a loss that depends only on the labels: it makes at most `max_iter` passes over the data,
each of which splits the samples into blocks (single samples if `n_jobs == 1`). Each block is completed with the
weights the step starts from, and the step goes along a negative subgradient, with momentum, of the risk of the
completed block with constant `C · n / b`. Where the step starts, this risk is the latent risk of the block, and
everywhere else it is at least the latent risk. Without averaging, the resulting `w` is the last iterate; with linear or
squared averaging of a learner that was not fitted before it is the weighted mean of all iterates. -/
theorem C81_fit (L : SLModel X Y H) (outputs : X → Set H) (completions : X → Y → Set H)
    (hLA : (problemOf L.m outputs).ExactLossAug (fun x y w => L.m.lossAug x y w true)) (hr : L.m.rescaleC = false)
    (samples : List (X × Y)) (hne : samples ≠ [])
    (hlab : (problemOf L.m outputs).LabelOnly completions samples)
    (hlat : (problemOf L.m outputs).ExactCompletion completions L.latent samples)
    (jobs : Jobs) (w0 : W) (o o' : Subgradient.Obj) (hC : 0 < o.cfg.C) (warm : Bool)
    (h : SubgradientLatent.fit L jobs w0 o samples warm = .ok o') :
    ∃ (lr : ℚ) (passes : List (List (List (X × Y)))) (done : List (List (X × H))) (ws : ℕ → W) (w : W),
      (warm = true → o.lr = some lr) ∧
      (warm = false → lr = (o.cfg.learningRate.getD (o.cfg.C * samples.length))) ∧
      passes.length ≤ o.cfg.maxIter ∧
      (o.cfg.breakOnNoConstraints = false → passes.length = o.cfg.maxIter) ∧
      (∀ p ∈ passes, LatentPass jobs samples p) ∧
      ws 0 = o.w.getD w0 ∧ done.length = passes.flatten.length ∧
      (∀ t (ht : t < passes.flatten.length) (ht' : t < done.length),
        done[t] = completed passes.flatten[t] (fun s => L.latent s.1 s.2 (ws t)) ∧
        ∀ c : ℚ, 0 ≤ c →
          (∀ v, (problemOf L.m outputs).IsLatentObjective completions c passes.flatten[t] (ws t) v ↔
            (problemOf L.m outputs).IsObjective c done[t] (ws t) v) ∧
          ∀ w v, (problemOf L.m outputs).IsLatentObjective completions c passes.flatten[t] w v →
            ∃ u, (problemOf L.m outputs).IsObjective c done[t] w u ∧ v ≤ u) ∧
      (problemOf L.m outputs).IsDescent (fun b => o.cfg.C * samples.length * (1 / b.length)) o.cfg.momentum
        (fun t => lr / o.cfg.decay (o.t + t) / (o.cfg.C * samples.length)) done ws ∧
      o'.t = o.t + passes.flatten.length ∧ o'.w = some w ∧
      (o.cfg.averaging = .none → w = ws passes.flatten.length) ∧
      (o.cfg.averaging = .linear → o.t = 0 → 0 < passes.flatten.length →
        ∀ k, w k = weightedMean (fun j => j) ws passes.flatten.length k) ∧
      (o.cfg.averaging = .squared → o.t = 0 → 0 < passes.flatten.length →
        ∀ k, w k = weightedMean (fun j => (j : ℚ) ^ 2) ws passes.flatten.length k) := by
  unfold SubgradientLatent.fit at h
  cases hs : Subgradient.setup o samples.length warm with
  | error err => rw [hs] at h; cases h
  | ok r =>
    obtain ⟨lr, curve⟩ := r
    rw [hs] at h
    simp only at h
    have hlr : (warm = true → o.lr = some lr) ∧
        (warm = false → lr = (o.cfg.learningRate.getD (o.cfg.C * samples.length))) := by
      unfold Subgradient.setup at hs
      cases warm with
      | true =>
        rw [if_pos rfl] at hs
        cases hol : o.lr with
        | none => rw [hol] at hs; cases hs
        | some l =>
          rw [hol] at hs
          simp only [Except.ok.injEq, Prod.mk.injEq] at hs
          simp [hs.1]
      | false =>
        rw [if_neg (by simp)] at hs
        simp only [Except.ok.injEq, Prod.mk.injEq] at hs
        exact ⟨by simp, fun _ => hs.1.symm⟩
    set st0 : Subgradient.St := ⟨o.w.getD w0, fun _ => 0, o.w.getD w0, o.t⟩ with hst0
    cases hlp : SubgradientLatent.loop L o.cfg jobs lr samples o.cfg.maxIter 0 st0
        ⟨curve, o.curves.loss⟩ with
    | error err => rw [hlp] at h; cases h
    | ok r =>
      obtain ⟨st', c'⟩ := r
      rw [hlp] at h
      simp only at h
      cases ho : SubgradientLatent.objective L o.cfg.C st'.selfW samples with
      | error err => rw [ho] at h; cases h
      | ok obj =>
        rw [ho] at h
        simp only [Except.ok.injEq] at h
        subst h
        obtain ⟨passes, h1, h2, h3, h4⟩ := latent_loop_run L o.cfg jobs lr samples _ _ _ _ _ _ hlp
        obtain ⟨done, ws, d1, d2, d3, d4, d5, d6, d7, d8, -⟩ := latent_blocks_descent L outputs completions hLA hr samples
          hne hlab hlat o.cfg hC lr (o.w.getD w0) o.t passes.flatten (by
            intro b hb
            obtain ⟨p, hp, hbp⟩ := List.mem_flatten.mp hb
            refine ⟨(h3 p hp).nonempty b hbp, fun s hsb => ?_⟩
            rw [← (h3 p hp).all]
            exact List.mem_flatten.mpr ⟨b, hbp, hsb⟩) st' h4
        exact ⟨lr, passes, done, ws, st'.selfW, hlr.1, hlr.2, h1, h2, h3, d1, d2, d3, d4, d5, rfl, d6, d7, d8⟩

/-! ### C82: the objective -/

/-- **C82.** If the loss of a true label agrees with the loss of its completions, the final entry of the objective
curve is the latent objective of the resulting weights. -/
theorem C82_objective_partial (L : SLModel X Y H) (outputs : X → Set H) (completions : X → Y → Set H)
    (hLA : (problemOf L.m outputs).ExactLossAug (fun x y w => L.m.lossAug x y w true)) (hr : L.m.rescaleC = false)
    (samples : List (X × Y)) (hlab : (problemOf L.m outputs).LabelOnly completions samples)
    (hlat : (problemOf L.m outputs).ExactCompletion completions L.latent samples)
    (hloss : ∀ s ∈ samples, ∀ h ∈ completions s.1 s.2, ∀ g ∈ outputs s.1, L.lossLabel s.2 g = L.m.lossOf h g)
    (C : ℚ) (w : W) (obj : ℚ) (h : SubgradientLatent.objective L C w samples = .ok obj) :
    (problemOf L.m outputs).IsLatentObjective completions C samples w obj := by
  unfold SubgradientLatent.objective at h
  split_ifs at h with he
  simp only [Except.ok.injEq] at h
  rw [latentObjective_iff hlab hlat]
  refine ⟨samples.map fun s => sampleSlack L.m w (s.1, L.latent s.1 s.2 w), ?_, ?_⟩
  · unfold completed
    rw [List.forall₂_map_left_iff, List.forall₂_map_right_iff, List.forall₂_same]
    intro s hs
    have hl := (hlab s hs _ (hlat s hs w).1).1
    exact (C29_slack L.m outputs true hLA s.1 _ w hl.1 hl.2).1
  · have hsl : ∀ s ∈ samples, max (findConstraintLatent L s.1 s.2 w).slack 0 =
        sampleSlack L.m w (s.1, L.latent s.1 s.2 w) := by
      intro s hs
      have hl := (hlab s hs _ (hlat s hs w).1).1
      have hg : L.m.lossAug s.1 (L.latent s.1 s.2 w) w true ∈ outputs s.1 := (hLA s.1 _ w hl.1 hl.2).1
      have h1 := hloss s hs _ (hlat s hs w).1 _ hg
      have hf : ∀ x y yh, L.m.feat x yh y = L.m.jointFeature x yh := by
        intro x y yh; unfold SModel.feat; rw [hr]; rfl
      unfold findConstraintLatent sampleSlack findConstraint
      simp only [if_true]
      rw [h1, max_eq_left (le_max_right _ _)]
      congr 3
      funext k
      rw [hf, hf]
      ring
    rw [← h, List.map_congr_left hsl]
    have : ∑ k ∈ range L.m.dim, w k ^ 2 = ∑ k ∈ range L.m.dim, w k * w k :=
      sum_congr rfl fun k _ => by ring
    rw [this]
    change _ = (∑ k ∈ range L.m.dim, w k * w k) / 2 + _
    ring

/-- **C82 violated** with LatentGraphCRF: the loss of a true label differs from the loss of its completions, so for
zero weights, where the only output has the right label, the objective is 1 instead of 0. -/
theorem C82_violated_graph :
    SubgradientLatent.objective graphSL 1 (fun _ => 0) [((), ⟨1, fun _ => 1⟩)] = .ok 1 ∧
    Learner.objectivePrimal graphSL.m (fun _ => 0) [((), graphSL.latent () ⟨1, fun _ => 1⟩ fun _ => 0)] 1 true =
      .ok 0 := by
  refine ⟨by decide +kernel, by decide +kernel⟩

/-! ### an example -/

/-- the model of C57 with the loss between a label and an output. -/
def hiddenSL : SLModel Unit ℕ ℕ := { hiddenLatent with lossLabel := fun y h => if (y = 1) ↔ (h = 2) then 0 else 1 }

def hiddenObj : Subgradient.Obj :=
  ⟨⟨3, 1, 0, some (1 / 4), fun _ => 1, false, none, .none, false, 1, 0⟩, none, 0, none, ⟨[], []⟩⟩

/-- Hypotheses of C81 and C82 hold for the model of C57, and `fit` succeeds, online and in parallel. -/
example : hiddenSL.m.rescaleC = false ∧
    (problemOf hiddenSL.m fun _ => {h | h < 3}).ExactLossAug (fun x y w => hiddenSL.m.lossAug x y w true) ∧
    (problemOf hiddenSL.m fun _ => {h | h < 3}).LabelOnly hiddenCompletions [((), 0)] ∧
    (problemOf hiddenSL.m fun _ => {h | h < 3}).ExactCompletion hiddenCompletions hiddenSL.latent [((), 0)] ∧
    (∀ h ∈ hiddenCompletions () 0, ∀ g < 3, hiddenSL.lossLabel 0 g = hiddenSL.m.lossOf h g) ∧
    ((SubgradientLatent.fit hiddenSL .one (fun _ => 0) hiddenObj [((), 0)] false).toOption.bind
      (fun o => o.w.map fun w => (o.t, w 0, o.curves.objective))) =
        some (3, 65 / 128, [129 / 128, 1913 / 2048, 25729 / 32768, 20353 / 32768]) ∧
    ((SubgradientLatent.fit hiddenSL (.allCpus 2) (fun _ => 0) hiddenObj [((), 0)] false).toOption.bind
      (fun o => o.w.map fun w => (o.t, w 0, o.curves.objective))) =
        some (3, 65 / 128, [129 / 128, 1913 / 2048, 25729 / 32768, 20353 / 32768]) := by
  refine ⟨rfl, hidden_exact, hidden_labelOnly, hidden_completion, ?_, by decide +kernel, by decide +kernel⟩
  intro h hh g hg
  have hh : h < 2 := hh
  change (if (0 = 1) ↔ (g = 2) then (0 : ℚ) else 1) = if (h = 2) ↔ (g = 2) then 0 else 1
  have e1 : h ≠ 2 := by omega
  simp [e1]

/-- The hypotheses of C58 for LatentNodeCRF can be met: one visible node with a hidden neighbour. -/
example : LatentNode.loss 2 ⟨2, fun _ => 1⟩ ⟨1, fun _ => 1⟩ ⟨2, fun i => if i = 0 then 1 else 3⟩ = .ok 0 ∧
    LatentNode.maxLoss 2 ⟨2, fun _ => 1⟩ ⟨1, fun _ => 1⟩ = .ok 1 := by
  refine ⟨by decide +kernel, by decide +kernel⟩

end Verif.Props
