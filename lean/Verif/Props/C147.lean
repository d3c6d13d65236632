import Verif.Lemmas.Copies
import Verif.Model.FrankWolfe
import Verif.Model.Subgradient
import Verif.Model.Perceptron

/-!
# C147: batch training depends on the samples, not on their order
-/

namespace Verif.Props

open Verif.Spec Verif.Lemmas Verif.Learner

/-! ### Frank-Wolfe -/

section FrankWolfe
open Verif.FrankWolfe

variable {X Y : Type} {k : ℕ} {l l' : List (X × Y)}

theorem copies_fw_step (hk : 0 < k) (h : Copies k l l') (m : SModel X Y) (cfg : Config) (it : ℕ) (w : W) (a : ℚ) :
    batchStep m { cfg with C := cfg.C / k } l' it w a = batchStep m cfg l it w a := by
  have hk' : (k : ℚ) ≠ 0 := by exact_mod_cast hk.ne'
  have hls : batchLossSum m l' w / (l'.length : ℚ) = batchLossSum m l w / (l.length : ℚ) := copies_mean hk h _
  have hws : ∀ j, batchDelta m l' w j * (cfg.C / k) = batchDelta m l w j * cfg.C := by
    intro j
    unfold batchDelta
    rw [h, h]
    field_simp
  have hCn : cfg.C / k * (l'.length : ℚ) = cfg.C * l.length := by
    rw [copies_length h]; push_cast; field_simp
  have hnC : (l'.length : ℚ) * (cfg.C / k) = l.length * cfg.C := by
    rw [mul_comm, hCn, mul_comm]
  have hg : ∀ g : ℚ, g * (l'.length : ℚ) * (cfg.C / k) = g * l.length * cfg.C := by
    intro g
    rw [mul_assoc, hnC, mul_assoc]
  unfold batchStep
  simp only [hls, hws, hCn, hnC, hg]

theorem copies_fw_loop (hk : 0 < k) (h : Copies k l l') (m : SModel X Y) (cfg : Config) :
    ∀ (n it : ℕ) (w : W) (a : ℚ) (c : Curves),
      batchLoop m { cfg with C := cfg.C / k } l' n it w a c = batchLoop m cfg l n it w a c := by
  intro n
  induction n with
  | zero => intros; rfl
  | succ n ih =>
    intro it w a c
    unfold batchLoop
    rw [copies_fw_step hk h]
    simp only [ih]

end FrankWolfe

/-- **C147, FrankWolfeSSVM in batch mode.** Training on every sample `k` times, in any order, with `C / k` gives the
weights, curves and exceptions of training with `C`. -/
theorem C147_frank_wolfe {X Y : Type} (m : SModel X Y) (order order' : ℕ → List ℕ) (o : FrankWolfe.Obj)
    (hb : o.cfg.batchMode = true) (k : ℕ) (hk : 0 < k) (samples samples' : List (X × Y))
    (h : Repeated k samples samples') :
    FrankWolfe.fit m order' { o with cfg := { o.cfg with C := o.cfg.C / k } } samples' =
      (FrankWolfe.fit m order o samples).map fun r => { r with cfg := { o.cfg with C := o.cfg.C / k } } := by
  have h := copies_of_repeated h
  unfold FrankWolfe.fit
  simp only
  rw [if_pos hb, if_pos hb]
  by_cases hr : m.rescaleC = true ∧ o.cfg.maxIter ≠ 0
  · rw [if_pos hr, if_pos hr]; rfl
  · rw [if_neg hr, if_neg hr]
    rw [copies_fw_loop hk h]
    simp only [copies_objectivePrimal hk h]
    generalize FrankWolfe.batchLoop m o.cfg samples _ _ _ _ _ = r
    generalize objectivePrimal m r.1 samples o.cfg.C true = p
    cases p with
    | error e => rfl
    | ok p =>
      simp only
      cases r.2.dual.getLast? <;> rfl

/-! ### subgradient -/

section Subgradient
open Verif.Subgradient

variable {X Y : Type} {k : ℕ} {l l' : List (X × Y)}

theorem sg_learn_full (m : SModel X Y) (cfg : Config) (lr : ℚ) (st : St) (l : List (X × Y))
    (hb : cfg.batchSize = some (-1)) (hj : cfg.nJobs = 1) :
    learn m cfg lr l st = if m.rescaleC = true then .error .valueError else
      .ok (solveSubgradient cfg lr l.length st (meanDelta m l st.w), 0 + -1) := by
  unfold learn sequentialLearning miniBatches
  rw [if_pos hj, hb]
  by_cases hr : m.rescaleC = true
  · simp [hr]
  · simp [hr, Subgradient.batchStep]

theorem copies_sg_learn (hk : 0 < k) (h : Copies k l l') (m : SModel X Y) (cfg : Config) (lr : ℚ) (st : St)
    (hb : cfg.batchSize = some (-1)) (hj : cfg.nJobs = 1) :
    learn m { cfg with C := cfg.C / k } lr l' st = learn m cfg lr l st := by
  have hk' : (k : ℚ) ≠ 0 := by exact_mod_cast hk.ne'
  have hCn : cfg.C / k * (l'.length : ℚ) = cfg.C * l.length := by
    rw [copies_length h]; push_cast; field_simp
  have hmean : meanDelta m l' st.w = meanDelta m l st.w := by
    funext j
    unfold meanDelta
    rw [sub_div, sub_div, copies_mean hk h, copies_mean hk h]
  have hsolve : solveSubgradient { cfg with C := cfg.C / k } lr l'.length st (meanDelta m l' st.w) =
      solveSubgradient cfg lr l.length st (meanDelta m l st.w) := by
    unfold solveSubgradient
    simp only [hCn, hmean]
  rw [sg_learn_full m { cfg with C := cfg.C / k } lr st l' hb hj, sg_learn_full m cfg lr st l hb hj, hsolve]

theorem copies_sg_loop (hk : 0 < k) (m : SModel X Y) (cfg : Config) (lr : ℚ) (hb : cfg.batchSize = some (-1))
    (hj : cfg.nJobs = 1) (order order' : ℕ → List (X × Y)) (ho : ∀ it, Copies k (order it) (order' it)) :
    ∀ (n it : ℕ) (l l' : List (X × Y)), Copies k l l' → ∀ (st : St) (c : Curves),
      match loop m cfg lr order n it l st c, loop m { cfg with C := cfg.C / k } lr order' n it l' st c with
      | .error e, .error e' => e = e'
      | .ok (d, st, c), .ok (d', st', c') => Copies k d d' ∧ st = st' ∧ c = c'
      | _, _ => False := by
  intro n
  induction n with
  | zero => intro it l l' h st c; exact ⟨h, rfl, rfl⟩
  | succ n ih =>
    intro it l l' h st c
    unfold loop
    have hd : Copies k (if cfg.shuffle then order it else l) (if cfg.shuffle then order' it else l') := by
      cases cfg.shuffle
      · exact h
      · exact ho it
    simp only
    generalize (if cfg.shuffle then order it else l) = d at hd ⊢
    generalize (if cfg.shuffle then order' it else l') = d' at hd ⊢
    rw [copies_sg_learn hk hd m cfg lr st hb hj]
    cases learn m cfg lr d st with
    | error e => rfl
    | ok r =>
      obtain ⟨st1, pos⟩ := r
      simp only
      by_cases hp : pos = 0 ∧ cfg.breakOnNoConstraints = true
      · rw [if_pos hp, if_pos hp]; exact ⟨hd, rfl, rfl⟩
      · rw [if_neg hp, if_neg hp, copies_objectivePrimal hk hd, copies_trainingLoss hk hd]
        cases objectivePrimal m st1.selfW d cfg.C true with
        | error e => rfl
        | ok obj => exact ih _ _ _ hd _ _

end Subgradient

/-- **C147, SubgradientSSVM with `batch_size=-1` and one job.** Training on every sample `k` times, in any order and
shuffled in any way, with `C / k` gives the weights, curves and exceptions of training with `C`. -/
theorem C147_subgradient {X Y : Type} (m : SModel X Y) (o : Subgradient.Obj) (hb : o.cfg.batchSize = some (-1))
    (hj : o.cfg.nJobs = 1) (k : ℕ) (hk : 0 < k) (samples samples' : List (X × Y)) (h : Repeated k samples samples')
    (order order' : ℕ → List (X × Y)) (ho : ∀ it, (order it).Perm samples) (ho' : ∀ it, (order' it).Perm samples')
    (warm : Bool) :
    Subgradient.fit m order' { o with cfg := { o.cfg with C := o.cfg.C / k } } samples' warm =
      (Subgradient.fit m order o samples warm).map fun r => { r with cfg := { o.cfg with C := o.cfg.C / k } } := by
  have hk' : (k : ℚ) ≠ 0 := by exact_mod_cast hk.ne'
  have h := copies_of_repeated h
  have hord : ∀ it, Copies k (order it) (order' it) := fun it f => by
    rw [((ho it).map f).sum_eq, ((ho' it).map f).sum_eq]; exact h f
  have hCn : o.cfg.C / k * (samples'.length : ℚ) = o.cfg.C * samples.length := by
    rw [copies_length h]; push_cast; field_simp
  have hsetup : Subgradient.setup { o with cfg := { o.cfg with C := o.cfg.C / k } } samples'.length warm =
      Subgradient.setup o samples.length warm := by
    unfold Subgradient.setup
    simp only [hCn]
  unfold Subgradient.fit
  rw [hsetup]
  cases Subgradient.setup o samples.length warm with
  | error e => rfl
  | ok r =>
    obtain ⟨lr, curve⟩ := r
    simp only
    have key := copies_sg_loop hk m o.cfg lr hb hj order order' hord o.cfg.maxIter 0 samples samples' h
      ⟨o.w.getD fun _ => 0, fun _ => 0, o.w.getD fun _ => 0, o.t⟩ ⟨curve, o.curves.loss⟩
    generalize Subgradient.loop m o.cfg lr order _ _ _ _ _ = a at key ⊢
    generalize Subgradient.loop m { o.cfg with C := o.cfg.C / k } lr order' _ _ _ _ _ = b at key ⊢
    cases a with
    | error e =>
      cases b with
      | error e' => simp only at key; subst key; rfl
      | ok b => exact absurd key (by simp)
    | ok a =>
      cases b with
      | error e' => exact absurd key (by simp)
      | ok b =>
        obtain ⟨d, st, c⟩ := a
        obtain ⟨d', st', c'⟩ := b
        obtain ⟨hd, rfl, rfl⟩ := key
        simp only [copies_objectivePrimal hk hd]
        cases objectivePrimal m st.selfW d o.cfg.C true <;> rfl

/-! ### perceptron -/

section Perceptron
open Verif.Perceptron

variable {X Y : Type} {l l' : List (X × Y)}

theorem perceptron_batch_fold (m : SModel X Y) (lr : ℚ) (it : ℕ) (w0 : W) (l : List (X × Y)) :
    ∀ st : St × ℚ, ∃ vs, l.foldl (batchStep m lr it w0) st =
      ({ st.1 with
          w := fun j => st.1.w j + (l.map fun s => if m.loss s.2 (m.inference s.1 w0) ≠ 0 then
            lr * (m.jointFeature s.1 s.2 j - m.jointFeature s.1 (m.inference s.1 w0) j) else 0).sum
          visits := vs }, st.2 + (l.map fun s => m.loss s.2 (m.inference s.1 w0)).sum) := by
  induction l with
  | nil => intro st; exact ⟨st.1.visits, by simp⟩
  | cons s l ih =>
    intro st
    obtain ⟨vs, hv⟩ := ih (batchStep m lr it w0 st s)
    refine ⟨vs, ?_⟩
    rw [List.foldl_cons, hv]
    unfold batchStep update
    simp only [List.map_cons, List.sum_cons]
    refine Prod.ext ?_ (by simp only; ring)
    simp only
    congr 1
    funext j
    by_cases hz : m.loss s.2 (m.inference s.1 w0) ≠ 0
    · simp only [if_pos hz]; ring
    · simp only [if_neg hz]; ring

/-- states that differ in the ghost state only. -/
def SamePerceptron (st st' : St) : Prop :=
  st.w = st'.w ∧ st.wbar = st'.wbar ∧ st.nObs = st'.nObs ∧ st.curve = st'.curve

theorem samePerceptron_observe (avg : Option ℤ) (it : ℕ) {st st' : St} (h : SamePerceptron st st') :
    SamePerceptron (observe avg it st) (observe avg it st') := by
  obtain ⟨h1, h2, h3, h4⟩ := h
  unfold observe
  cases avg with
  | none => exact ⟨h1, h2, h3, h4⟩
  | some a =>
    simp only
    by_cases ha : a ≤ it
    · rw [if_pos ha, if_pos ha]
      exact ⟨h1, by simp only [h1, h2, h3], by simp only [h3], h4⟩
    · rw [if_neg ha, if_neg ha]; exact ⟨h1, h2, h3, h4⟩

theorem samePerceptron_pass (h : l'.Perm l) (m : SModel X Y) (cfg : Config) (hb : cfg.batch = true) (avg : Option ℤ)
    (it : ℕ) {st st' : St} (hs : SamePerceptron st st') :
    SamePerceptron (pass m cfg avg l it st).1 (pass m cfg avg l' it st').1 ∧
      (pass m cfg avg l it st).2 = (pass m cfg avg l' it st').2 := by
  unfold pass
  simp only [hb, if_true]
  have hs0 : SamePerceptron (if avg = some (-1) then { st with nObs := 0, wbar := fun _ => 0 } else st)
      (if avg = some (-1) then { st' with nObs := 0, wbar := fun _ => 0 } else st') := by
    by_cases ha : avg = some (-1)
    · rw [if_pos ha, if_pos ha]; exact ⟨hs.1, rfl, rfl, hs.2.2.2⟩
    · rw [if_neg ha, if_neg ha]; exact hs
  generalize (if avg = some (-1) then { st with nObs := 0, wbar := fun _ => 0 } else st) = a at hs0 ⊢
  generalize (if avg = some (-1) then { st' with nObs := 0, wbar := fun _ => 0 } else st') = b at hs0 ⊢
  obtain ⟨h1, h2, h3, h4⟩ := hs0
  obtain ⟨vs, hv⟩ := perceptron_batch_fold m (cfg.lr it) it a.w l (a, 0)
  obtain ⟨vs', hv'⟩ := perceptron_batch_fold m (cfg.lr it) it b.w l' (b, 0)
  rw [hv, hv', ← h1]
  refine ⟨samePerceptron_observe avg it ⟨?_, h2, h3, h4⟩, ?_⟩
  · funext j
    simp only
    rw [(h.map _).sum_eq]
  · simp only
    rw [(h.map _).sum_eq]

end Perceptron

/-- **C147, StructuredPerceptron in batch mode.** The order of the samples does not matter. -/
theorem C147_perceptron {X Y : Type} (m : SModel X Y) (o : Perceptron.Obj) (hb : o.cfg.batch = true)
    (samples samples' : List (X × Y)) (h : samples'.Perm samples) :
    Perceptron.fit m o samples' = Perceptron.fit m o samples := by
  have hmax : (samples'.map fun s => m.maxLoss s.2).sum = (samples.map fun s => m.maxLoss s.2).sum :=
    (h.map _).sum_eq
  have key : ∀ (avg : Option ℤ) (n it : ℕ) (ml : ℚ) (st st' : Perceptron.St), SamePerceptron st st' →
      SamePerceptron (Perceptron.loop m o.cfg avg samples ml n it st)
        (Perceptron.loop m o.cfg avg samples' ml n it st') := by
    intro avg n
    induction n with
    | zero => intro it ml st st' hs; exact hs
    | succ n ih =>
      intro it ml st st' hs
      unfold Perceptron.loop
      obtain ⟨hp, hl⟩ := samePerceptron_pass h m o.cfg hb avg it hs
      simp only
      rw [← hl]
      by_cases hz : Perceptron.curveEntry (Perceptron.pass m o.cfg avg samples it st).2 ml = some 0
      · rw [if_pos hz, if_pos hz]
        exact ⟨hp.1, hp.2.1, hp.2.2.1, by simp only [hp.2.2.2]⟩
      · rw [if_neg hz, if_neg hz]
        exact ih _ _ _ _ ⟨hp.1, hp.2.1, hp.2.2.1, by simp only [hp.2.2.2]⟩
  unfold Perceptron.fit
  cases Perceptron.normAverage o.average with
  | error e => rfl
  | ok avg =>
    simp only [Perceptron.train, hmax]
    obtain ⟨h1, h2, h3, h4⟩ := key avg o.cfg.maxIter 0 (samples.map fun s => m.maxLoss s.2).sum Perceptron.start
      Perceptron.start ⟨rfl, rfl, rfl, rfl⟩
    rw [h1, h2, h4]

/-! ### one-slack -/

section OneSlack
open Verif.OneSlack

variable {X Y : Type} {k : ℕ} {l l' : List (X × Y)}

/-- the caches of two runs: none, or caches such that samples with their caches are copies. -/
def CacheCopies (k : ℕ) (l l' : List (X × Y)) : Option (List (List (Cached Y))) → Option (List (List (Cached Y))) → Prop
  | none, none => True
  | some c, some c' => c.length = l.length ∧ c'.length = l'.length ∧ Copies k (l.zip c) (l'.zip c')
  | _, _ => False

/-- both runs fail in the same way, or both succeed with results related by `R`. -/
inductive BothRun {α β : Type} (R : α → β → Prop) : Except PyErr α → Except PyErr β → Prop
  | error (e : PyErr) : BothRun R (.error e) (.error e)
  | ok {a : α} {b : β} : R a b → BothRun R (.ok a) (.ok b)

theorem copies_ok {α β : Type} {l l' : List α} (h : Copies k l l') (f : α → Except PyErr β) {bs bs' : List β}
    (hb : l.map f = bs.map .ok) (hb' : l'.map f = bs'.map .ok) : Copies k bs bs' := by
  intro g
  have key : ∀ (l : List α) (bs : List β), l.map f = bs.map .ok →
      bs.map g = l.map fun a => (match f a with | .ok b => g b | .error _ => 0) := by
    intro l bs hb
    have : l.map (fun a => (match f a with | .ok b => g b | .error _ => 0)) =
        (l.map f).map (fun r => (match r with | .ok b => g b | .error _ => 0)) := by
      rw [List.map_map]; rfl
    rw [this, hb, List.map_map]
    rfl
  rw [key _ _ hb, key _ _ hb']
  exact h _

theorem strongestAll_spec (dim : ℕ) (w : W) (cs : List (List (Cached Y))) :
    ((∃ c ∈ cs, strongestCached dim w c = .error .valueError) ∧ strongestAll dim w cs = .error .valueError) ∨
      ∃ es, strongestAll dim w cs = .ok es ∧ cs.map (strongestCached dim w) = es.map .ok := by
  induction cs with
  | nil => exact .inr ⟨[], rfl, rfl⟩
  | cons c cs ih =>
    unfold strongestAll
    have herr : ∀ e, strongestCached dim w c = .error e → e = .valueError := by
      intro e he
      unfold strongestCached at he
      split at he
      · cases he; rfl
      · cases he
    cases hc : strongestCached dim w c with
    | error e => obtain rfl := herr e hc; exact .inl ⟨⟨c, List.mem_cons_self, hc⟩, rfl⟩
    | ok v =>
      simp only
      rcases ih with ⟨⟨c', hm, hc'⟩, h2⟩ | ⟨es, h1, h2⟩
      · rw [h2]; exact .inl ⟨⟨c', List.mem_cons_of_mem _ hm, hc'⟩, rfl⟩
      · rw [h1]; exact .inr ⟨v :: es, rfl, by rw [List.map_cons, List.map_cons, hc, h2]⟩

theorem alreadyThere_raises {eq : Y → Y → Except PyErr Bool} {e0 : PyErr} (heq : ∀ a b e, eq a b = .error e → e = e0)
    (yhat : Y) (cs : List (Cached Y)) : ∀ e, alreadyThere eq yhat cs = .error e → e = e0 := by
  induction cs with
  | nil => intro e h; cases h
  | cons c cs ih =>
    intro e h
    unfold alreadyThere at h
    cases hq : eq yhat c.2.2 with
    | error e' => rw [hq] at h; cases h; exact heq _ _ _ hq
    | ok b =>
      rw [hq] at h
      simp only at h
      cases ha : alreadyThere eq yhat cs with
      | error e' => rw [ha] at h; cases h; exact ih _ ha
      | ok b' => rw [ha] at h; cases h

theorem cacheSamples_spec (m : SModel X Y) {eq : Y → Y → Except PyErr Bool} {e0 : PyErr}
    (heq : ∀ a b e, eq a b = .error e → e = e0) (size : ℕ) (g : X × Y → Y) :
    ∀ (l : List (X × Y)) (c : List (List (Cached Y))), c.length = l.length →
      ((∃ t ∈ l.zip c, cacheSample m eq size t.2 t.1.1 t.1.2 (g t.1) = .error e0) ∧
        cacheSamples m eq size c l (l.map g) = .error e0) ∨
      ∃ c2, cacheSamples m eq size c l (l.map g) = .ok c2 ∧ c2.length = l.length ∧
        (l.zip c).map (fun t => (cacheSample m eq size t.2 t.1.1 t.1.2 (g t.1)).map fun r => (t.1, r)) =
          (l.zip c2).map .ok := by
  intro l
  induction l with
  | nil =>
    intro c hc
    have : c = [] := List.length_eq_zero_iff.mp hc
    subst this
    exact .inr ⟨[], rfl, rfl, rfl⟩
  | cons s l ih =>
    intro c hc
    cases c with
    | nil => cases hc
    | cons c cs =>
      have hlen : cs.length = l.length := by simpa using hc
      rw [List.map_cons]
      unfold cacheSamples
      have herr : ∀ e, cacheSample m eq size c s.1 s.2 (g s) = .error e → e = e0 := by
        intro e he
        unfold cacheSample at he
        cases ha : alreadyThere eq (g s) c with
        | error e' => rw [ha] at he; cases he; exact alreadyThere_raises heq _ _ _ ha
        | ok b => rw [ha] at he; cases b <;> cases he
      cases hcs : cacheSample m eq size c s.1 s.2 (g s) with
      | error e =>
        obtain rfl := herr e hcs
        exact .inl ⟨⟨(s, c), by simp, hcs⟩, rfl⟩
      | ok v =>
        simp only
        rcases ih cs hlen with ⟨⟨t, hm, ht⟩, h2⟩ | ⟨c2, h1, h2, h3⟩
        · rw [h2]
          exact .inl ⟨⟨t, by rw [List.zip_cons_cons]; exact List.mem_cons_of_mem _ hm, ht⟩, rfl⟩
        · rw [h1]
          refine .inr ⟨v :: c2, rfl, by simp [h2], ?_⟩
          rw [List.zip_cons_cons, List.zip_cons_cons, List.map_cons, List.map_cons, h3, hcs]
          rfl

theorem updateCache_copies (hk : 0 < k) (h : Copies k l l') (m : SModel X Y) {eq : Y → Y → Except PyErr Bool}
    {e0 : PyErr} (heq : ∀ a b e, eq a b = .error e → e = e0) (cfg : Config) (C' : ℚ) (g : X × Y → Y)
    {c c' : Option (List (List (Cached Y)))} (hc : CacheCopies k l l' c c') :
    BothRun (CacheCopies k l l') (updateCache m eq cfg c l (l.map g))
      (updateCache m eq { cfg with C := C' } c' l' (l'.map g)) := by
  unfold updateCache
  simp only
  by_cases hz : cfg.inferenceCache = 0
  · rw [if_pos hz, if_pos hz]; exact .ok hc
  · rw [if_neg hz, if_neg hz]
    have hstart : ∃ d d', c.getD ((l.map g).map fun _ => []) = d ∧ c'.getD ((l'.map g).map fun _ => []) = d' ∧
        d.length = l.length ∧ d'.length = l'.length ∧ Copies k (l.zip d) (l'.zip d') := by
      cases c with
      | none =>
        cases c' with
        | none =>
          refine ⟨_, _, rfl, rfl, by simp, by simp, ?_⟩
          have hzip : ∀ l : List (X × Y), l.zip (((l.map g).map fun _ => ([] : List (Cached Y)))) =
              l.map fun s => (s, []) := by
            intro l
            induction l with
            | nil => rfl
            | cons s l ih => simp only [List.map_cons, List.zip_cons_cons, ih]
          simp only [Option.getD_none, hzip]
          exact copies_map h _
        | some c' => exact absurd hc (by simp [CacheCopies])
      | some c =>
        cases c' with
        | none => exact absurd hc (by simp [CacheCopies])
        | some c' => exact ⟨c, c', rfl, rfl, hc.1, hc.2.1, hc.2.2⟩
    obtain ⟨d, d', e1, e2, l1, l2, hcop⟩ := hstart
    rw [e1, e2]
    rcases cacheSamples_spec m heq cfg.inferenceCache g l d l1 with ⟨⟨t, ht, hte⟩, hr⟩ | ⟨c2, hr, hl2, hz2⟩
    · rw [hr]
      rcases cacheSamples_spec m heq cfg.inferenceCache g l' d' l2 with ⟨-, hr'⟩ | ⟨c2', hr', hl2', hz2'⟩
      · rw [hr']; exact .error _
      · exfalso
        have hm := List.mem_map_of_mem (f := fun t : (X × Y) × List (Cached Y) =>
          (cacheSample m eq cfg.inferenceCache t.2 t.1.1 t.1.2 (g t.1)).map fun r => (t.1, r))
          ((copies_mem hk hcop t).mpr ht)
        rw [hz2', hte] at hm
        obtain ⟨a, -, ha⟩ := List.mem_map.mp hm
        cases ha
    · rw [hr]
      rcases cacheSamples_spec m heq cfg.inferenceCache g l' d' l2 with ⟨⟨t, ht, hte⟩, hr'⟩ | ⟨c2', hr', hl2', hz2'⟩
      · exfalso
        have hm := List.mem_map_of_mem (f := fun t : (X × Y) × List (Cached Y) =>
          (cacheSample m eq cfg.inferenceCache t.2 t.1.1 t.1.2 (g t.1)).map fun r => (t.1, r))
          ((copies_mem hk hcop t).mp ht)
        rw [hz2, hte] at hm
        obtain ⟨a, -, ha⟩ := List.mem_map.mp hm
        cases ha
      · rw [hr']
        exact .ok ⟨hl2, hl2', copies_ok hcop _ hz2 hz2'⟩

/-- two states of training on `l` and on `l'`. -/
structure TwinStates (k : ℕ) (l l' : List (X × Y)) (st st' : St X Y) : Prop where
  same : st' = { st with alphas := st'.alphas, cache := st'.cache }
  length : st'.alphas.length = st.alphas.length
  alphas : k = 1 → st'.alphas = st.alphas
  cache : CacheCopies k l l' st.cache st'.cache

theorem checkBad_C (cfg : Config) (C' : ℚ) (dim : ℕ) (w : W) (ls v : ℚ) (dj : W) (loss : ℚ) (old : List Con) (b : Bool) :
    checkBad { cfg with C := C' } dim w ls v dj loss old b = checkBad cfg dim w ls v dj loss old b := rfl

theorem fromCache_copies (hk : 0 < k) (h : Copies k l l') (cfg : Config) (C' : ℚ) (gt gt' : W)
    (hgt : ∀ j, gt' j = k * gt j) {st st' : St X Y} (ht : TwinStates k l l' st st') :
    BothRun (fun a b => (a = none ↔ b = none) ∧ ∀ f f', a = some f → b = some f' → f.dj = f'.dj ∧ f.loss = f'.loss)
      (fromCache cfg st gt l.length) (fromCache { cfg with C := C' } st' gt' l'.length) := by
  have hk' : (k : ℚ) ≠ 0 := by exact_mod_cast hk.ne'
  obtain ⟨hsame, -, -, hcache⟩ := ht
  generalize st'.alphas = a' at hsame
  generalize st'.cache = cc at hsame hcache
  subst hsame
  unfold fromCache
  simp only
  have hnone : BothRun (fun a b => (a = none ↔ b = none) ∧ ∀ f f', a = some f → b = some f' →
      f.dj = f'.dj ∧ f.loss = f'.loss) (.ok (none : Option (Found Y))) (.ok (none : Option (Found Y))) :=
    .ok ⟨Iff.rfl, by intro f f' h1; cases h1⟩
  cases hc : st.cache with
  | none =>
    cases cc with
    | none => exact hnone
    | some c' => rw [hc] at hcache; exact absurd hcache (by simp [CacheCopies])
  | some c =>
    cases cc with
    | none => rw [hc] at hcache; exact absurd hcache (by simp [CacheCopies])
    | some c' =>
      rw [hc] at hcache
      obtain ⟨l1, l2, hcop⟩ := hcache
      have hlen := copies_length h
      cases c with
      | nil =>
        have : c' = [] := by
          rw [← List.length_eq_zero_iff, l2, hlen, ← l1]; simp
        subst this
        exact hnone
      | cons a c =>
        cases c' with
        | nil =>
          exfalso
          have h0 : l'.length = 0 := by rw [← l2]; rfl
          rw [hlen, ← l1] at h0
          simp [hk.ne'] at h0
        | cons b c' =>
          simp only
          cases st.primalCurve.getLast? with
          | none => exact .error _
          | some p =>
            cases st.objectiveCurve.getLast? with
            | none => exact .error _
            | some ob =>
              simp only
              by_cases hg : gapSmall cfg.cacheTol st.cacheTol (p - ob) = true
              · rw [if_pos hg, if_pos hg]; exact hnone
              · rw [if_neg hg, if_neg hg]
                have hcs : Copies k (a :: c) (b :: c') := by
                  have h1 := copies_map hcop Prod.snd
                  rwa [List.map_snd_zip (by omega), List.map_snd_zip (by omega)] at h1
                rcases strongestAll_spec st.model.dim st.w (a :: c) with ⟨⟨x, hx, hxe⟩, hr⟩ | ⟨es, hr, hes⟩
                · rcases strongestAll_spec st.model.dim st.w (b :: c') with ⟨-, hr'⟩ | ⟨es', hr', hes'⟩
                  · rw [hr, hr']; exact .error _
                  · exfalso
                    have hm := List.mem_map_of_mem (f := strongestCached st.model.dim st.w) ((copies_mem hk hcs x).mpr hx)
                    rw [hes', hxe] at hm
                    obtain ⟨_, -, ha⟩ := List.mem_map.mp hm
                    cases ha
                · rcases strongestAll_spec st.model.dim st.w (b :: c') with ⟨⟨x, hx, hxe⟩, hr'⟩ | ⟨es', hr', hes'⟩
                  · exfalso
                    have hm := List.mem_map_of_mem (f := strongestCached st.model.dim st.w) ((copies_mem hk hcs x).mp hx)
                    rw [hes, hxe] at hm
                    obtain ⟨_, -, ha⟩ := List.mem_map.mp hm
                    cases ha
                  · rw [hr, hr']
                    have hcopE := copies_ok hcs _ hes hes'
                    have hdj : (fun j => (gt' j - (es'.map fun e => e.1 j).sum) / (l'.length : ℚ)) =
                        fun j => (gt j - (es.map fun e => e.1 j).sum) / (l.length : ℚ) := by
                      funext j
                      rw [hgt, hcopE, hlen, Nat.cast_mul, ← mul_sub, mul_div_mul_left _ _ hk']
                    have hloss : (es'.map fun e => e.2.1).sum / (l'.length : ℚ) =
                        (es.map fun e => e.2.1).sum / (l.length : ℚ) := by
                      rw [hcopE, hlen, Nat.cast_mul, mul_div_mul_left _ _ hk']
                    simp only [hdj, hloss, checkBad_C cfg C']
                    generalize checkBad cfg _ _ _ _ _ _ _ _ = r
                    cases r with
                    | error e => exact .error e
                    | ok v =>
                      cases v with
                      | true => exact hnone
                      | false => exact .ok ⟨by simp, by
                          intro f f' h1 h2
                          cases h1; cases h2
                          exact ⟨rfl, rfl⟩⟩

theorem findNew_copies (hk : 0 < k) (h : Copies k l l') (cfg : Config) (C' : ℚ) (gt gt' : W)
    (hgt : ∀ j, gt' j = k * gt j) {st st' : St X Y} (ht : TwinStates k l l' st st') :
    BothRun (fun a b => (a = none ↔ b = none) ∧ ∀ f f', a = some f → b = some f' → f.dj = f'.dj ∧ f.loss = f'.loss ∧
        f.yhat = l.map (fun s => st.model.lossAug s.1 s.2 st.w true) ∧
        f'.yhat = l'.map (fun s => st.model.lossAug s.1 s.2 st.w true))
      (findNew cfg st gt l) (findNew { cfg with C := C' } st' gt' l') := by
  have hk' : (k : ℚ) ≠ 0 := by exact_mod_cast hk.ne'
  obtain ⟨hsame, -, -, -⟩ := ht
  generalize st'.alphas = a' at hsame
  generalize st'.cache = cc at hsame
  subst hsame
  have hlen := copies_length h
  unfold findNew
  simp only [List.map_map]
  have hdj : (fun j => (gt' j - (l'.map ((fun p : (X × Y) × Y => st.model.feat p.1.1 p.2 p.1.2 j) ∘
        fun s => (s, st.model.lossAug s.1 s.2 st.w true))).sum) / (l'.length : ℚ)) =
      fun j => (gt j - (l.map ((fun p : (X × Y) × Y => st.model.feat p.1.1 p.2 p.1.2 j) ∘
        fun s => (s, st.model.lossAug s.1 s.2 st.w true))).sum) / (l.length : ℚ) := by
    funext j
    rw [hgt, h, hlen, Nat.cast_mul, ← mul_sub, mul_div_mul_left _ _ hk']
  have hloss := copies_mean hk h ((fun p : (X × Y) × Y => st.model.lossOf p.1.2 p.2) ∘
    fun s => (s, st.model.lossAug s.1 s.2 st.w true))
  simp only [hdj, hloss, checkBad_C cfg C']
  generalize checkBad cfg _ _ _ _ _ _ _ _ = r
  cases r with
  | error e => exact .error e
  | ok v =>
    cases v with
    | true => exact .ok ⟨Iff.rfl, by intro f f' h1; cases h1⟩
    | false => exact .ok ⟨by simp, by
        intro f f' h1 h2
        cases h1; cases h2
        exact ⟨rfl, rfl, rfl, rfl⟩⟩

theorem prune_copies (cfg : Config) (C' : ℚ) (hw : k = 1 ∨ cfg.inactiveWindow = 0) (cs : List Con)
    (a a' : List (List ℚ)) (hl : a'.length = a.length) (ha : k = 1 → a' = a) (x : List ℚ) :
    BothRun (fun p p' => p'.1 = p.1 ∧ p'.2.length = p.2.length ∧ (k = 1 → p'.2 = p.2))
      (prune cfg cs a x) (prune { cfg with C := C' } cs a' x) := by
  rcases hw with h1 | h0
  · rw [ha h1]
    rw [show prune { cfg with C := C' } cs a x = prune cfg cs a x from rfl]
    generalize prune cfg cs a x = r
    cases r with
    | error e => exact .error e
    | ok v => exact .ok ⟨rfl, rfl, fun _ => rfl⟩
  · unfold prune
    simp only [List.length_append, hl]
    by_cases hn : a.length + [([] : List ℚ)].length ≠ cs.length
    · rw [if_pos hn, if_pos hn]; exact .error _
    · rw [if_neg hn, if_neg hn, if_pos h0, if_pos h0]
      exact .ok ⟨rfl, by simp [List.length_zipWith, hl], fun h1 => by rw [ha h1]⟩

theorem addConstraint_copies (hk : 0 < k) (h : Copies k l l') (qp : QP.Solver) (cfg : Config)
    (hw : k = 1 ∨ cfg.inactiveWindow = 0) (it : ℕ) (intr : Option Phase) {st st' : St X Y}
    (ht : TwinStates k l l' st st') (f f' : Found Y) (hdj : f.dj = f'.dj) (hloss : f.loss = f'.loss) (cached : Bool) :
    BothRun (fun r r' => TwinStates k l l' r.1 r'.1 ∧ r.2 = r'.2) (addConstraint qp cfg l it intr st f cached)
      (addConstraint qp { cfg with C := cfg.C / k } l' it intr st' f' cached) := by
  have hk' : (k : ℚ) ≠ 0 := by exact_mod_cast hk.ne'
  have hCn : cfg.C / k * (l'.length : ℚ) = cfg.C * l.length := by
    rw [copies_length h]; push_cast; field_simp
  obtain ⟨hsame, hal, ha1, hcache⟩ := ht
  generalize st'.alphas = a' at hsame hal ha1
  generalize st'.cache = cc at hsame hcache
  subst hsame
  unfold addConstraint
  simp only [hCn, ← hdj, ← hloss, copies_trainingLoss hk h]
  by_cases hq : intr = some .qp
  · rw [if_pos hq, if_pos hq]
    exact .ok ⟨⟨rfl, hal, ha1, hcache⟩, rfl⟩
  · rw [if_neg hq, if_neg hq]
    cases solveQP qp st.model.dim cfg.negativity (cfg.C * l.length) (st.constraints ++ [(f.dj, f.loss)]) with
    | error e => exact .error e
    | ok sol =>
      simp only
      have hp := prune_copies cfg (cfg.C / k) hw (st.constraints ++ [(f.dj, f.loss)]) st.alphas a' hal ha1 sol.x
      generalize prune cfg (st.constraints ++ [(f.dj, f.loss)]) st.alphas sol.x = p at hp ⊢
      generalize prune { cfg with C := cfg.C / k } (st.constraints ++ [(f.dj, f.loss)]) a' sol.x = p' at hp ⊢
      cases hp with
      | error e => exact .error e
      | @ok v v' hv =>
        obtain ⟨cs, al⟩ := v
        obtain ⟨cs', al'⟩ := v'
        obtain ⟨rfl, h2, h3⟩ := hv
        simp only
        by_cases hi : intr = some .after
        · rw [if_pos hi, if_pos hi]
          exact .ok ⟨⟨rfl, h2, h3, hcache⟩, rfl⟩
        · rw [if_neg hi, if_neg hi]
          cases newLastSlack st.model.dim (weightsOf (st.constraints ++ [(f.dj, f.loss)]) sol.x) cs' with
          | error e => exact .error e
          | ok s => exact .ok ⟨⟨rfl, h2, h3, hcache⟩, rfl⟩

theorem iteration_copies (hk : 0 < k) (h : Copies k l l') (qp : QP.Solver) {eq : Y → Y → Except PyErr Bool}
    {e0 : PyErr} (heq : ∀ a b e, eq a b = .error e → e = e0)
    (alt : Option ((X → Y → W → Bool → Y) × (X → W → Y))) (cfg : Config) (hw : k = 1 ∨ cfg.inactiveWindow = 0)
    (gt gt' : W) (hgt : ∀ j, gt' j = k * gt j) (it : ℕ) (intr : Option Phase) {st st' : St X Y}
    (ht : TwinStates k l l' st st') :
    BothRun (fun r r' => TwinStates k l l' r.1 r'.1 ∧ r.2 = r'.2) (iteration qp eq alt cfg l gt it intr st)
      (iteration qp eq alt { cfg with C := cfg.C / k } l' gt' it intr st') := by
  unfold iteration
  by_cases hi : intr = some .search
  · rw [if_pos hi, if_pos hi]; exact .ok ⟨ht, rfl⟩
  · rw [if_neg hi, if_neg hi]
    have hf := fromCache_copies hk h cfg (cfg.C / k) gt gt' hgt ht
    generalize fromCache cfg st gt l.length = a at hf ⊢
    generalize fromCache { cfg with C := cfg.C / k } st' gt' l'.length = b at hf ⊢
    cases hf with
    | error e => exact .error e
    | @ok a b hab =>
      cases a with
      | some f =>
        cases b with
        | none => exact absurd (hab.1.mpr rfl) (by simp)
        | some f' =>
          obtain ⟨h1, h2⟩ := hab.2 f f' rfl rfl
          exact addConstraint_copies hk h qp cfg hw it intr ht f f' h1 h2 true
      | none =>
        cases b with
        | some f' => exact absurd (hab.1.mp rfl) (by simp)
        | none =>
          simp only
          have hn := findNew_copies hk h cfg (cfg.C / k) gt gt' hgt ht
          generalize findNew cfg st gt l = c at hn ⊢
          generalize findNew { cfg with C := cfg.C / k } st' gt' l' = d at hn ⊢
          cases hn with
          | error e => exact .error e
          | @ok c d hcd =>
            cases c with
            | some f =>
              cases d with
              | none => exact absurd (hcd.1.mpr rfl) (by simp)
              | some f' =>
                obtain ⟨h1, h2, h3, h4⟩ := hcd.2 f f' rfl rfl
                simp only
                have hm : st'.model = st.model := by rw [ht.same]
                have hu := updateCache_copies hk h st.model heq cfg (cfg.C / k)
                  (fun s => st.model.lossAug s.1 s.2 st.w true) ht.cache
                rw [h3, h4, hm]
                generalize updateCache st.model eq cfg st.cache l _ = u at hu ⊢
                generalize updateCache st.model eq { cfg with C := cfg.C / k } st'.cache l' _ = u' at hu ⊢
                cases hu with
                | error e => exact .error e
                | @ok u u' huu =>
                  refine addConstraint_copies hk h qp cfg hw it intr (st := { st with cache := u })
                    (st' := { st' with model := st.model, cache := u' }) ⟨?_, ht.length, ht.alphas, huu⟩ f f' h1 h2 false
                  simp only
                  rw [ht.same]
            | none =>
              cases d with
              | some f' => exact absurd (hcd.1.mp rfl) (by simp)
              | none =>
                simp only
                have hsw : st'.switched = st.switched := by rw [ht.same]
                have hmod : st'.model = st.model := by rw [ht.same]
                rw [hsw]
                cases st.switched with
                | true => exact .ok ⟨ht, rfl⟩
                | false =>
                  cases alt with
                  | none => exact .ok ⟨ht, rfl⟩
                  | some p =>
                    obtain ⟨la, inf⟩ := p
                    refine .ok ⟨⟨?_, ht.length, ht.alphas, ht.cache⟩, rfl⟩
                    simp only
                    rw [ht.same]

theorem oneSlack_loop_copies (hk : 0 < k) (h : Copies k l l') (qp : QP.Solver) {eq : Y → Y → Except PyErr Bool}
    {e0 : PyErr} (heq : ∀ a b e, eq a b = .error e → e = e0)
    (alt : Option ((X → Y → W → Bool → Y) × (X → W → Y))) (cfg : Config) (hw : k = 1 ∨ cfg.inactiveWindow = 0)
    (gt gt' : W) (hgt : ∀ j, gt' j = k * gt j) (intr : ℕ → Option Phase) :
    ∀ (n it : ℕ) {st st' : St X Y}, TwinStates k l l' st st' →
      BothRun (TwinStates k l l') (loop qp eq alt cfg l gt intr n it st)
        (loop qp eq alt { cfg with C := cfg.C / k } l' gt' intr n it st') := by
  intro n
  induction n with
  | zero => intro it st st' ht; exact .ok ht
  | succ n ih =>
    intro it st st' ht
    unfold loop
    have hi := iteration_copies hk h qp heq alt cfg hw gt gt' hgt it (intr it) ht
    generalize iteration qp eq alt cfg l gt it (intr it) st = a at hi ⊢
    generalize iteration qp eq alt { cfg with C := cfg.C / k } l' gt' it (intr it) st' = b at hi ⊢
    cases hi with
    | error e => exact .error e
    | @ok r r' hr =>
      obtain ⟨s, b⟩ := r
      obtain ⟨s', b'⟩ := r'
      obtain ⟨h1, rfl⟩ := hr
      cases b with
      | true => exact ih _ h1
      | false => exact .ok h1

end OneSlack

/-- **C147, OneSlackSSVM.** Training on every sample `k` times, in any order, with `C / k` gives the weights, working set,
curves and exceptions of training with `C`, with or without inference cache, `switch_to` and interrupts. With pruning
(`inactive_window` positive) only the order may change: the first recorded multiplier is `C`, not the `C n` of the QP. -/
theorem C147_one_slack {X Y : Type} (m : SModel X Y) (qp : QP.Solver) (eq : Y → Y → Except PyErr Bool) (e0 : PyErr)
    (heq : ∀ a b e, eq a b = .error e → e = e0) (alt : Option ((X → Y → W → Bool → Y) × (X → W → Y)))
    (intr : ℕ → Option OneSlack.Phase) (o : OneSlack.Obj Y) (k : ℕ) (hk : 0 < k)
    (hw : k = 1 ∨ o.cfg.inactiveWindow = 0) (samples samples' : List (X × Y)) (h : Repeated k samples samples') :
    BothRun (fun r r' => r'.lossCurve = r.lossCurve ∧ ∃ a a', r.attrs = some a ∧ r'.attrs = some a' ∧ a'.w = a.w ∧
        a'.constraints = a.constraints ∧ a'.objectiveCurve = a.objectiveCurve ∧ a'.primalCurve = a.primalCurve ∧
        a'.cachedFlags = a.cachedFlags ∧ (k = 1 → a'.alphas = a.alphas))
      (OneSlack.fit m qp eq alt intr o samples .no)
      (OneSlack.fit m qp eq alt intr { o with cfg := { o.cfg with C := o.cfg.C / k } } samples' .no) := by
  have h := copies_of_repeated h
  unfold OneSlack.fit
  have hgt : ∀ j, OneSlack.jointFeatureGt m samples' j = k * OneSlack.jointFeatureGt m samples j := fun j => h _
  obtain ⟨st0, st0', hs, hs', ht0⟩ : ∃ st st' : OneSlack.St X Y, OneSlack.start m o .no = .ok st ∧
      OneSlack.start m { o with cfg := { o.cfg with C := o.cfg.C / k } } .no = .ok st' ∧
      TwinStates k samples samples' st st' :=
    ⟨_, _, rfl, rfl, rfl, rfl, fun h1 => by subst h1; simp, trivial⟩
  rw [hs, hs']
  simp only
  have hl := oneSlack_loop_copies hk h qp heq alt o.cfg hw _ _ hgt intr o.cfg.maxIter 0 ht0
  generalize OneSlack.loop qp eq alt o.cfg samples _ intr _ _ _ = a at hl ⊢
  generalize OneSlack.loop qp eq alt { o.cfg with C := o.cfg.C / k } samples' _ intr _ _ _ = b at hl ⊢
  cases hl with
  | error e => exact .error e
  | @ok st st' ht =>
    simp only
    have hm : st'.model = st.model := by rw [ht.same]
    have hww : st'.w = st.w := by rw [ht.same]
    rw [hm, hww, copies_objectivePrimal hk h]
    cases objectivePrimal st.model st.w samples o.cfg.C false with
    | error e => exact .error e
    | ok p =>
      simp only
      have ho : st'.objective = st.objective := by rw [ht.same]
      rw [ho]
      cases st.objective with
      | none => exact .error _
      | some ob =>
        have h1 : st'.shared = st.shared := by rw [ht.same]
        have h2 : st'.constraints = st.constraints := by rw [ht.same]
        have h3 : st'.objectiveCurve = st.objectiveCurve := by rw [ht.same]
        have h4 : st'.primalCurve = st.primalCurve := by rw [ht.same]
        have h5 : st'.cachedFlags = st.cachedFlags := by rw [ht.same]
        have h6 : st'.lossCurve = st.lossCurve := by rw [ht.same]
        exact .ok ⟨h6, _, _, rfl, rfl, rfl, by simp only [h1, h2], by simp only [h3], by simp only [h4],
          by simp only [h5], ht.alphas⟩

/-- `constraint_equal` raises nothing but `TypeError`. -/
theorem C147_constraint_equal (a b : OneSlack.Output) (e : PyErr) (h : OneSlack.constraintEqual a b = .error e) :
    e = .typeError := by
  unfold OneSlack.constraintEqual at h
  split at h
  · split at h
    · cases h; rfl
    · cases h
  · cases h
  · cases h
  · cases h

/-! ### cases that meet the hypotheses; without batches the order matters -/

/-- a model with one feature: labels 1 and -1. -/
def signModel : SModel ℚ ℤ where
  dim := 1
  jointFeature x y := fun _ => x * y
  rescaleC := false
  jointFeatureR x y _ := fun _ => x * y
  lossAug x _ w _ := if 0 ≤ w 0 * x then 1 else -1
  inference x w := if 0 ≤ w 0 * x then 1 else -1
  isTuple _ := false
  loss y y' := if y = y' then 0 else 1
  continuousLoss _ _ := 0
  maxLoss _ := 1

example : Repeated 2 [((1 : ℚ), (-1 : ℤ)), (2, 1)] [(2, 1), (1, -1), (1, -1), (2, 1)] := by
  unfold Repeated; decide +kernel

/-- the online perceptron depends on the order of the samples. -/
example : ∃ r r', Perceptron.fit signModel ⟨⟨1, false, fun _ => 1⟩, .off, fun _ => 0, []⟩ [(1, -1), (2, -1)] = .ok r ∧
    Perceptron.fit signModel ⟨⟨1, false, fun _ => 1⟩, .off, fun _ => 0, []⟩ [(2, -1), (1, -1)] = .ok r' ∧
    r.w 0 = -2 ∧ r'.w 0 = -4 :=
  ⟨_, _, rfl, rfl, by decide +kernel, by decide +kernel⟩

/-- the batch perceptron on the same data. -/
example : ∃ r, Perceptron.fit signModel ⟨⟨1, true, fun _ => 1⟩, .off, fun _ => 0, []⟩ [(1, -1), (2, -1)] = .ok r ∧
    r.w 0 = -6 :=
  ⟨_, rfl, by decide +kernel⟩

/-- batch Frank-Wolfe training does something on these data. -/
example : (FrankWolfe.fit signModel (fun _ => []) ⟨⟨1, 1, 0, true, false, 1, false⟩, none, none, ⟨[], []⟩⟩
    [(1, -1), (2, -1)]).toOption.bind (fun r => r.w.map fun w => w 0) = some (-6) := by decide +kernel

end Verif.Props
