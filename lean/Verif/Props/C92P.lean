import Verif.Props.C67
import Verif.Props.C91

/-!
# C92: when caching does not change whether training works
-/

namespace Verif.Props

open Finset Verif.Spec Verif.Learner Verif.OneSlack

variable {X Y : Type}

theorem alreadyThere_congr {eq eq' : Y → Y → Except PyErr Bool} {P : Y → Prop}
    (hag : ∀ a b, P a → P b → eq a b = eq' a b) {yh : Y} (hy : P yh) (l : List (Cached Y)) (hl : ∀ c ∈ l, P c.2.2) :
    alreadyThere eq yh l = alreadyThere eq' yh l := by
  induction l with
  | nil => rfl
  | cons c l ih =>
    unfold alreadyThere
    rw [hag _ _ hy (hl c List.mem_cons_self), ih fun c hc => hl c (List.mem_cons_of_mem _ hc)]

theorem cacheSample_congr {m : SModel X Y} {eq eq' : Y → Y → Except PyErr Bool} {P : Y → Prop}
    (hag : ∀ a b, P a → P b → eq a b = eq' a b) (size : ℕ) {yh : Y} (hy : P yh) (l : List (Cached Y))
    (hl : ∀ c ∈ l, P c.2.2) (x : X) (y : Y) :
    cacheSample m eq size l x y yh = cacheSample m eq' size l x y yh ∧
      ∀ l', cacheSample m eq size l x y yh = .ok l' → ∀ c ∈ l', P c.2.2 := by
  refine ⟨by unfold cacheSample; rw [alreadyThere_congr hag hy l hl], fun l' h c hc => ?_⟩
  rcases (cacheSample_ok h).2 with rfl | rfl
  · exact hl c hc
  · rcases List.mem_append.mp hc with hc | hc
    · exact hl c (List.mem_of_mem_drop hc)
    · rw [List.mem_singleton.mp hc]
      exact hy

theorem cacheSamples_congr {m : SModel X Y} {eq eq' : Y → Y → Except PyErr Bool} {P : Y → Prop}
    (hag : ∀ a b, P a → P b → eq a b = eq' a b) (size : ℕ) (cache : List (List (Cached Y)))
    (hc : ∀ l ∈ cache, ∀ c ∈ l, P c.2.2) (samples : List (X × Y)) (yhat : List Y) (hy : ∀ y ∈ yhat, P y) :
    cacheSamples m eq size cache samples yhat = cacheSamples m eq' size cache samples yhat ∧
      ∀ cache', cacheSamples m eq size cache samples yhat = .ok cache' → ∀ l ∈ cache', ∀ c ∈ l, P c.2.2 := by
  induction cache generalizing samples yhat with
  | nil =>
    refine ⟨by unfold cacheSamples; rfl, fun cache' h => ?_⟩
    unfold cacheSamples at h
    cases h
    simp
  | cons c cs ih =>
    have triv : ∀ {r : Except PyErr (List (List (Cached Y)))}, r = .ok (c :: cs) → ∀ cache', r = .ok cache' →
        ∀ l ∈ cache', ∀ c ∈ l, P c.2.2 := by
      intro r h cache' h'
      rw [h] at h'
      cases h'
      exact hc
    cases samples with
    | nil => exact ⟨rfl, triv rfl⟩
    | cons s samples =>
      cases yhat with
      | nil => exact ⟨rfl, triv rfl⟩
      | cons y yhat =>
        obtain ⟨h1, h2⟩ := cacheSample_congr (m := m) hag size (hy y List.mem_cons_self) c (hc c List.mem_cons_self) s.1 s.2
        obtain ⟨h3, h4⟩ := ih (fun l hl => hc l (List.mem_cons_of_mem _ hl)) samples yhat
          fun y hy' => hy y (List.mem_cons_of_mem _ hy')
        refine ⟨by unfold cacheSamples; rw [h1, h3], fun cache' h => ?_⟩
        unfold cacheSamples at h
        cases e1 : cacheSample m eq size c s.1 s.2 y with
        | error e => rw [e1] at h; cases h
        | ok c' =>
          rw [e1] at h
          simp only at h
          cases e2 : cacheSamples m eq size cs samples yhat with
          | error e => rw [e2] at h; cases h
          | ok cs' =>
            rw [e2] at h
            cases h
            intro l hl
            rcases List.mem_cons.mp hl with rfl | hl
            · exact h2 _ e1
            · exact h4 _ e2 l hl

theorem updateCache_congr {m : SModel X Y} {eq eq' : Y → Y → Except PyErr Bool} {P : Y → Prop}
    (hag : ∀ a b, P a → P b → eq a b = eq' a b) (cfg : Config) (cache : Option (List (List (Cached Y))))
    (hc : ∀ c, cache = some c → ∀ l ∈ c, ∀ c ∈ l, P c.2.2) (samples : List (X × Y)) (yhat : List Y)
    (hy : ∀ y ∈ yhat, P y) :
    updateCache m eq cfg cache samples yhat = updateCache m eq' cfg cache samples yhat ∧
      ∀ cache', updateCache m eq cfg cache samples yhat = .ok cache' →
        ∀ c, cache' = some c → ∀ l ∈ c, ∀ c ∈ l, P c.2.2 := by
  have hc0 : ∀ l ∈ cache.getD (yhat.map fun _ => []), ∀ c ∈ l, P c.2.2 := by
    cases cache with
    | none =>
      intro l hl c hc
      obtain ⟨y, -, rfl⟩ := List.mem_map.mp hl
      cases hc
    | some c => exact hc c rfl
  obtain ⟨h1, h2⟩ := cacheSamples_congr (m := m) hag cfg.inferenceCache _ hc0 samples yhat hy
  unfold updateCache
  rw [← h1]
  refine ⟨rfl, fun cache' h => ?_⟩
  by_cases h0 : cfg.inferenceCache = 0
  · rw [if_pos h0] at h
    cases h
    exact hc
  · rw [if_neg h0] at h
    cases e : cacheSamples m eq cfg.inferenceCache (cache.getD (yhat.map fun _ => [])) samples yhat with
    | error e1 => rw [e] at h; cases h
    | ok c' =>
      rw [e] at h
      cases h
      intro c hc
      cases hc
      exact h2 _ e

/-- all outputs that the loop can come across satisfy `P`. -/
def OutputsIn (P : Y → Prop) (alt : Option ((X → Y → W → Bool → Y) × (X → W → Y))) (samples : List (X × Y))
    (st : St X Y) : Prop :=
  (∀ s ∈ samples, ∀ w, P (st.model.lossAug s.1 s.2 w true)) ∧
    (∀ la inf, alt = some (la, inf) → ∀ s ∈ samples, ∀ w, P (la s.1 s.2 w true)) ∧
    ∀ c, st.cache = some c → ∀ l ∈ c, ∀ e ∈ l, P e.2.2

theorem iteration_congr {qp : QP.Solver} {eq eq' : Y → Y → Except PyErr Bool} {P : Y → Prop}
    (hag : ∀ a b, P a → P b → eq a b = eq' a b) (alt : Option ((X → Y → W → Bool → Y) × (X → W → Y))) (cfg : Config)
    (samples : List (X × Y)) (gt : W) (it : ℕ) (intr : Option Phase) (st : St X Y) (hI : OutputsIn P alt samples st) :
    iteration qp eq alt cfg samples gt it intr st = iteration qp eq' alt cfg samples gt it intr st ∧
      ∀ st' b, iteration qp eq alt cfg samples gt it intr st = .ok (st', b) → OutputsIn P alt samples st' := by
  obtain ⟨h1, h2, h3⟩ := hI
  have hf : ∀ f, findNew cfg st gt samples = .ok (some f) → ∀ y ∈ f.yhat, P y := by
    intro f h y hy
    unfold findNew at h
    simp only at h
    split at h
    · cases h
    · cases h
    · cases h
      simp only [List.map_map, List.mem_map, Function.comp_apply] at hy
      obtain ⟨s, hs, rfl⟩ := hy
      exact h1 s hs st.w
  constructor
  · unfold iteration
    split_ifs
    · rfl
    · split
      · rfl
      · rfl
      · split
        · rfl
        · rename_i f hfe
          rw [(updateCache_congr hag cfg st.cache h3 samples f.yhat (hf f hfe)).1]
        · rfl
  · intro st' b h
    rcases iteration_ok h with ⟨rfl, -, -⟩ | ⟨la, inf, halt, -, -, -, rfl⟩ | ⟨-, f, cd, cache, hfind, hadd⟩
    · exact ⟨h1, h2, h3⟩
    · exact ⟨h2 la inf halt, h2, h3⟩
    · obtain ⟨e1, -, e2, -⟩ := addConstraint_ok hadd
      refine ⟨by rw [e1]; exact h1, h2, ?_⟩
      rw [e2]
      rcases hfind with ⟨-, -, rfl⟩ | ⟨hfe, -, hu⟩
      · exact h3
      · exact (updateCache_congr hag cfg st.cache h3 samples f.yhat (hf f hfe)).2 cache hu

theorem loop_congr {qp : QP.Solver} {eq eq' : Y → Y → Except PyErr Bool} {P : Y → Prop}
    (hag : ∀ a b, P a → P b → eq a b = eq' a b) (alt : Option ((X → Y → W → Bool → Y) × (X → W → Y))) (cfg : Config)
    (samples : List (X × Y)) (gt : W) (intr : ℕ → Option Phase) (fuel it : ℕ) (st : St X Y)
    (hI : OutputsIn P alt samples st) :
    loop qp eq alt cfg samples gt intr fuel it st = loop qp eq' alt cfg samples gt intr fuel it st := by
  induction fuel generalizing it st with
  | zero => rfl
  | succ fuel ih =>
    obtain ⟨h1, h2⟩ := iteration_congr hag alt cfg samples gt it (intr it) st hI
    unfold loop
    rw [← h1]
    split
    · rfl
    · rfl
    · rename_i st' h
      exact ih (it + 1) st' (h2 st' true h)

/-- **C92, only the outputs that occur matter.** Training with a cache does not depend on how outputs are compared that
loss-augmented inference never returns for the training samples. -/
theorem C92_comparison (m : SModel X Y) (qp : QP.Solver) (eq eq' : Y → Y → Except PyErr Bool) (P : Y → Prop)
    (hag : ∀ a b, P a → P b → eq a b = eq' a b) (alt : Option ((X → Y → W → Bool → Y) × (X → W → Y)))
    (intr : ℕ → Option Phase) (o : Obj Y) (samples : List (X × Y))
    (hm : ∀ s ∈ samples, ∀ w, P (m.lossAug s.1 s.2 w true))
    (halt : ∀ la inf, alt = some (la, inf) → ∀ s ∈ samples, ∀ w, P (la s.1 s.2 w true)) :
    OneSlack.fit m qp eq alt intr o samples .no = OneSlack.fit m qp eq' alt intr o samples .no := by
  unfold OneSlack.fit
  obtain ⟨st, hs, h1, h2⟩ : ∃ st, start m o .no = .ok st ∧ st.model = m ∧ st.cache = none := ⟨_, rfl, rfl, rfl⟩
  rw [hs]
  simp only
  rw [loop_congr hag alt o.cfg samples _ intr o.cfg.maxIter 0 st ⟨by rw [h1]; exact hm, halt, by simp [h2]⟩]

/-- **C92, what holds.** If no comparison of two outputs that loss-augmented inference returns for training samples
fails - in particular if it never returns fractional labellings of a model with one node type - then `fit` with an
inference cache of any size returns if and only if it returns without cache. -/
theorem C92_total_partial (m : SModel X Y) (qp : QP.Solver) (hqp : QP.Exact qp) (hcomp : QP.Complete qp)
    (eq : Y → Y → Except PyErr Bool) (o : Obj Y) (hC : 0 ≤ o.cfg.C)
    (hneg : o.cfg.negativity = none) (hthr : o.cfg.inactiveThreshold ≤ 1) (hbr : o.cfg.breakOnBad = false)
    (htol : o.cfg.tol ≤ 1) (samples : List (X × Y)) (hne : samples ≠ [])
    (hloss : ∀ s ∈ samples, 0 ≤ m.lossOf s.2 (m.lossAug s.1 s.2 (fun _ => 0) true))
    (P : Y → Prop) (hP : ∀ a b, P a → P b → ∃ r, eq a b = .ok r)
    (hm : ∀ s ∈ samples, ∀ w, P (m.lossAug s.1 s.2 w true)) (k : ℕ) :
    (∃ o', OneSlack.fit m qp eq none (fun _ => none) { o with cfg := { o.cfg with inferenceCache := k } } samples .no =
        .ok o') ↔
      ∃ o', OneSlack.fit m qp eq none (fun _ => none) { o with cfg := { o.cfg with inferenceCache := 0 } } samples .no =
        .ok o' := by
  set eq' : Y → Y → Except PyErr Bool := fun a b => .ok ((eq a b).toOption.getD false) with heq'
  have hag : ∀ a b, P a → P b → eq a b = eq' a b := by
    intro a b ha hb
    obtain ⟨r, hr⟩ := hP a b ha hb
    simp only [heq']
    rw [hr]
    rfl
  rw [C92_comparison m qp eq eq' P hag none _ _ samples hm (by simp),
    C92_comparison m qp eq eq' P hag none _ _ samples hm (by simp)]
  exact (C67_returns_iff_partial m qp hqp hcomp eq' { o with cfg := { o.cfg with inferenceCache := k } }
      (.inr fun _ _ => ⟨_, rfl⟩) hC hneg hthr hbr htol samples hne hloss).trans
    (C67_returns_iff_partial m qp hqp hcomp eq' { o with cfg := { o.cfg with inferenceCache := 0 } }
      (.inr fun _ _ => ⟨_, rfl⟩) hC hneg hthr hbr htol samples hne hloss).symm

/-- `constraint_equal` never fails on discrete labellings and on labellings of models with several node types. -/
theorem constraintEqual_total (a b : Output) (ha : ∀ u p, a ≠ .relaxed u p) :
    ∃ r, constraintEqual a b = .ok r := by
  cases a with
  | relaxed u p => exact absurd rfl (ha u p)
  | discrete y => cases b <;> exact ⟨_, rfl⟩
  | multi u p => cases b <;> exact ⟨_, rfl⟩

/-- **C92, what holds for `constraint_equal`**, with the comparison of the library: models that return discrete
labellings for the training samples, or models with several node types. -/
theorem C92_discrete_partial (m : SModel X Output) (qp : QP.Solver) (hqp : QP.Exact qp) (hcomp : QP.Complete qp)
    (o : Obj Output) (hC : 0 ≤ o.cfg.C) (hneg : o.cfg.negativity = none) (hthr : o.cfg.inactiveThreshold ≤ 1)
    (hbr : o.cfg.breakOnBad = false) (htol : o.cfg.tol ≤ 1) (samples : List (X × Output)) (hne : samples ≠ [])
    (hloss : ∀ s ∈ samples, 0 ≤ m.lossOf s.2 (m.lossAug s.1 s.2 (fun _ => 0) true))
    (hm : ∀ s ∈ samples, ∀ w u p, m.lossAug s.1 s.2 w true ≠ .relaxed u p) (k : ℕ) :
    (∃ o', OneSlack.fit m qp constraintEqual none (fun _ => none) { o with cfg := { o.cfg with inferenceCache := k } }
        samples .no = .ok o') ↔
      ∃ o', OneSlack.fit m qp constraintEqual none (fun _ => none) { o with cfg := { o.cfg with inferenceCache := 0 } }
        samples .no = .ok o' :=
  C92_total_partial m qp hqp hcomp constraintEqual o hC hneg hthr hbr htol samples hne hloss
    (fun a => ∀ u p, a ≠ .relaxed u p) (fun a b ha _ => constraintEqual_total a b ha) hm k

/-- An instance: outputs `[0]` and `[1]`, of which loss-augmented inference always returns the wrong one. -/
def wrongModel : SModel Unit Output where
  dim := 1
  jointFeature := fun _ y _ => if y = .discrete [0] then 1 else 0
  rescaleC := false
  jointFeatureR := fun _ _ _ _ => 0
  lossAug := fun _ y _ _ => if y = .discrete [0] then .discrete [1] else .discrete [0]
  inference := fun _ _ => .discrete [0]
  isTuple := fun _ => false
  loss := fun y y' => if y = y' then 0 else 1
  continuousLoss := fun _ _ => 0
  maxLoss := fun _ => 1

example (k : ℕ) : ∃ o', OneSlack.fit wrongModel QP.ideal constraintEqual none (fun _ => none)
    ⟨⟨10, 1, false, none, false, 0, 1 / 1000, k, 1 / 10 ^ 5, 50, .auto⟩, none, []⟩ [((), .discrete [0])] .no = .ok o' := by
  have h := C92_discrete_partial wrongModel QP.ideal QP.ideal_exact.1 QP.ideal_exact.2
    ⟨⟨10, 1, false, none, false, 0, 1 / 1000, k, 1 / 10 ^ 5, 50, .auto⟩, none, []⟩ (by norm_num) rfl (by norm_num) rfl
    (by norm_num) [((), .discrete [0])] (by simp) (by decide +kernel) (by
      intro s hs w u p
      simp only [wrongModel]
      split <;> simp) k
  refine h.mpr ?_
  exact (C67_returns_iff_partial wrongModel QP.ideal QP.ideal_exact.1 QP.ideal_exact.2 constraintEqual
    ⟨⟨10, 1, false, none, false, 0, 1 / 1000, 0, 1 / 10 ^ 5, 50, .auto⟩, none, []⟩ (.inl rfl) (by norm_num) rfl
    (by norm_num) rfl (by norm_num) [((), .discrete [0])] (by simp) (by decide +kernel)).mpr (by decide +kernel)

end Verif.Props
