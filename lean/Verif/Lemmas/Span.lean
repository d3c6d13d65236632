import Verif.Model.OneSlack
import Verif.Model.NSlack
import Verif.Model.FrankWolfe
import Verif.Model.Subgradient
import Verif.Model.Perceptron

/-!
# Weights stay in the span of the joint features

Invariants of the learners: a linear space that contains the joint features of the training instances contains all weights that
occur during training.
-/

namespace Verif.Lemmas

open Finset Verif.Learner

variable {X Y : Type}

/-- A linear space of weight vectors. -/
structure LinearSpace (V : W → Prop) : Prop where
  zero : V fun _ => 0
  add : ∀ u v, V u → V v → V fun k => u k + v k
  smul : ∀ (c : ℚ) u, V u → V fun k => c * u k

/-- The difference of the joint features of the true output and of the output `y` lies in `V`. -/
def DiffIn (V : W → Prop) (m : SModel X Y) (s : X × Y) (y : Y) : Prop :=
  V (fun k => m.jointFeature s.1 s.2 k - m.jointFeature s.1 y k) ∧ V (fun k => m.feat s.1 s.2 s.2 k - m.feat s.1 y s.2 k) ∧
    V (fun k => m.feat s.1 s.2 s.2 k - m.jointFeature s.1 y k)

/-- For all outputs that loss-augmented inference can return on the training instances, the difference of joint features lies in
`V`. -/
def SpanIn (V : W → Prop) (m : SModel X Y) (samples : List (X × Y)) : Prop :=
  ∀ s ∈ samples, ∀ w, DiffIn V m s (m.lossAug s.1 s.2 w true)

/-- For all outputs that inference can return on the training instances, the difference of joint features lies in `V`. -/
def PSpanIn (V : W → Prop) (m : SModel X Y) (samples : List (X × Y)) : Prop :=
  ∀ s ∈ samples, ∀ w, DiffIn V m s (m.inference s.1 w)

/-- `SpanIn` also holds with the inference method to switch to. -/
def AltIn (V : W → Prop) (m : SModel X Y) (samples : List (X × Y)) (alt : Option ((X → Y → W → Bool → Y) × (X → W → Y))) : Prop :=
  ∀ la inf, alt = some (la, inf) → SpanIn V { m with lossAug := la, inference := inf } samples

namespace LinearSpace

variable {V : W → Prop} (h : LinearSpace V)

include h

theorem smul' (c : ℚ) {u : W} (hu : V u) : V fun k => u k * c := by
  have := h.smul c u hu
  simpa only [mul_comm] using this

theorem neg {u : W} (hu : V u) : V fun k => -u k := by
  have := h.smul (-1) u hu
  simpa only [neg_one_mul] using this

theorem sub {u v : W} (hu : V u) (hv : V v) : V fun k => u k - v k := by
  have := h.add u _ hu (h.neg hv)
  simpa only [sub_eq_add_neg] using this

theorem div (c : ℚ) {u : W} (hu : V u) : V fun k => u k / c := by
  have := h.smul' c⁻¹ hu
  simpa only [div_eq_mul_inv] using this

theorem sum {α : Type} (l : List α) (f : α → W) (hf : ∀ a ∈ l, V (f a)) : V fun k => (l.map fun a => f a k).sum := by
  induction l with
  | nil => simpa using h.zero
  | cons a l ih =>
    simp only [List.map_cons, List.sum_cons]
    exact h.add _ _ (hf a List.mem_cons_self) (ih fun b hb => hf b (List.mem_cons_of_mem _ hb))

end LinearSpace

/-- Two models that differ at most in inference, and there only for weights outside of `V`. -/
structure Agree (V : W → Prop) (samples : List (X × Y)) (m m' : SModel X Y) : Prop where
  dim : m'.dim = m.dim
  jointFeature : m'.jointFeature = m.jointFeature
  rescaleC : m'.rescaleC = m.rescaleC
  jointFeatureR : m'.jointFeatureR = m.jointFeatureR
  isTuple : m'.isTuple = m.isTuple
  loss : m'.loss = m.loss
  continuousLoss : m'.continuousLoss = m.continuousLoss
  maxLoss : m'.maxLoss = m.maxLoss
  lossAug : ∀ s ∈ samples, ∀ w, V w → ∀ r, m'.lossAug s.1 s.2 w r = m.lossAug s.1 s.2 w r
  inference : ∀ s ∈ samples, ∀ w, V w → m'.inference s.1 w = m.inference s.1 w

variable {V : W → Prop} {m m' : SModel X Y} {samples : List (X × Y)}

theorem Agree.feat (h : Agree V samples m m') : m'.feat = m.feat := by
  funext x y z
  unfold SModel.feat
  rw [h.rescaleC, h.jointFeature, h.jointFeatureR]

theorem Agree.lossOf (h : Agree V samples m m') : m'.lossOf = m.lossOf := by
  funext x y
  unfold SModel.lossOf
  rw [h.isTuple, h.continuousLoss, h.loss]

theorem Agree.sub (h : Agree V samples m m') {l : List (X × Y)} (hl : ∀ s ∈ l, s ∈ samples) : Agree V l m m' :=
  { h with lossAug := fun s hs => h.lossAug s (hl s hs), inference := fun s hs => h.inference s (hl s hs) }

theorem Agree.findConstraint (h : Agree V samples m m') {s : X × Y} (hs : s ∈ samples) {w : W} (hw : V w) (yhat : Option Y)
    (r c : Bool) : findConstraint m' s.1 s.2 w yhat r c = findConstraint m s.1 s.2 w yhat r c := by
  unfold Learner.findConstraint
  rw [h.feat, h.lossOf, h.dim]
  cases yhat with
  | none => simp only [h.lossAug s hs w hw]
  | some y => rfl

theorem Agree.objectivePrimal (h : Agree V samples m m') {w : W} (hw : V w) (C : ℚ) (n : Bool) :
    objectivePrimal m' w samples C n = objectivePrimal m w samples C n := by
  unfold Learner.objectivePrimal
  have : (samples.map fun s => (Learner.findConstraint m' s.1 s.2 w none true true).slack) =
      samples.map fun s => (Learner.findConstraint m s.1 s.2 w none true true).slack :=
    List.map_congr_left fun s hs => by rw [h.findConstraint hs hw]
  rw [this, h.dim]

theorem Agree.computeTrainingLoss (h : Agree V samples m m') {w : W} (hw : V w) (e it : ℕ) (curve : List ℚ) :
    computeTrainingLoss m' e w samples it curve = computeTrainingLoss m e w samples it curve := by
  unfold Learner.computeTrainingLoss
  have : predict m' w (samples.map Prod.fst) = predict m w (samples.map Prod.fst) := by
    unfold predict
    rw [List.map_map, List.map_map]
    exact List.map_congr_left fun s hs => h.inference s hs w hw
  unfold score
  rw [this, h.loss, h.maxLoss]

theorem SpanIn.delta (hm : SpanIn V m samples) {s : X × Y} (hs : s ∈ samples) (w : W) :
    V (findConstraint m s.1 s.2 w none true true).delta := by
  unfold Learner.findConstraint
  simp only [if_true]
  have := (hm s hs w).2.1
  simpa only [sub_eq_neg_add] using this

theorem SpanIn.sub (hm : SpanIn V m samples) {l : List (X × Y)} (hl : ∀ s ∈ l, s ∈ samples) : SpanIn V m l :=
  fun s hs => hm s (hl s hs)

/-! ### one-slack -/

theorem weightsOf_span (hV : LinearSpace V) : ∀ (cs : List OneSlack.Con) (a : List ℚ), (∀ c ∈ cs, V c.1) → V (OneSlack.weightsOf cs a)
  | [], a, _ => by
    unfold OneSlack.weightsOf
    simpa using hV.zero
  | c :: cs, [], _ => by
    unfold OneSlack.weightsOf
    simpa using hV.zero
  | c :: cs, x :: a, h => by
    have ih := weightsOf_span hV cs a fun d hd => h d (List.mem_cons_of_mem _ hd)
    unfold OneSlack.weightsOf at ih ⊢
    simp only [List.zipWith_cons_cons, List.sum_cons]
    exact hV.add _ _ (hV.smul x _ (h c List.mem_cons_self)) ih

/-- The joint features kept in a cache differ from those of the true output by an element of `V`. -/
def CacheIn (V : W → Prop) (m : SModel X Y) (samples : List (X × Y)) (cache : Option (List (List (OneSlack.Cached Y)))) : Prop :=
  ∀ c, cache = some c → List.Forall₂ (fun l s => ∀ e ∈ l, V fun k => m.feat s.1 s.2 s.2 k - e.1 k) c samples

/-- `gt` is the sum of the true joint features, up to elements of `V`. -/
def GtIn (V : W → Prop) (m : SModel X Y) (samples : List (X × Y)) (gt : W) : Prop :=
  ∀ us : List W, List.Forall₂ (fun u s => V fun k => m.feat s.1 s.2 s.2 k - u k) us samples → V fun k => gt k - (us.map (· k)).sum

/-- Invariant of the loop of the one-slack learner. -/
structure OneIn (V : W → Prop) (m : SModel X Y) (samples : List (X × Y)) (gt : W) (alt : Option ((X → Y → W → Bool → Y) × (X → W → Y)))
    (st : OneSlack.St X Y) : Prop where
  model : SpanIn V st.model samples
  alt : AltIn V st.model samples alt
  gt : GtIn V st.model samples gt
  w : V st.w
  cons : ∀ c ∈ st.constraints, V c.1
  cache : CacheIn V st.model samples st.cache
  feat : st.model.feat = m.feat

theorem prune_subset {cfg : OneSlack.Config} {cs cs' : List OneSlack.Con} {al al' : List (List ℚ)} {a : List ℚ}
    (h : OneSlack.prune cfg cs al a = .ok (cs', al')) : ∀ c ∈ cs', c ∈ cs := by
  unfold OneSlack.prune at h
  simp only at h
  split at h
  · cases h
  · split at h
    · cases h
      exact fun c hc => hc
    · split at h
      · cases h
      · cases h
        intro c hc
        obtain ⟨⟨c', b⟩, hm, rfl⟩ := List.mem_map.mp hc
        exact (List.of_mem_zip (List.mem_of_mem_filter hm)).1

theorem cacheSample_in {eq : Y → Y → Except PyErr Bool} {size : ℕ} {l l' : List (OneSlack.Cached Y)} {x : X} {y yh : Y}
    (hl : ∀ e ∈ l, V fun k => m.feat x y y k - e.1 k) (hf : DiffIn V m (x, y) yh)
    (h : OneSlack.cacheSample m eq size l x y yh = .ok l') : ∀ e ∈ l', V fun k => m.feat x y y k - e.1 k := by
  unfold OneSlack.cacheSample at h
  split at h
  · cases h
  · cases h
    exact hl
  · simp only [Except.ok.injEq] at h
    subst h
    intro e he
    rcases List.mem_append.mp he with he | he
    · split at he
      · exact hl e (List.mem_of_mem_drop he)
      · exact hl e he
    · rw [List.mem_singleton] at he
      subst he
      exact hf.2.2

theorem cacheSamples_in {eq : Y → Y → Except PyErr Bool} {size : ℕ} : ∀ (cache : List (List (OneSlack.Cached Y)))
    (samples : List (X × Y)) (yhat : List Y) (cache' : List (List (OneSlack.Cached Y))),
    List.Forall₂ (fun yh s => DiffIn V m s yh) yhat samples →
    List.Forall₂ (fun l s => ∀ e ∈ l, V fun k => m.feat s.1 s.2 s.2 k - e.1 k) cache samples →
    OneSlack.cacheSamples m eq size cache samples yhat = .ok cache' →
    List.Forall₂ (fun l s => ∀ e ∈ l, V fun k => m.feat s.1 s.2 s.2 k - e.1 k) cache' samples
  | _, [], _, cache', _, .nil, h => by
    unfold OneSlack.cacheSamples at h
    cases h
    exact .nil
  | c :: cache, s :: samples, yh :: yhat, cache', .cons hy hys, .cons hc hcs, h => by
    unfold OneSlack.cacheSamples at h
    split at h
    · cases h
    · rename_i c1 h1
      split at h
      · cases h
      · rename_i c2 h2
        cases h
        exact .cons (cacheSample_in hc hy h1) (cacheSamples_in cache samples yhat c2 hys hcs h2)

theorem forall₂_empty (P : OneSlack.Cached Y → X × Y → Prop) {R : Y → X × Y → Prop} : ∀ (samples : List (X × Y)) (yhat : List Y),
    List.Forall₂ R yhat samples → List.Forall₂ (fun l s => ∀ e ∈ l, P e s) (yhat.map fun _ => []) samples
  | _, _, .nil => .nil
  | _, _, .cons _ h => .cons (by simp) (forall₂_empty P _ _ h)

theorem updateCache_in {eq : Y → Y → Except PyErr Bool} {cfg : OneSlack.Config} {cache cache' : Option (List (List (OneSlack.Cached Y)))}
    {yhat : List Y} (hy : List.Forall₂ (fun yh s => DiffIn V m s yh) yhat samples) (hc : CacheIn V m samples cache)
    (h : OneSlack.updateCache m eq cfg cache samples yhat = .ok cache') : CacheIn V m samples cache' := by
  unfold OneSlack.updateCache at h
  split at h
  · cases h
    exact hc
  · split at h
    · cases h
    · rename_i c h1
      cases h
      intro c' hc'
      cases hc'
      refine cacheSamples_in _ _ _ _ hy ?_ h1
      cases cache with
      | none => exact forall₂_empty (fun e s => V fun k => m.feat s.1 s.2 s.2 k - e.1 k) _ _ hy
      | some c0 => exact hc c0 rfl

theorem strongestAll_in {dim : ℕ} {w : W} {P : OneSlack.Cached Y → X × Y → Prop} : ∀ (cs : List (List (OneSlack.Cached Y)))
    (samples : List (X × Y)) (es : List (OneSlack.Cached Y)), List.Forall₂ (fun l s => ∀ e ∈ l, P e s) cs samples →
    OneSlack.strongestAll dim w cs = .ok es → List.Forall₂ P es samples
  | _, _, es, .nil, h => by
    unfold OneSlack.strongestAll at h
    cases h
    exact .nil
  | _, _, es, .cons hc hcs, h => by
    unfold OneSlack.strongestAll at h
    split at h
    · cases h
    · rename_i e h1
      split at h
      · cases h
      · rename_i es' h2
        cases h
        refine .cons ?_ (strongestAll_in _ _ _ hcs h2)
        unfold OneSlack.strongestCached at h1
        split at h1
        · cases h1
        · rename_i c' hc'
          cases h1
          exact hc _ (List.mem_of_getElem? hc')

theorem forall₂_map_left {α β γ : Type} {R : γ → β → Prop} (f : α → γ) {l : List α} {l' : List β}
    (h : List.Forall₂ (fun a b => R (f a) b) l l') : List.Forall₂ R (l.map f) l' := by
  induction h with
  | nil => exact .nil
  | cons h _ ih => exact .cons h ih

theorem forall₂_of_map {α γ : Type} {R : γ → α → Prop} (f : α → γ) : ∀ (l : List α), (∀ a ∈ l, R (f a) a) →
    List.Forall₂ R (l.map f) l
  | [], _ => .nil
  | a :: l, h => .cons (h a List.mem_cons_self) (forall₂_of_map f l fun b hb => h b (List.mem_cons_of_mem _ hb))

variable {gt : W} {alt : Option ((X → Y → W → Bool → Y) × (X → W → Y))}

theorem fromCache_in (hV : LinearSpace V) {cfg : OneSlack.Config} {st : OneSlack.St X Y} (hst : OneIn V m samples gt alt st)
    {n : ℕ} {f : OneSlack.Found Y} (h : OneSlack.fromCache cfg st gt n = .ok (some f)) : V f.dj := by
  unfold OneSlack.fromCache at h
  split at h
  · cases h
  · cases h
  · rename_i c cs hc
    split at h
    · split at h
      · cases h
      · split at h
        · cases h
        · rename_i es hes
          simp only at h
          split at h
          · cases h
          · cases h
          · cases h
            have h1 := strongestAll_in (P := fun e s => V fun k => st.model.feat s.1 s.2 s.2 k - e.1 k) _ _ _ (hst.cache _ hc) hes
            have h2 := hst.gt (es.map fun e => e.1) (forall₂_map_left _ h1)
            simp only [List.map_map] at h2
            exact hV.div _ h2
    · cases h

theorem findNew_in (hV : LinearSpace V) {cfg : OneSlack.Config} {st : OneSlack.St X Y} (hst : OneIn V m samples gt alt st)
    {f : OneSlack.Found Y} (h : OneSlack.findNew cfg st gt samples = .ok (some f)) :
    V f.dj ∧ List.Forall₂ (fun yh s => DiffIn V st.model s yh) f.yhat samples := by
  unfold OneSlack.findNew at h
  simp only at h
  split at h
  · cases h
  · cases h
  · cases h
    constructor
    · have h1 : List.Forall₂ (fun u s => V fun k => st.model.feat s.1 s.2 s.2 k - u k)
          (samples.map fun s => st.model.feat s.1 (st.model.lossAug s.1 s.2 st.w true) s.2) samples :=
        forall₂_of_map _ _ fun s hs => (hst.model s hs st.w).2.1
      have h2 := hst.gt _ h1
      simp only [List.map_map, Function.comp_def] at h2 ⊢
      exact hV.div _ h2
    · simp only [List.map_map, Function.comp_def]
      exact forall₂_of_map _ _ fun s hs => hst.model s hs st.w

theorem addConstraint_in (hV : LinearSpace V) {qp : QP.Solver} {cfg : OneSlack.Config} {it : ℕ} {intr : Option OneSlack.Phase}
    {st st' : OneSlack.St X Y} (hst : OneIn V m samples gt alt st) {f : OneSlack.Found Y} (hf : V f.dj) {cached b : Bool}
    (h : OneSlack.addConstraint qp cfg samples it intr st f cached = .ok (st', b)) : OneIn V m samples gt alt st' := by
  have hcons : ∀ c ∈ st.constraints ++ [(f.dj, f.loss)], V c.1 := by
    intro c hc
    rcases List.mem_append.mp hc with hc | hc
    · exact hst.cons c hc
    · rw [List.mem_singleton] at hc
      subst hc
      exact hf
  unfold OneSlack.addConstraint at h
  simp only at h
  split at h
  · cases h
    exact ⟨hst.model, hst.alt, hst.gt, hst.w, hcons, hst.cache, hst.feat⟩
  · split at h
    · cases h
    · split at h
      · cases h
      · rename_i cs' al' hp
        have hcs' : ∀ c ∈ cs', V c.1 := fun c hc => hcons c (prune_subset hp c hc)
        split at h
        · cases h
          exact ⟨hst.model, hst.alt, hst.gt, weightsOf_span hV _ _ hcons, hcs', hst.cache, hst.feat⟩
        · split at h
          · cases h
          · cases h
            exact ⟨hst.model, hst.alt, hst.gt, weightsOf_span hV _ _ hcons, hcs', hst.cache, hst.feat⟩

theorem one_iteration_in (hV : LinearSpace V) {qp : QP.Solver} {eq : Y → Y → Except PyErr Bool}
    {cfg : OneSlack.Config} {it : ℕ}
    {intr : Option OneSlack.Phase} {st st' : OneSlack.St X Y} (hst : OneIn V m samples gt alt st) {b : Bool}
    (h : OneSlack.iteration qp eq alt cfg samples gt it intr st = .ok (st', b)) : OneIn V m samples gt alt st' := by
  unfold OneSlack.iteration at h
  split at h
  · cases h
    exact hst
  · split at h
    · cases h
    · rename_i f hf
      exact addConstraint_in hV hst (fromCache_in hV hst hf) h
    · split at h
      · cases h
      · rename_i f hf
        obtain ⟨h1, h2⟩ := findNew_in hV hst hf
        split at h
        · cases h
        · rename_i cache hc
          refine addConstraint_in hV ?_ h1 h
          exact ⟨hst.model, hst.alt, hst.gt, hst.w, hst.cons, updateCache_in h2 hst.cache hc, hst.feat⟩
      · split at h
        · cases h
          exact ⟨hst.alt _ _ rfl, hst.alt, hst.gt, hst.w, hst.cons, hst.cache, hst.feat⟩
        · cases h
          exact hst

theorem one_loop_in (hV : LinearSpace V) {qp : QP.Solver} {eq : Y → Y → Except PyErr Bool}
    {cfg : OneSlack.Config} {intr : ℕ → Option OneSlack.Phase} : ∀ (fuel it : ℕ) (st st' : OneSlack.St X Y), OneIn V m samples gt alt st →
    OneSlack.loop qp eq alt cfg samples gt intr fuel it st = .ok st' → OneIn V m samples gt alt st'
  | 0, _, st, st', hst, h => by
    unfold OneSlack.loop at h
    cases h
    exact hst
  | fuel + 1, it, st, st', hst, h => by
    unfold OneSlack.loop at h
    split at h
    · cases h
    · rename_i st1 h1
      cases h
      exact one_iteration_in hV hst h1
    · rename_i st1 h1
      exact one_loop_in hV fuel (it + 1) st1 st' (one_iteration_in hV hst h1) h

/-- The weights and constraints kept by a one-slack learner lie in `V`, and its cache belongs to these samples. -/
def OneAttrsIn (V : W → Prop) (m : SModel X Y) (samples : List (X × Y)) (o : OneSlack.Obj Y) : Prop :=
  ∀ a, o.attrs = some a → V a.w ∧ (∀ cs, a.constraints = some cs → ∀ c ∈ cs, V c.1) ∧ CacheIn V m samples a.cache

theorem gt_in (hV : LinearSpace V) (m : SModel X Y) : ∀ samples : List (X × Y), GtIn V m samples (OneSlack.jointFeatureGt m samples)
  | _, _, .nil => by
    unfold OneSlack.jointFeatureGt
    simpa using hV.zero
  | _ :: samples, _, .cons h hs => by
    have ih := gt_in hV m samples _ hs
    unfold OneSlack.jointFeatureGt at ih ⊢
    have := hV.add _ _ h ih
    simp only [List.map_cons, List.sum_cons]
    convert this using 2 with k
    ring

theorem one_start_in (hV : LinearSpace V) (hm : SpanIn V m samples) (ha : AltIn V m samples alt) {o : OneSlack.Obj Y} {warm : OneSlack.Warm}
    (ho : warm = .no ∨ OneAttrsIn V m samples o) {st : OneSlack.St X Y} (h : OneSlack.start m o warm = .ok st) :
    OneIn V m samples (OneSlack.jointFeatureGt m samples) alt st := by
  have hcon : ∀ c ∈ [((fun _ => 0, 0) : OneSlack.Con)], V c.1 := by
    intro c hc
    rw [List.mem_singleton] at hc
    subst hc
    exact hV.zero
  unfold OneSlack.start at h
  simp only at h
  rcases ho with rfl | ho
  · cases h
    exact ⟨hm, ha, gt_in hV m samples, hV.zero, hcon, (fun c hc => by cases hc), rfl⟩
  split at h
  · cases h
    exact ⟨hm, ha, gt_in hV m samples, hV.zero, hcon, (fun c hc => by cases hc), rfl⟩
  · rename_i a hat
    cases h
    exact ⟨hm, ha, gt_in hV m samples, hV.zero, hcon, (ho a hat).2.2, rfl⟩
  · rename_i w cs al oc pc fl cache hat
    cases h
    obtain ⟨h1, h2, h3⟩ := ho _ hat
    exact ⟨hm, ha, gt_in hV m samples, h1, h2 cs rfl, h3, rfl⟩
  · cases h

theorem one_fit_in (hV : LinearSpace V) (hm : SpanIn V m samples) (ha : AltIn V m samples alt) {qp : QP.Solver}
    {eq : Y → Y → Except PyErr Bool} {intr : ℕ → Option OneSlack.Phase} {o o' : OneSlack.Obj Y}
    {warm : OneSlack.Warm} (ho : OneAttrsIn V m samples o)
    (h : OneSlack.fit m qp eq alt intr o samples warm = .ok o') : OneAttrsIn V m samples o' := by
  unfold OneSlack.fit at h
  split at h
  · cases h
  · rename_i st hst
    split at h
    · cases h
    · rename_i st' hl
      split at h
      · cases h
      · split at h
        · cases h
        · cases h
          have := one_loop_in hV _ _ _ _ (one_start_in hV hm ha (.inr ho) hst) hl
          intro a hat
          cases hat
          refine ⟨this.w, ?_, ?_⟩
          swap
          · have hc := this.cache
            unfold CacheIn at hc ⊢
            rw [this.feat] at hc
            exact hc
          intro cs hcs
          simp only at hcs
          split at hcs
          · cases hcs
            exact this.cons
          · obtain ⟨a0, ha0, hc0⟩ := Option.bind_eq_some_iff.mp hcs
            exact (ho a0 ha0).2.1 cs hc0

theorem one_fit_w (hV : LinearSpace V) (hm : SpanIn V m samples) (ha : AltIn V m samples alt) {qp : QP.Solver}
    {eq : Y → Y → Except PyErr Bool} {intr : ℕ → Option OneSlack.Phase} {o o' : OneSlack.Obj Y}
    {warm : OneSlack.Warm} (ho : warm = .no ∨ OneAttrsIn V m samples o)
    (h : OneSlack.fit m qp eq alt intr o samples warm = .ok o') : ∀ a, o'.attrs = some a → V a.w := by
  unfold OneSlack.fit at h
  split at h
  · cases h
  · rename_i st hst
    split at h
    · cases h
    · rename_i st' hl
      split at h
      · cases h
      · split at h
        · cases h
        · cases h
          have := one_loop_in hV _ _ _ _ (one_start_in hV hm ha ho hst) hl
          intro a hat
          cases hat
          exact this.w

/-! ### n-slack -/

/-- All constraints of the working sets lie in `V`. -/
def WSIn (V : W → Prop) (ws : NSlack.WS Y) : Prop := ∀ i, ∀ c ∈ ws i, V c.dj

/-- Invariant of the loop of the n-slack learner. -/
structure NIn (V : W → Prop) (samples : List (X × Y)) (alt : Option ((X → Y → W → Bool → Y) × (X → W → Y)))
    (st : NSlack.St X Y) : Prop where
  model : SpanIn V st.model samples
  alt : AltIn V st.model samples alt
  w : V st.w
  ws : WSIn V st.ws

theorem flat_in {n : ℕ} {ws : NSlack.WS Y} (h : WSIn V ws) : ∀ c ∈ NSlack.flat n ws, V c.1 := by
  intro c hc
  unfold NSlack.flat at hc
  obtain ⟨i, -, hc⟩ := List.mem_flatMap.mp hc
  obtain ⟨d, hd, rfl⟩ := List.mem_map.mp hc
  exact h i d hd

theorem nprune_in {cfg : NSlack.Config} {n : ℕ} {ws ws' : NSlack.WS Y} {la la' : ℕ → List ℕ} {a : List ℚ} (hw : WSIn V ws)
    (h : NSlack.prune cfg n ws la a = .ok (ws', la')) : WSIn V ws' := by
  unfold NSlack.prune at h
  split at h
  · cases h
    exact hw
  · split at h
    · cases h
    · cases h
      intro i c hc
      simp only at hc
      split at hc
      · exact hw i c hc
      · unfold NSlack.kept at hc
        obtain ⟨⟨c', b⟩, hm, rfl⟩ := List.mem_map.mp hc
        exact hw i _ (List.of_mem_zip (List.mem_of_mem_filter hm)).1

theorem nsolve_in (hV : LinearSpace V) {qp : QP.Solver} {cfg : NSlack.Config} {n : ℕ} {st st' : NSlack.St X Y}
    (hm : SpanIn V st.model samples) (ha : AltIn V st.model samples alt) (hw : WSIn V st.ws)
    (h : NSlack.solve qp cfg n st = .ok st') : NIn V samples alt st' := by
  unfold NSlack.solve at h
  split at h
  · cases h
  · split at h
    · cases h
    · rename_i hp
      cases h
      exact ⟨hm, ha, weightsOf_span hV _ _ (flat_in hw), nprune_in hw hp⟩

theorem addNew_in (hm : SpanIn V m samples) {cfg : NSlack.Config} {eq : Y → Y → Bool} {w : W}
    {acc acc' : NSlack.WS Y × ℚ × ℕ} (hacc : WSIn V acc.1) {s : ℕ × X × Y} (hs : s.2 ∈ samples)
    (h : NSlack.addNew cfg eq m w acc s = .ok acc') : WSIn V acc'.1 := by
  unfold NSlack.addNew at h
  simp only at h
  split at h
  · cases h
    exact hacc
  · split at h
    · cases h
    · cases h
      exact hacc
    · cases h
      intro i c hc
      simp only at hc
      by_cases hi : i = s.1
      · subst hi
        rw [Function.update_self] at hc
        rcases List.mem_append.mp hc with hc | hc
        · exact hacc _ c hc
        · rw [List.mem_singleton] at hc
          subst hc
          exact hm.delta hs w
      · rw [Function.update_of_ne hi] at hc
        exact hacc i c hc

theorem addAll_in (hV : LinearSpace V) (hm : SpanIn V m samples) {cfg : NSlack.Config} {eq : Y → Y → Bool} {w : W} :
    ∀ (b : List (ℕ × X × Y)) (acc acc' : NSlack.WS Y × ℚ × ℕ), (∀ s ∈ b, s.2 ∈ samples) → WSIn V acc.1 →
    NSlack.addAll cfg eq m w b acc = .ok acc' → WSIn V acc'.1
  | [], acc, acc', _, hacc, h => by
    unfold NSlack.addAll at h
    cases h
    exact hacc
  | s :: b, acc, acc', hb, hacc, h => by
    unfold NSlack.addAll at h
    split at h
    · cases h
    · rename_i acc1 h1
      exact addAll_in hV hm b acc1 acc' (fun s' hs' => hb s' (List.mem_cons_of_mem _ hs'))
        (addNew_in hm hacc (hb s List.mem_cons_self) h1) h

theorem runBatch_in (hV : LinearSpace V) {qp : QP.Solver} {eq : Y → Y → Bool} {cfg : NSlack.Config} {n : ℕ}
    {intr : Option OneSlack.Phase} {b : List (ℕ × X × Y)} (hb : ∀ s ∈ b, s.2 ∈ samples) {acc acc' : NSlack.St X Y × ℚ × ℕ} {fl : Bool}
    (hacc : NIn V samples alt acc.1) (h : NSlack.runBatch qp eq cfg n intr b acc = .ok (acc', fl)) : NIn V samples alt acc'.1 := by
  unfold NSlack.runBatch at h
  split at h
  · cases h
    exact hacc
  · split at h
    · cases h
    · rename_i ws sl new h1
      have hws : WSIn V ws := addAll_in hV hacc.model b _ _ hb hacc.ws h1
      simp only at h
      split at h
      · cases h
        exact ⟨hacc.model, hacc.alt, hacc.w, hws⟩
      · split at h
        · cases h
          exact ⟨hacc.model, hacc.alt, hacc.w, hws⟩
        · split at h
          · cases h
          · rename_i st' hs
            cases h
            refine nsolve_in (samples := samples) hV ?_ ?_ ?_ hs
            · exact hacc.model
            · exact hacc.alt
            · exact hws

theorem runBatches_in (hV : LinearSpace V) {qp : QP.Solver} {eq : Y → Y → Bool} {cfg : NSlack.Config} {n : ℕ}
    {intr : ℕ → Option OneSlack.Phase} : ∀ (bs : List (List (ℕ × X × Y))) (j : ℕ) (acc acc' : NSlack.St X Y × ℚ × ℕ) (fl : Bool),
    (∀ b ∈ bs, ∀ s ∈ b, s.2 ∈ samples) → NIn V samples alt acc.1 → NSlack.runBatches qp eq cfg n intr bs j acc = .ok (acc', fl) →
    NIn V samples alt acc'.1
  | [], _, acc, acc', fl, _, hacc, h => by
    unfold NSlack.runBatches at h
    cases h
    exact hacc
  | b :: bs, j, acc, acc', fl, hb, hacc, h => by
    unfold NSlack.runBatches at h
    split at h
    · cases h
    · rename_i acc1 h1
      cases h
      exact runBatch_in hV (hb b List.mem_cons_self) hacc h1
    · rename_i acc1 h1
      exact runBatches_in hV bs (j + 1) acc1 acc' fl (fun b' hb' => hb b' (List.mem_cons_of_mem _ hb'))
        (runBatch_in hV (hb b List.mem_cons_self) hacc h1) h

theorem cut_mem {α : Type} {data : List α} {sl : List (ℕ × ℕ)} : ∀ b ∈ Subgradient.cut data sl, ∀ a ∈ b, a ∈ data := by
  intro b hb a ha
  unfold Subgradient.cut at hb
  obtain ⟨p, -, rfl⟩ := List.mem_map.mp hb
  exact List.mem_of_mem_drop (List.mem_of_mem_take ha)

theorem batches_mem {bs : List (List (ℕ × X × Y))} {k : ℤ} (h : NSlack.batches (NSlack.indexed samples) k = .ok bs) :
    ∀ b ∈ bs, ∀ s ∈ b, s.2 ∈ samples := by
  unfold NSlack.batches at h
  split at h
  · cases h
  · simp only at h
    generalize (if k = -1 then ((NSlack.indexed samples).length : ℤ) else k) = b at h
    split at h
    · cases h
    · split at h
      · cases h
      · cases h
        intro b hb s hs
        have := cut_mem b hb s hs
        exact (List.of_mem_zip (a := s.1) (b := s.2) this).2

theorem n_iteration_in (hV : LinearSpace V) {qp : QP.Solver} {eq : Y → Y → Bool}
    {cfg : NSlack.Config} {it : ℕ}
    {intr : ℕ → Option OneSlack.Phase} {st st' : NSlack.St X Y} (hst : NIn V samples alt st) {out : NSlack.Outcome}
    (h : NSlack.iteration qp eq alt cfg samples it intr st = .ok (st', out)) : NIn V samples alt st' := by
  unfold NSlack.iteration at h
  split at h
  · cases h
  · rename_i bs hbs
    split at h
    · cases h
    · rename_i st1 sl1 n1 h1
      cases h
      exact runBatches_in hV bs _ _ _ _ (batches_mem hbs) hst h1
    · rename_i st1 sl1 n1 h1
      have := runBatches_in hV bs _ _ _ _ (batches_mem hbs) hst h1
      split at h
      · cases h
      · simp only at h
        split at h
        · split at h
          · cases h
            exact ⟨this.alt _ _ rfl, this.alt, this.w, this.ws⟩
          · cases h
            exact ⟨this.model, this.alt, this.w, this.ws⟩
        · cases h
          exact ⟨this.model, this.alt, this.w, this.ws⟩

theorem n_loop_in (hV : LinearSpace V) {qp : QP.Solver} {eq : Y → Y → Bool}
    {cfg : NSlack.Config}
    {intr : ℕ → ℕ → Option OneSlack.Phase} : ∀ (fuel it : ℕ) (st st' : NSlack.St X Y) (out : NSlack.Outcome), NIn V samples alt st →
    NSlack.loop qp eq alt cfg samples intr fuel it st = .ok (st', out) → NIn V samples alt st'
  | 0, _, st, st', out, hst, h => by
    unfold NSlack.loop at h
    cases h
    exact hst
  | fuel + 1, it, st, st', out, hst, h => by
    unfold NSlack.loop at h
    split at h
    · cases h
    · rename_i st1 h1
      exact n_loop_in hV fuel (it + 1) st1 st' out (n_iteration_in hV hst h1) h
    · rename_i st1 out1 _ h1
      cases h
      exact n_iteration_in hV hst h1

theorem n_start_in (hV : LinearSpace V) (hm : SpanIn V m samples) (ha : AltIn V m samples alt) {qp : QP.Solver} {o : NSlack.Obj Y} {n : ℕ}
    {cs : Option (List (List (NSlack.NCon Y)))} (hcs : ∀ l, cs = some l → ∀ c ∈ l, ∀ d ∈ c, V d.dj) {st : NSlack.St X Y}
    (h : NSlack.start m qp o n cs = .ok st) : NIn V samples alt st := by
  unfold NSlack.start at h
  split at h
  · cases h
    exact ⟨hm, ha, hV.zero, fun i c hc => by simp at hc⟩
  · rename_i l
    split at h
    · cases h
    · split at h
      · cases h
      · split at h
        · split at h <;> cases h
        · split at h
          · cases h
          · refine nsolve_in (samples := samples) hV ?_ ?_ ?_ h
            · exact hm
            · exact ha
            · intro i c hc
              simp only [List.getD_eq_getElem?_getD] at hc
              cases hli : l[i]? with
              | none =>
                rw [hli] at hc
                simp at hc
              | some c0 =>
                rw [hli] at hc
                exact hcs l rfl c0 (List.mem_of_getElem? hli) c hc

/-- The attributes of an n-slack learner lie in `V`. -/
def NAttrsIn (V : W → Prop) (o : NSlack.Obj Y) : Prop := ∀ a, o.attrs = some a → V a.w ∧ WSIn V a.constraints

theorem n_fit_in (hV : LinearSpace V) (hm : SpanIn V m samples) (ha : AltIn V m samples alt) {qp : QP.Solver} {eq : Y → Y → Bool}
    {intr : ℕ → ℕ → Option OneSlack.Phase} {o o' : NSlack.Obj Y}
    {cs : Option (List (List (NSlack.NCon Y)))} (hcs : ∀ l, cs = some l → ∀ c ∈ l, ∀ d ∈ c, V d.dj) {out : NSlack.Outcome}
    (h : NSlack.fit m qp eq alt intr o samples cs = .ok (o', out)) : NAttrsIn V o' := by
  unfold NSlack.fit at h
  split at h
  · cases h
  · rename_i st hst
    split at h
    · cases h
    · rename_i st' out' hl
      split at h
      · cases h
      · split at h
        · cases h
        · split at h
          · cases h
          · cases h
            have := n_loop_in hV _ _ _ _ _ (n_start_in hV hm ha hcs hst) hl
            intro a hat
            cases hat
            exact ⟨this.w, this.ws⟩

/-! ### Frank-Wolfe -/

theorem list_sum_map_sub {α : Type} (f g : α → ℚ) (l : List α) :
    (l.map fun a => f a - g a).sum = (l.map f).sum - (l.map g).sum := by
  induction l with
  | nil => simp
  | cons a l ih =>
    simp only [List.map_cons, List.sum_cons, ih]
    ring

theorem batchDelta_in (hV : LinearSpace V) (hm : SpanIn V m samples) (w : W) : V (FrankWolfe.batchDelta m samples w) := by
  have := hV.sum samples (fun s k => m.jointFeature s.1 s.2 k - m.jointFeature s.1 (m.lossAug s.1 s.2 w true) k)
    fun s hs => (hm s hs w).1
  simp only [list_sum_map_sub] at this
  exact this

theorem fw_batchLoop_in (hV : LinearSpace V) (hm : SpanIn V m samples) {cfg : FrankWolfe.Config} :
    ∀ (n it : ℕ) (w : W) (l : ℚ) (c : FrankWolfe.Curves), V w → V (FrankWolfe.batchLoop m cfg samples n it w l c).1
  | 0, _, w, l, c, hw => hw
  | n + 1, it, w, l, c, hw => by
    have hstep : V (FrankWolfe.batchStep m cfg samples it w l).2.1 := by
      unfold FrankWolfe.batchStep
      exact hV.add _ _ (hV.smul _ _ hw) (hV.smul _ _ (hV.smul' _ (batchDelta_in hV hm w)))
    unfold FrankWolfe.batchLoop
    simp only
    split
    · exact hstep
    · exact fw_batchLoop_in hV hm n _ _ _ _ hstep

/-- Invariant of block-coordinate Frank-Wolfe. -/
structure BCIn (V : W → Prop) (st : FrankWolfe.BC) : Prop where
  w : V st.w
  mat : ∀ i, V (st.wMat i)
  selfW : V st.selfW

theorem bcStep_in (hV : LinearSpace V) (hm : SpanIn V m samples) {cfg : FrankWolfe.Config} {st : FrankWolfe.BC} (hst : BCIn V st)
    (i : ℕ) : BCIn V (FrankWolfe.bcStep m cfg samples st i) := by
  unfold FrankWolfe.bcStep
  split
  · exact hst
  · rename_i x y hxy
    have hs : (x, y) ∈ samples := List.mem_of_getElem? hxy
    simp only
    have hwi : ∀ γ : ℚ, V fun k => (1 - γ) * st.wMat i k + γ * ((findConstraint m x y st.w none true true).delta k * cfg.C) :=
      fun γ => hV.add _ _ (hV.smul _ _ (hst.mat i)) (hV.smul _ _ (hV.smul' _ (hm.delta hs _)))
    refine ⟨?_, ?_, ?_⟩
    · exact hV.add _ _ (hV.sub hst.w (hst.mat i)) (hwi _)
    · intro j
      simp only
      by_cases hj : j = i
      · subst hj
        rw [Function.update_self]
        exact hwi _
      · rw [Function.update_of_ne hj]
        exact hst.mat j
    · by_cases ha : cfg.averaging = true
      · simp only [ha, if_true]
        exact hV.add _ _ (hV.smul _ _ hst.selfW) (hV.smul _ _ (hV.add _ _ (hV.sub hst.w (hst.mat i)) (hwi _)))
      · simp only [ha, Bool.false_eq_true, if_false]
        exact hV.add _ _ (hV.sub hst.w (hst.mat i)) (hwi _)

theorem bcFold_in (hV : LinearSpace V) (hm : SpanIn V m samples) {cfg : FrankWolfe.Config} : ∀ (l : List ℕ) (st : FrankWolfe.BC),
    BCIn V st → BCIn V (l.foldl (FrankWolfe.bcStep m cfg samples) st)
  | [], _, h => h
  | i :: l, st, h => bcFold_in hV hm l _ (bcStep_in hV hm h i)

theorem bcLoop_in (hV : LinearSpace V) (hm : SpanIn V m samples) {cfg : FrankWolfe.Config} {order : ℕ → List ℕ} :
    ∀ (n it : ℕ) (st : FrankWolfe.BC) (gap : Option ℚ) (c : FrankWolfe.Curves) (st' : FrankWolfe.BC) (c' : FrankWolfe.Curves),
    BCIn V st → FrankWolfe.bcLoop m cfg order samples n it st gap c = .ok (st', c') → BCIn V st'
  | 0, _, st, _, c, st', c', hst, h => by
    unfold FrankWolfe.bcLoop at h
    cases h
    exact hst
  | n + 1, it, st, gap, c, st', c', hst, h => by
    have hf := bcFold_in (cfg := cfg) hV hm (order it) st hst
    unfold FrankWolfe.bcLoop at h
    simp only at h
    split at h
    · split at h
      · cases h
      · split at h
        · cases h
          exact hf
        · exact bcLoop_in hV hm n _ _ _ _ _ _ hf h
    · split at h
      · cases h
      · split at h
        · cases h
          exact hf
        · exact bcLoop_in hV hm n _ _ _ _ _ _ hf h

theorem fw_fit_in (hV : LinearSpace V) (hm : SpanIn V m samples) {order : ℕ → List ℕ} {o o' : FrankWolfe.Obj}
    (ho : ∀ w, o.w = some w → V w) (h : FrankWolfe.fit m order o samples = .ok o') : ∀ w, o'.w = some w → V w := by
  unfold FrankWolfe.fit at h
  simp only at h
  have hw0 : V (match o.w with
    | some w => w
    | none => fun _ => 0) := by
    split
    · rename_i w hw
      exact ho w hw
    · exact hV.zero
  split at h
  · cases h
  · rename_i w l c hrun
    have hw : V w := by
      split at hrun
      · split at hrun
        · cases hrun
        · cases hrun
          exact fw_batchLoop_in hV hm _ _ _ _ _ hw0
      · split at hrun
        · cases hrun
        · rename_i st c1 hl
          cases hrun
          exact (bcLoop_in hV hm _ _ _ _ _ _ _ ⟨hw0, fun _ => hV.zero, hw0⟩ hl).selfW
    split at h
    · cases h
    · split at h
      · cases h
      · cases h
        intro w' hw'
        cases hw'
        exact hw

/-! ### subgradient -/

/-- Invariant of subgradient training. -/
structure SubIn (V : W → Prop) (st : Subgradient.St) : Prop where
  w : V st.w
  gradOld : V st.gradOld
  selfW : V st.selfW

theorem solveSubgradient_in (hV : LinearSpace V) {cfg : Subgradient.Config} {lr : ℚ} {n : ℕ} {st : Subgradient.St} (hst : SubIn V st)
    {dj : W} (hdj : V dj) : SubIn V (Subgradient.solveSubgradient cfg lr n st dj) := by
  have hg := hV.add _ _ (hV.smul (1 - cfg.momentum) _ (hV.sub hdj (hV.div (cfg.C * n) hst.w))) (hV.smul cfg.momentum _ hst.gradOld)
  have hw := hV.add _ _ hst.w (hV.smul (lr / cfg.decay st.t) _ hg)
  unfold Subgradient.solveSubgradient
  refine ⟨hw, hg, ?_⟩
  simp only
  split
  · exact hV.add _ _ (hV.smul _ _ hst.selfW) (hV.smul _ _ hw)
  · exact hV.add _ _ (hV.smul _ _ hst.selfW) (hV.smul _ _ hw)
  · exact hw

theorem onlineFold_in (hV : LinearSpace V) (hm : SpanIn V m samples) {cfg : Subgradient.Config} {lr : ℚ} {n : ℕ} :
    ∀ (l : List (X × Y)) (st : Subgradient.St × ℤ), (∀ s ∈ l, s ∈ samples) → SubIn V st.1 →
    SubIn V (l.foldl (Subgradient.onlineStep m cfg lr n) st).1
  | [], _, _, h => h
  | s :: l, st, hl, h => onlineFold_in hV hm l _ (fun s' hs' => hl s' (List.mem_cons_of_mem _ hs'))
      (solveSubgradient_in hV h (hm.delta (hl s List.mem_cons_self) _))

theorem meanDelta_in (hV : LinearSpace V) (hm : SpanIn V m samples) {b : List (X × Y)} (hb : ∀ s ∈ b, s ∈ samples) (w : W) :
    V (Subgradient.meanDelta m b w) :=
  hV.div _ (batchDelta_in hV (hm.sub hb) w)

theorem batchFold_in (hV : LinearSpace V) (hm : SpanIn V m samples) {cfg : Subgradient.Config} {lr : ℚ} {n : ℕ} {k : ℤ} :
    ∀ (l : List (List (X × Y))) (st : Subgradient.St × ℤ), (∀ b ∈ l, ∀ s ∈ b, s ∈ samples) → SubIn V st.1 →
    SubIn V (l.foldl (Subgradient.batchStep m cfg lr n k) st).1
  | [], _, _, h => h
  | s :: l, st, hl, h => batchFold_in hV hm l _ (fun s' hs' => hl s' (List.mem_cons_of_mem _ hs'))
      (solveSubgradient_in hV h (meanDelta_in hV hm (hl s List.mem_cons_self) _))

theorem parallelFold_in (hV : LinearSpace V) (hm : SpanIn V m samples) {cfg : Subgradient.Config} {lr : ℚ} {n : ℕ} :
    ∀ (l : List (List (X × Y))) (st : Subgradient.St × ℤ), (∀ b ∈ l, ∀ s ∈ b, s ∈ samples) → SubIn V st.1 →
    SubIn V (l.foldl (Subgradient.parallelStep m cfg lr n) st).1
  | [], _, _, h => h
  | b :: l, st, hl, h => by
    refine parallelFold_in hV hm l _ (fun s' hs' => hl s' (List.mem_cons_of_mem _ hs')) (solveSubgradient_in hV h ?_)
    refine hV.sum _ (fun c : Constraint Y => c.delta) fun c hc => ?_
    obtain ⟨s, hs, rfl⟩ := List.mem_map.mp (List.mem_of_mem_filter hc)
    exact hm.delta (hl b List.mem_cons_self s hs) _

theorem miniBatches_mem {α : Type} {data : List α} {k : ℤ} {bs : List (List α)} (h : Subgradient.miniBatches data k = .ok bs) :
    ∀ b ∈ bs, ∀ s ∈ b, s ∈ data := by
  unfold Subgradient.miniBatches at h
  split at h
  · cases h
    intro b hb
    rw [List.mem_singleton] at hb
    subst hb
    exact fun _ h => h
  · split at h
    · cases h
    · split at h
      · cases h
      · cases h
        exact cut_mem

theorem learn_in (hV : LinearSpace V) (hm : SpanIn V m samples) {cfg : Subgradient.Config} {lr : ℚ} {data : List (X × Y)}
    (hd : ∀ s ∈ data, s ∈ samples) {st st' : Subgradient.St} {p : ℤ} (hst : SubIn V st)
    (h : Subgradient.learn m cfg lr data st = .ok (st', p)) : SubIn V st' := by
  unfold Subgradient.learn at h
  split at h
  · unfold Subgradient.sequentialLearning at h
    split at h
    · rw [show st' = _ from (congrArg Prod.fst (Except.ok.inj h)).symm]
      exact onlineFold_in hV hm _ _ hd hst
    · split at h
      · rw [show st' = _ from (congrArg Prod.fst (Except.ok.inj h)).symm]
        exact onlineFold_in hV hm _ _ hd hst
      · split at h
        · cases h
        · rename_i bs hbs
          split at h
          · cases h
          · rw [show st' = _ from (congrArg Prod.fst (Except.ok.inj h)).symm]
            exact batchFold_in hV hm _ _ (fun b hb s hs => hd s (miniBatches_mem hbs b hb s hs)) hst
  · unfold Subgradient.parallelLearning at h
    split at h
    · cases h
    · split at h
      · cases h
      · split at h
        · cases h
        · rw [show st' = _ from (congrArg Prod.fst (Except.ok.inj h)).symm]
          exact parallelFold_in hV hm _ _ (fun b hb s hs => hd s (cut_mem b hb s hs)) hst

theorem sub_loop_in (hV : LinearSpace V) (hm : SpanIn V m samples) {cfg : Subgradient.Config} {lr : ℚ} {order : ℕ → List (X × Y)}
    (hord : ∀ it, ∀ s ∈ order it, s ∈ samples) : ∀ (n it : ℕ) (data : List (X × Y)) (st : Subgradient.St) (c : Subgradient.Curves)
    (data' : List (X × Y)) (st' : Subgradient.St) (c' : Subgradient.Curves), (∀ s ∈ data, s ∈ samples) → SubIn V st →
    Subgradient.loop m cfg lr order n it data st c = .ok (data', st', c') → SubIn V st'
  | 0, _, data, st, c, data', st', c', _, hst, h => by
    unfold Subgradient.loop at h
    cases h
    exact hst
  | n + 1, it, data, st, c, data', st', c', hd, hst, h => by
    have hd' : ∀ s ∈ (if cfg.shuffle then order it else data), s ∈ samples := by
      split
      · exact hord it
      · exact hd
    unfold Subgradient.loop at h
    simp only at h
    split at h
    · cases h
    · rename_i st1 p hl
      have h1 := learn_in hV hm hd' hst hl
      split at h
      · cases h
        exact h1
      · split at h
        · cases h
        · exact sub_loop_in hV hm hord n _ _ _ _ _ _ _ hd' h1 h

theorem sub_fit_in (hV : LinearSpace V) (hm : SpanIn V m samples) {order : ℕ → List (X × Y)}
    (hord : ∀ it, ∀ s ∈ order it, s ∈ samples) {o o' : Subgradient.Obj} (ho : ∀ w, o.w = some w → V w) {warm : Bool}
    (h : Subgradient.fit m order o samples warm = .ok o') : ∀ w, o'.w = some w → V w := by
  have hw0 : V (o.w.getD fun _ => 0) := by
    cases hw : o.w with
    | none => exact hV.zero
    | some w => exact ho w hw
  unfold Subgradient.fit at h
  simp only at h
  split at h
  · cases h
  · split at h
    · cases h
    · rename_i data st c hl
      have := sub_loop_in hV hm hord _ _ _ _ _ _ _ _ (fun _ h => h) ⟨hw0, hV.zero, hw0⟩ hl
      split at h
      · cases h
      · cases h
        intro w hw
        cases hw
        exact this.selfW

/-! ### perceptron -/

/-- Invariant of the perceptron. -/
structure PerIn (V : W → Prop) (st : Perceptron.St) : Prop where
  w : V st.w
  wbar : V st.wbar

theorem update_in (hV : LinearSpace V) (hm : PSpanIn V m samples) {s : X × Y} (hs : s ∈ samples) {lr : ℚ} {w : W} (hw : V w) (u : W) :
    V (Perceptron.update m lr w s.1 s.2 (m.inference s.1 u)) := by
  unfold Perceptron.update
  split
  · exact hV.add _ _ hw (hV.smul _ _ (hm s hs u).1)
  · exact hw

theorem observe_in (hV : LinearSpace V) {avg : Option ℤ} {it : ℕ} {st : Perceptron.St} (h : PerIn V st) :
    PerIn V (Perceptron.observe avg it st) := by
  unfold Perceptron.observe
  split
  · exact h
  · split
    · exact ⟨h.w, hV.add _ _ (hV.smul _ _ h.wbar) (hV.smul _ _ h.w)⟩
    · exact h

theorem per_online_in (hV : LinearSpace V) (hm : PSpanIn V m samples) {avg : Option ℤ} {lr : ℚ} {it : ℕ} :
    ∀ (l : List (X × Y)) (st : Perceptron.St × ℚ), (∀ s ∈ l, s ∈ samples) → PerIn V st.1 →
    PerIn V (l.foldl (Perceptron.onlineStep m avg lr it) st).1
  | [], _, _, h => h
  | s :: l, st, hl, h => by
    refine per_online_in hV hm l _ (fun s' hs' => hl s' (List.mem_cons_of_mem _ hs')) (observe_in hV ?_)
    exact ⟨update_in hV hm (hl s List.mem_cons_self) h.w _, h.wbar⟩

theorem per_batch_in (hV : LinearSpace V) (hm : PSpanIn V m samples) {lr : ℚ} {it : ℕ} {w0 : W} :
    ∀ (l : List (X × Y)) (st : Perceptron.St × ℚ), (∀ s ∈ l, s ∈ samples) → PerIn V st.1 →
    PerIn V (l.foldl (Perceptron.batchStep m lr it w0) st).1
  | [], _, _, h => h
  | s :: l, st, hl, h => by
    refine per_batch_in hV hm l _ (fun s' hs' => hl s' (List.mem_cons_of_mem _ hs')) ?_
    exact ⟨update_in hV hm (hl s List.mem_cons_self) h.w _, h.wbar⟩

theorem per_pass_in (hV : LinearSpace V) (hm : PSpanIn V m samples) {cfg : Perceptron.Config} {avg : Option ℤ} {it : ℕ}
    {st : Perceptron.St} (h : PerIn V st) : PerIn V (Perceptron.pass m cfg avg samples it st).1 := by
  have h' : PerIn V (if avg = some (-1) then { st with nObs := 0, wbar := fun _ => 0 } else st) := by
    split
    · exact ⟨h.w, hV.zero⟩
    · exact h
  unfold Perceptron.pass
  simp only
  by_cases hb : cfg.batch = true
  · simp only [hb, if_true]
    exact observe_in hV (per_batch_in hV hm _ _ (fun _ h => h) h')
  · simp only [hb, Bool.false_eq_true, if_false]
    exact per_online_in hV hm _ _ (fun _ h => h) h'

theorem per_loop_in (hV : LinearSpace V) (hm : PSpanIn V m samples) {cfg : Perceptron.Config} {avg : Option ℤ} {ml : ℚ} :
    ∀ (n it : ℕ) (st : Perceptron.St), PerIn V st → PerIn V (Perceptron.loop m cfg avg samples ml n it st)
  | 0, _, _, h => h
  | n + 1, it, st, h => by
    have h' := per_pass_in (cfg := cfg) (avg := avg) (it := it) hV hm h
    unfold Perceptron.loop
    simp only
    split
    · exact ⟨h'.w, h'.wbar⟩
    · exact per_loop_in hV hm n _ _ ⟨h'.w, h'.wbar⟩

theorem per_fit_in (hV : LinearSpace V) (hm : PSpanIn V m samples) {o o' : Perceptron.Obj}
    (h : Perceptron.fit m o samples = .ok o') : V o'.w := by
  unfold Perceptron.fit at h
  split at h
  · cases h
  · cases h
    have := per_loop_in (cfg := o.cfg) hV hm (avg := ‹_›) (ml := (samples.map fun s => m.maxLoss s.2).sum) o.cfg.maxIter 0
      Perceptron.start ⟨hV.zero, hV.zero⟩
    simp only
    split
    · exact this.w
    · exact this.wbar

/-! ### training does not look at inference outside of the space -/

/-- The state with another model. -/
def oneWith (m' : SModel X Y) (st : OneSlack.St X Y) : OneSlack.St X Y := { st with model := m' }

theorem Agree.fromCache (h : Agree V samples m m') {cfg : OneSlack.Config} {st : OneSlack.St X Y} (hm : st.model = m) (gt : W) (n : ℕ) :
    OneSlack.fromCache cfg (oneWith m' st) gt n = OneSlack.fromCache cfg st gt n := by
  unfold OneSlack.fromCache oneWith
  simp only
  rw [h.dim, hm]

theorem Agree.findNew (h : Agree V samples m m') {cfg : OneSlack.Config} {st : OneSlack.St X Y} (hm : st.model = m) (hw : V st.w)
    (gt : W) : OneSlack.findNew cfg (oneWith m' st) gt samples = OneSlack.findNew cfg st gt samples := by
  unfold OneSlack.findNew oneWith
  have : (samples.map fun s => (s, m'.lossAug s.1 s.2 st.w true)) = samples.map fun s => (s, m.lossAug s.1 s.2 st.w true) :=
    List.map_congr_left fun s hs => by rw [h.lossAug s hs _ hw]
  simp only
  rw [this, h.dim, h.feat, h.lossOf, hm]

theorem Agree.cacheSamples (h : Agree V samples m m') {eq : Y → Y → Except PyErr Bool} {size : ℕ} :
    ∀ (cache : List (List (OneSlack.Cached Y))) (l : List (X × Y)) (yhat : List Y),
    OneSlack.cacheSamples m' eq size cache l yhat = OneSlack.cacheSamples m eq size cache l yhat
  | c :: cache, s :: l, yh :: yhat => by
    unfold OneSlack.cacheSamples OneSlack.cacheSample
    rw [h.cacheSamples cache l yhat, h.jointFeature, h.lossOf]
  | [], _, _ => by simp only [OneSlack.cacheSamples]
  | c :: cache, [], _ => by simp only [OneSlack.cacheSamples]
  | c :: cache, s :: l, [] => by simp only [OneSlack.cacheSamples]

theorem Agree.updateCache (h : Agree V samples m m') (eq : Y → Y → Except PyErr Bool) (cfg : OneSlack.Config)
    (cache : Option (List (List (OneSlack.Cached Y)))) (yhat : List Y) :
    OneSlack.updateCache m' eq cfg cache samples yhat = OneSlack.updateCache m eq cfg cache samples yhat := by
  unfold OneSlack.updateCache
  rw [h.cacheSamples]

theorem Agree.addConstraint (h : Agree V samples m m') {qp : QP.Solver} {cfg : OneSlack.Config} {it : ℕ}
    {intr : Option OneSlack.Phase} {st : OneSlack.St X Y} (hm : st.model = m) (hw : V st.w) (f : OneSlack.Found Y) (c : Bool) :
    OneSlack.addConstraint qp cfg samples it intr (oneWith m' st) f c =
      (OneSlack.addConstraint qp cfg samples it intr st f c).map fun r => (oneWith m' r.1, r.2) := by
  subst hm
  unfold OneSlack.addConstraint oneWith
  simp only
  rw [h.computeTrainingLoss hw, h.dim]
  split
  · rfl
  · split
    · rfl
    · split
      · rfl
      · split
        · rfl
        · split <;> rfl

theorem addConstraint_model {qp : QP.Solver} {cfg : OneSlack.Config} {it : ℕ}
    {intr : Option OneSlack.Phase} {st st' : OneSlack.St X Y} {f : OneSlack.Found Y} {c b : Bool}
    (h : OneSlack.addConstraint qp cfg samples it intr st f c = .ok (st', b)) : st'.model = st.model := by
  unfold OneSlack.addConstraint at h
  simp only at h
  split at h
  · cases h; rfl
  · split at h
    · cases h
    · split at h
      · cases h
      · split at h
        · cases h; rfl
        · split at h
          · cases h
          · cases h; rfl

theorem one_iteration_model {qp : QP.Solver} {eq : Y → Y → Except PyErr Bool} {cfg : OneSlack.Config} {gt : W} {it : ℕ}
    {intr : Option OneSlack.Phase} {st st' : OneSlack.St X Y} {b : Bool}
    (h : OneSlack.iteration qp eq none cfg samples gt it intr st = .ok (st', b)) : st'.model = st.model := by
  unfold OneSlack.iteration at h
  split at h
  · cases h; rfl
  · split at h
    · cases h
    · exact addConstraint_model h
    · split at h
      · cases h
      · split at h
        · cases h
        · exact (addConstraint_model h :)
      · split at h
        · rename_i h'
          cases h'
        · cases h; rfl

theorem Agree.one_iteration (h : Agree V samples m m') {qp : QP.Solver} {eq : Y → Y → Except PyErr Bool} {cfg : OneSlack.Config}
    {gt : W} {it : ℕ} {intr : Option OneSlack.Phase} {st : OneSlack.St X Y} (hm : st.model = m) (hw : V st.w) :
    OneSlack.iteration qp eq none cfg samples gt it intr (oneWith m' st) =
      (OneSlack.iteration qp eq none cfg samples gt it intr st).map fun r => (oneWith m' r.1, r.2) := by
  subst hm
  unfold OneSlack.iteration
  rw [h.fromCache rfl, h.findNew rfl hw]
  split
  · rfl
  · split
    · rfl
    · exact h.addConstraint rfl hw _ _
    · split
      · rfl
      · have e : (oneWith m' st).model = m' := rfl
        have e2 : (oneWith m' st).cache = st.cache := rfl
        rw [e2, show (oneWith m' st).model = m' from rfl, h.updateCache]
        split
        · rfl
        · rename_i cache _
          exact h.addConstraint (st := { st with cache := cache }) rfl hw _ _
      · split
        · rename_i h'
          cases h'
        · split
          · rename_i h'
            cases h'
          · rfl

theorem Agree.one_loop (hV : LinearSpace V) (h : Agree V samples m m') {qp : QP.Solver} {eq : Y → Y → Except PyErr Bool}
    {cfg : OneSlack.Config} {intr : ℕ → Option OneSlack.Phase} : ∀ (fuel it : ℕ) (st : OneSlack.St X Y),
    st.model = m → OneIn V m samples gt none st → OneSlack.loop qp eq none cfg samples gt intr fuel it (oneWith m' st) =
      (OneSlack.loop qp eq none cfg samples gt intr fuel it st).map (oneWith m')
  | 0, _, _, _, _ => rfl
  | fuel + 1, it, st, hm, hst => by
    unfold OneSlack.loop
    rw [h.one_iteration hm hst.w]
    cases hi : OneSlack.iteration qp eq none cfg samples gt it (intr it) st with
    | error err => rfl
    | ok r =>
      obtain ⟨st1, b⟩ := r
      cases b with
      | false => rfl
      | true =>
        exact Agree.one_loop hV h fuel (it + 1) st1 ((one_iteration_model hi).trans hm) (one_iteration_in hV hst hi)

theorem one_loop_model {qp : QP.Solver} {eq : Y → Y → Except PyErr Bool}
    {cfg : OneSlack.Config} {gt : W} {intr : ℕ → Option OneSlack.Phase} : ∀ (fuel it : ℕ) (st st' : OneSlack.St X Y),
    OneSlack.loop qp eq none cfg samples gt intr fuel it st = .ok st' → st'.model = st.model
  | 0, _, _, _, h => by
    unfold OneSlack.loop at h
    cases h
    rfl
  | fuel + 1, it, st, st', h => by
    unfold OneSlack.loop at h
    split at h
    · cases h
    · rename_i h1
      cases h
      exact one_iteration_model h1
    · rename_i h1
      exact (one_loop_model fuel (it + 1) _ _ h).trans (one_iteration_model h1)

/-- One-slack training of two models that agree on `V`. -/
theorem Agree.one_fit (hV : LinearSpace V) (h : Agree V samples m m') (hm : SpanIn V m samples) {qp : QP.Solver}
    {eq : Y → Y → Except PyErr Bool} {intr : ℕ → Option OneSlack.Phase} {o : OneSlack.Obj Y} {warm : OneSlack.Warm}
    (ho : warm = .no ∨ OneAttrsIn V m samples o) : OneSlack.fit m' qp eq none intr o samples warm = OneSlack.fit m qp eq none intr o samples warm := by
  have hs : OneSlack.start m' o warm = (OneSlack.start m o warm).map (oneWith m') := by
    unfold OneSlack.start
    simp only
    split <;> rfl
  have hsm : ∀ st, OneSlack.start m o warm = .ok st → st.model = m := by
    intro st hst
    unfold OneSlack.start at hst
    simp only at hst
    split at hst
    all_goals first | (cases hst; rfl) | cases hst
  have hgt : OneSlack.jointFeatureGt m' samples = OneSlack.jointFeatureGt m samples := by
    unfold OneSlack.jointFeatureGt
    rw [h.feat]
  unfold OneSlack.fit
  rw [hs, hgt]
  cases hst : OneSlack.start m o warm with
  | error err => rfl
  | ok st =>
    have hin := one_start_in (alt := none) hV hm (by simp [AltIn]) ho hst
    change (match OneSlack.loop qp eq none o.cfg samples (OneSlack.jointFeatureGt m samples) intr o.cfg.maxIter 0 (oneWith m' st) with
      | .error err => _
      | .ok st => _) = _
    rw [h.one_loop hV _ _ _ (hsm st hst) hin]
    simp only
    cases hl : OneSlack.loop qp eq none o.cfg samples (OneSlack.jointFeatureGt m samples) intr o.cfg.maxIter 0 st with
    | error err => rfl
    | ok st' =>
      have hin' := one_loop_in hV _ _ _ _ hin hl
      have hm' := (one_loop_model _ _ _ _ hl).trans (hsm st hst)
      simp only [Except.map, oneWith]
      rw [hm', h.objectivePrimal hin'.w]

/-- The state with another model. -/
def nWith (m' : SModel X Y) (st : NSlack.St X Y) : NSlack.St X Y := { st with model := m' }

theorem Agree.n_solve (h : Agree V samples m m') {qp : QP.Solver} {cfg : NSlack.Config} {n : ℕ} {st : NSlack.St X Y}
    (hm : st.model = m) : NSlack.solve qp cfg n (nWith m' st) = (NSlack.solve qp cfg n st).map (nWith m') := by
  subst hm
  unfold NSlack.solve nWith
  simp only
  rw [h.dim]
  split
  · rfl
  · split <;> rfl

theorem n_solve_model {qp : QP.Solver} {cfg : NSlack.Config} {n : ℕ} {st st' : NSlack.St X Y}
    (h : NSlack.solve qp cfg n st = .ok st') : st'.model = st.model := by
  unfold NSlack.solve at h
  split at h
  · cases h
  · split at h
    · cases h
    · cases h; rfl

theorem Agree.addAll (h : Agree V samples m m') {cfg : NSlack.Config} {eq : Y → Y → Bool} {w : W} (hw : V w) :
    ∀ (b : List (ℕ × X × Y)) (acc : NSlack.WS Y × ℚ × ℕ), (∀ s ∈ b, s.2 ∈ samples) →
    NSlack.addAll cfg eq m' w b acc = NSlack.addAll cfg eq m w b acc
  | [], _, _ => rfl
  | s :: b, acc, hb => by
    have hs : NSlack.addNew cfg eq m' w acc s = NSlack.addNew cfg eq m w acc s := by
      unfold NSlack.addNew
      rw [h.findConstraint (hb s List.mem_cons_self) hw, h.dim]
    unfold NSlack.addAll
    rw [hs]
    split
    · rfl
    · exact h.addAll hw b _ fun s' hs' => hb s' (List.mem_cons_of_mem _ hs')

theorem Agree.runBatch (h : Agree V samples m m') {qp : QP.Solver} {eq : Y → Y → Bool} {cfg : NSlack.Config}
    {n : ℕ} {intr : Option OneSlack.Phase} {b : List (ℕ × X × Y)} (hb : ∀ s ∈ b, s.2 ∈ samples) (st : NSlack.St X Y) (q : ℚ × ℕ)
    (hm : st.model = m) (hw : V st.w) : NSlack.runBatch qp eq cfg n intr b (nWith m' st, q) =
      (NSlack.runBatch qp eq cfg n intr b (st, q)).map fun r => ((nWith m' r.1.1, r.1.2), r.2) := by
  subst hm
  unfold NSlack.runBatch
  have e : NSlack.addAll cfg eq (nWith m' st).model (nWith m' st).w b ((nWith m' st).ws, q.1, 0) =
      NSlack.addAll cfg eq st.model st.w b (st.ws, q.1, 0) := h.addAll hw b _ hb
  simp only [e]
  split
  · rfl
  · split
    · rfl
    · rename_i ws sl new _
      split
      · rfl
      · split
        · rfl
        · have := h.n_solve (qp := qp) (cfg := cfg) (n := n) (st := { st with ws := ws }) rfl
          have e3 : ({ nWith m' st with ws := ws } : NSlack.St X Y) = nWith m' { st with ws := ws } := rfl
          rw [e3, this]
          cases NSlack.solve qp cfg n { st with ws := ws } <;> rfl

theorem runBatch_model {qp : QP.Solver} {eq : Y → Y → Bool} {cfg : NSlack.Config}
    {n : ℕ} {intr : Option OneSlack.Phase} {b : List (ℕ × X × Y)} {acc acc' : NSlack.St X Y × ℚ × ℕ} {fl : Bool}
    (h : NSlack.runBatch qp eq cfg n intr b acc = .ok (acc', fl)) : acc'.1.model = acc.1.model := by
  unfold NSlack.runBatch at h
  split at h
  · cases h; rfl
  · split at h
    · cases h
    · simp only at h
      split at h
      · cases h; rfl
      · split at h
        · cases h; rfl
        · split at h
          · cases h
          · rename_i hs
            cases h
            exact (n_solve_model hs :)

theorem Agree.runBatches (hV : LinearSpace V) (h : Agree V samples m m') {qp : QP.Solver} {eq : Y → Y → Bool} {cfg : NSlack.Config}
    {n : ℕ} {intr : ℕ → Option OneSlack.Phase} : ∀ (bs : List (List (ℕ × X × Y))) (j : ℕ) (st : NSlack.St X Y) (q : ℚ × ℕ),
    (∀ b ∈ bs, ∀ s ∈ b, s.2 ∈ samples) → st.model = m → NIn V samples none st →
    NSlack.runBatches qp eq cfg n intr bs j (nWith m' st, q) =
      (NSlack.runBatches qp eq cfg n intr bs j (st, q)).map fun r => ((nWith m' r.1.1, r.1.2), r.2)
  | [], _, _, _, _, _, _ => rfl
  | b :: bs, j, st, q, hb, hm, hst => by
    unfold NSlack.runBatches
    rw [h.runBatch (hb b List.mem_cons_self) st q hm hst.w]
    cases hr : NSlack.runBatch qp eq cfg n (intr j) b (st, q) with
    | error err => rfl
    | ok r =>
      obtain ⟨⟨st1, q1⟩, fl⟩ := r
      cases fl with
      | true => rfl
      | false =>
        exact Agree.runBatches hV h bs (j + 1) st1 q1 (fun b' hb' => hb b' (List.mem_cons_of_mem _ hb'))
          ((runBatch_model hr).trans hm) (runBatch_in hV (hb b List.mem_cons_self) hst hr)

theorem runBatches_model {qp : QP.Solver} {eq : Y → Y → Bool} {cfg : NSlack.Config}
    {n : ℕ} {intr : ℕ → Option OneSlack.Phase} : ∀ (bs : List (List (ℕ × X × Y))) (j : ℕ) (acc acc' : NSlack.St X Y × ℚ × ℕ)
    (fl : Bool), NSlack.runBatches qp eq cfg n intr bs j acc = .ok (acc', fl) → acc'.1.model = acc.1.model
  | [], _, _, _, _, h => by
    unfold NSlack.runBatches at h
    cases h
    rfl
  | b :: bs, j, acc, acc', fl, h => by
    unfold NSlack.runBatches at h
    split at h
    · cases h
    · rename_i h1
      cases h
      exact runBatch_model h1
    · rename_i h1
      exact (runBatches_model bs (j + 1) _ _ _ h).trans (runBatch_model h1)

theorem Agree.n_iteration (hV : LinearSpace V) (h : Agree V samples m m') {qp : QP.Solver} {eq : Y → Y → Bool} {cfg : NSlack.Config}
    {it : ℕ} {intr : ℕ → Option OneSlack.Phase} {st : NSlack.St X Y} (hm : st.model = m) (hst : NIn V samples none st) :
    NSlack.iteration qp eq none cfg samples it intr (nWith m' st) =
      (NSlack.iteration qp eq none cfg samples it intr st).map fun r => (nWith m' r.1, r.2) := by
  unfold NSlack.iteration
  split
  · rfl
  · rename_i bs hbs
    rw [h.runBatches hV bs 0 st (0, 0) (batches_mem hbs) hm hst]
    cases hr : NSlack.runBatches qp eq cfg samples.length intr bs 0 (st, 0, 0) with
    | error err => rfl
    | ok r =>
      obtain ⟨⟨st1, q1⟩, fl⟩ := r
      have hin := runBatches_in hV bs _ _ _ _ (batches_mem hbs) hst hr
      have hm1 := (runBatches_model bs _ _ _ _ hr).trans hm
      simp only at hin hm1
      cases fl with
      | true => rfl
      | false =>
        change (match st1.objective with
          | none => _
          | some obj => _) = Except.map _ (match st1.objective with
          | none => _
          | some obj => _)
        cases hob : st1.objective with
        | none => rfl
        | some obj =>
          simp only [nWith, hm1]
          rw [h.computeTrainingLoss hin.w, h.dim]
          by_cases hs : (decide (q1.2 = 0) || NSlack.converged cfg.tol it st1.objectiveCurve obj) = true
          · rw [if_pos hs]
            refine (if_pos hs).trans ?_
            rw [← hob]
            cases st1.switched <;> rfl
          · rw [if_neg hs]
            refine (if_neg hs).trans ?_
            rw [← hob]
            rfl

theorem n_iteration_model {qp : QP.Solver} {eq : Y → Y → Bool} {cfg : NSlack.Config} {it : ℕ}
    {intr : ℕ → Option OneSlack.Phase} {st st' : NSlack.St X Y} {out : NSlack.Outcome}
    (h : NSlack.iteration qp eq none cfg samples it intr st = .ok (st', out)) : st'.model = st.model := by
  unfold NSlack.iteration at h
  split at h
  · cases h
  · split at h
    · cases h
    · rename_i h1
      cases h
      exact runBatches_model _ _ _ _ _ h1
    · rename_i h1
      have := runBatches_model _ _ _ _ _ h1
      split at h
      · cases h
      · simp only at h
        split at h
        · split at h
          · rename_i h'
            cases h'
          · cases h
            exact this
        · cases h
          exact this

theorem Agree.n_loop (hV : LinearSpace V) (h : Agree V samples m m') {qp : QP.Solver} {eq : Y → Y → Bool} {cfg : NSlack.Config}
    {intr : ℕ → ℕ → Option OneSlack.Phase} : ∀ (fuel it : ℕ) (st : NSlack.St X Y), st.model = m → NIn V samples none st →
    NSlack.loop qp eq none cfg samples intr fuel it (nWith m' st) =
      (NSlack.loop qp eq none cfg samples intr fuel it st).map fun r => (nWith m' r.1, r.2)
  | 0, _, _, _, _ => rfl
  | fuel + 1, it, st, hm, hst => by
    unfold NSlack.loop
    rw [h.n_iteration hV hm hst]
    cases hi : NSlack.iteration qp eq none cfg samples it (intr it) st with
    | error err => rfl
    | ok r =>
      obtain ⟨st1, out⟩ := r
      cases out with
      | goOn => exact Agree.n_loop hV h fuel (it + 1) st1 ((n_iteration_model hi).trans hm) (n_iteration_in hV hst hi)
      | interrupted => rfl
      | stopped b => rfl

theorem n_loop_model {qp : QP.Solver} {eq : Y → Y → Bool} {cfg : NSlack.Config}
    {intr : ℕ → ℕ → Option OneSlack.Phase} : ∀ (fuel it : ℕ) (st st' : NSlack.St X Y) (out : NSlack.Outcome),
    NSlack.loop qp eq none cfg samples intr fuel it st = .ok (st', out) → st'.model = st.model
  | 0, _, _, _, _, h => by
    unfold NSlack.loop at h
    cases h
    rfl
  | fuel + 1, it, st, st', out, h => by
    unfold NSlack.loop at h
    split at h
    · cases h
    · rename_i h1
      exact (n_loop_model fuel (it + 1) _ _ _ h).trans (n_iteration_model h1)
    · rename_i h1
      cases h
      exact n_iteration_model h1

/-- n-slack training of two models that agree on `V`. -/
theorem Agree.n_fit (hV : LinearSpace V) (h : Agree V samples m m') (hm : SpanIn V m samples) {qp : QP.Solver}
    {eq : Y → Y → Bool} {intr : ℕ → ℕ → Option OneSlack.Phase} {o : NSlack.Obj Y} :
    NSlack.fit m' qp eq none intr o samples none = NSlack.fit m qp eq none intr o samples none := by
  have hst : ∃ st, NSlack.start m qp o samples.length none = .ok st ∧ st.model = m ∧
      NSlack.start m' qp o samples.length none = .ok (nWith m' st) := ⟨_, rfl, rfl, rfl⟩
  obtain ⟨st, h1, h2, h3⟩ := hst
  have hin : NIn V samples none st := n_start_in hV hm (by simp [AltIn]) (by simp) h1
  unfold NSlack.fit
  rw [h1, h3]
  simp only
  rw [h.n_loop hV _ _ _ h2 hin]
  cases hl : NSlack.loop qp eq none o.cfg samples intr o.cfg.maxIter 0 st with
  | error err => rfl
  | ok r =>
    obtain ⟨st', out⟩ := r
    have hin' := n_loop_in hV _ _ _ _ _ hin hl
    have hm' := (n_loop_model _ _ _ _ _ hl).trans h2
    simp only [Except.map, nWith]
    rw [hm', h.objectivePrimal hin'.w]

theorem Agree.batchDelta (h : Agree V samples m m') {w : W} (hw : V w) :
    FrankWolfe.batchDelta m' samples w = FrankWolfe.batchDelta m samples w := by
  funext k
  unfold FrankWolfe.batchDelta
  rw [h.jointFeature]
  congr 2
  exact List.map_congr_left fun s hs => by rw [h.lossAug s hs w hw]

theorem Agree.batchLossSum (h : Agree V samples m m') {w : W} (hw : V w) :
    FrankWolfe.batchLossSum m' samples w = FrankWolfe.batchLossSum m samples w := by
  unfold FrankWolfe.batchLossSum
  rw [h.lossOf]
  congr 1
  exact List.map_congr_left fun s hs => by rw [h.lossAug s hs w hw]

theorem Agree.fw_batchLoop (hV : LinearSpace V) (h : Agree V samples m m') (hm : SpanIn V m samples) {cfg : FrankWolfe.Config} :
    ∀ (n it : ℕ) (w : W) (l : ℚ) (c : FrankWolfe.Curves), V w →
    FrankWolfe.batchLoop m' cfg samples n it w l c = FrankWolfe.batchLoop m cfg samples n it w l c
  | 0, _, _, _, _, _ => rfl
  | n + 1, it, w, l, c, hw => by
    have hstep : FrankWolfe.batchStep m' cfg samples it w l = FrankWolfe.batchStep m cfg samples it w l := by
      unfold FrankWolfe.batchStep
      rw [h.batchDelta hw, h.batchLossSum hw, h.dim]
    have hw' : V (FrankWolfe.batchStep m cfg samples it w l).2.1 := by
      unfold FrankWolfe.batchStep
      exact hV.add _ _ (hV.smul _ _ hw) (hV.smul _ _ (hV.smul' _ (batchDelta_in hV hm w)))
    unfold FrankWolfe.batchLoop
    simp only
    rw [hstep]
    split
    · rfl
    · exact h.fw_batchLoop hV hm n _ _ _ _ hw'

theorem Agree.bcFold (hV : LinearSpace V) (h : Agree V samples m m') (hm : SpanIn V m samples) {cfg : FrankWolfe.Config} :
    ∀ (l : List ℕ) (st : FrankWolfe.BC), BCIn V st →
    l.foldl (FrankWolfe.bcStep m' cfg samples) st = l.foldl (FrankWolfe.bcStep m cfg samples) st
  | [], _, _ => rfl
  | i :: l, st, hst => by
    have hs : FrankWolfe.bcStep m' cfg samples st i = FrankWolfe.bcStep m cfg samples st i := by
      unfold FrankWolfe.bcStep
      split
      · rfl
      · rename_i x y hxy
        have := h.findConstraint (List.mem_of_getElem? hxy) hst.w none true true
        simp only at this
        unfold FrankWolfe.lineNum
        rw [this, h.dim]
    rw [List.foldl_cons, List.foldl_cons, hs]
    exact h.bcFold hV hm l _ (bcStep_in hV hm hst i)

theorem Agree.calcDualGap (h : Agree V samples m m') {w : W} (hw : V w) (C l : ℚ) :
    FrankWolfe.calcDualGap m' C samples w l = FrankWolfe.calcDualGap m C samples w l := by
  unfold FrankWolfe.calcDualGap
  rw [h.rescaleC, h.batchLossSum hw, h.batchDelta hw, h.dim]

theorem Agree.bcLoop (hV : LinearSpace V) (h : Agree V samples m m') (hm : SpanIn V m samples) {cfg : FrankWolfe.Config}
    {order : ℕ → List ℕ} : ∀ (n it : ℕ) (st : FrankWolfe.BC) (gap : Option ℚ) (c : FrankWolfe.Curves), BCIn V st →
    FrankWolfe.bcLoop m' cfg order samples n it st gap c = FrankWolfe.bcLoop m cfg order samples n it st gap c
  | 0, _, _, _, _, _ => rfl
  | n + 1, it, st, gap, c, hst => by
    have hf := bcFold_in (cfg := cfg) hV hm (order it) st hst
    unfold FrankWolfe.bcLoop
    simp only
    rw [h.bcFold hV hm _ _ hst, h.calcDualGap hf.selfW]
    split
    · split
      · rfl
      · split
        · rfl
        · exact h.bcLoop hV hm n _ _ _ _ hf
    · split
      · rfl
      · split
        · rfl
        · exact h.bcLoop hV hm n _ _ _ _ hf

/-- Frank-Wolfe training of two models that agree on `V`. -/
theorem Agree.fw_fit (hV : LinearSpace V) (h : Agree V samples m m') (hm : SpanIn V m samples) {order : ℕ → List ℕ}
    {o : FrankWolfe.Obj} (ho : ∀ w, o.w = some w → V w) : FrankWolfe.fit m' order o samples = FrankWolfe.fit m order o samples := by
  have hrun : ∀ (l0 : ℚ) (w0 : W), V w0 → ∀ w l c, (if o.cfg.batchMode = true then
      if m.rescaleC = true ∧ o.cfg.maxIter ≠ 0 then (.error .valueError : Except PyErr (W × ℚ × FrankWolfe.Curves))
      else
        .ok ((FrankWolfe.batchLoop m o.cfg samples o.cfg.maxIter 0 w0 0 ⟨[], []⟩).1, l0,
          (FrankWolfe.batchLoop m o.cfg samples o.cfg.maxIter 0 w0 0 ⟨[], []⟩).2)
    else
      match FrankWolfe.bcLoop m o.cfg order samples o.cfg.maxIter 0 (FrankWolfe.bcStart w0 l0) none ⟨[], []⟩ with
      | .error err => .error err
      | .ok (st, c) => .ok (st.selfW, st.selfL, c)) = .ok (w, l, c) → V w := by
    intro l0 w0 hw0 w l c hrun
    split at hrun
    · split at hrun
      · cases hrun
      · cases hrun
        exact fw_batchLoop_in hV hm _ _ _ _ _ hw0
    · split at hrun
      · cases hrun
      · rename_i st c1 hl
        cases hrun
        exact (bcLoop_in hV hm _ _ _ _ _ _ _ ⟨hw0, fun _ => hV.zero, hw0⟩ hl).selfW
  unfold FrankWolfe.fit
  simp only
  have e1 : ∀ w0 : W, V w0 → ∀ l c, FrankWolfe.batchLoop m' o.cfg samples o.cfg.maxIter 0 w0 l c =
      FrankWolfe.batchLoop m o.cfg samples o.cfg.maxIter 0 w0 l c := fun w0 hw l c => h.fw_batchLoop hV hm _ _ _ _ _ hw
  have e2 : ∀ w0 : W, V w0 → ∀ l0 g c, FrankWolfe.bcLoop m' o.cfg order samples o.cfg.maxIter 0 (FrankWolfe.bcStart w0 l0) g c =
      FrankWolfe.bcLoop m o.cfg order samples o.cfg.maxIter 0 (FrankWolfe.bcStart w0 l0) g c :=
    fun w0 hw l0 g c => h.bcLoop hV hm _ _ _ _ _ ⟨hw, fun _ => hV.zero, hw⟩
  cases how : o.w with
  | none =>
    simp only
    rw [e1 _ hV.zero, e2 _ hV.zero, h.rescaleC]
    split
    · rfl
    · rename_i w l c hr
      rw [h.objectivePrimal (hrun _ _ hV.zero w l c hr)]
  | some w0 =>
    have hw := ho w0 how
    simp only
    rw [e1 _ hw, e2 _ hw, h.rescaleC]
    split
    · rfl
    · rename_i w l c hr
      rw [h.objectivePrimal (hrun _ _ hw w l c hr)]

theorem Agree.onlineFold (hV : LinearSpace V) (h : Agree V samples m m') (hm : SpanIn V m samples) {cfg : Subgradient.Config}
    {lr : ℚ} {n : ℕ} : ∀ (l : List (X × Y)) (st : Subgradient.St × ℤ), (∀ s ∈ l, s ∈ samples) → SubIn V st.1 →
    l.foldl (Subgradient.onlineStep m' cfg lr n) st = l.foldl (Subgradient.onlineStep m cfg lr n) st
  | [], _, _, _ => rfl
  | s :: l, st, hl, hst => by
    have hs : Subgradient.onlineStep m' cfg lr n st s = Subgradient.onlineStep m cfg lr n st s := by
      unfold Subgradient.onlineStep
      rw [h.findConstraint (hl s List.mem_cons_self) hst.w]
    rw [List.foldl_cons, List.foldl_cons, hs]
    exact h.onlineFold hV hm l _ (fun s' hs' => hl s' (List.mem_cons_of_mem _ hs'))
      (solveSubgradient_in hV hst (hm.delta (hl s List.mem_cons_self) _))

theorem Agree.batchFold (hV : LinearSpace V) (h : Agree V samples m m') (hm : SpanIn V m samples) {cfg : Subgradient.Config}
    {lr : ℚ} {n : ℕ} {k : ℤ} : ∀ (l : List (List (X × Y))) (st : Subgradient.St × ℤ), (∀ b ∈ l, ∀ s ∈ b, s ∈ samples) → SubIn V st.1 →
    l.foldl (Subgradient.batchStep m' cfg lr n k) st = l.foldl (Subgradient.batchStep m cfg lr n k) st
  | [], _, _, _ => rfl
  | b :: l, st, hl, hst => by
    have hs : Subgradient.batchStep m' cfg lr n k st b = Subgradient.batchStep m cfg lr n k st b := by
      have : Subgradient.meanDelta m' b st.1.w = Subgradient.meanDelta m b st.1.w := by
        funext k
        have := congrFun ((h.sub (hl b List.mem_cons_self)).batchDelta hst.w) k
        unfold FrankWolfe.batchDelta at this
        unfold Subgradient.meanDelta
        rw [this]
      unfold Subgradient.batchStep
      rw [this]
    rw [List.foldl_cons, List.foldl_cons, hs]
    exact h.batchFold hV hm l _ (fun s' hs' => hl s' (List.mem_cons_of_mem _ hs'))
      (solveSubgradient_in hV hst (meanDelta_in hV hm (hl b List.mem_cons_self) _))

theorem Agree.parallelFold (hV : LinearSpace V) (h : Agree V samples m m') (hm : SpanIn V m samples) {cfg : Subgradient.Config}
    {lr : ℚ} {n : ℕ} : ∀ (l : List (List (X × Y))) (st : Subgradient.St × ℤ), (∀ b ∈ l, ∀ s ∈ b, s ∈ samples) → SubIn V st.1 →
    l.foldl (Subgradient.parallelStep m' cfg lr n) st = l.foldl (Subgradient.parallelStep m cfg lr n) st
  | [], _, _, _ => rfl
  | b :: l, st, hl, hst => by
    have hs : Subgradient.parallelStep m' cfg lr n st b = Subgradient.parallelStep m cfg lr n st b := by
      have : (b.map fun s => Learner.findConstraint m' s.1 s.2 st.1.w none true true) =
          b.map fun s => Learner.findConstraint m s.1 s.2 st.1.w none true true :=
        List.map_congr_left fun s hs => h.findConstraint (hl b List.mem_cons_self s hs) hst.w _ _ _
      unfold Subgradient.parallelStep
      rw [this]
    have hin := parallelFold_in (cfg := cfg) (lr := lr) (n := n) hV hm [b] st (by simpa using hl b List.mem_cons_self) hst
    rw [List.foldl_cons, List.foldl_cons, hs]
    exact h.parallelFold hV hm l _ (fun s' hs' => hl s' (List.mem_cons_of_mem _ hs')) hin

theorem Agree.learn (hV : LinearSpace V) (h : Agree V samples m m') (hm : SpanIn V m samples) {cfg : Subgradient.Config} {lr : ℚ}
    {data : List (X × Y)} (hd : ∀ s ∈ data, s ∈ samples) {st : Subgradient.St} (hst : SubIn V st) :
    Subgradient.learn m' cfg lr data st = Subgradient.learn m cfg lr data st := by
  unfold Subgradient.learn
  split
  · unfold Subgradient.sequentialLearning
    rw [h.onlineFold hV hm data (st, 0) hd hst, h.rescaleC]
    split
    · rfl
    · split
      · rfl
      · split
        · rfl
        · rename_i bs hbs
          rw [h.batchFold hV hm bs (st, 0) (fun b hb s hs => hd s (miniBatches_mem hbs b hb s hs)) hst]
  · unfold Subgradient.parallelLearning
    split
    · rfl
    · split
      · rfl
      · split
        · rfl
        · rw [h.parallelFold hV hm _ (st, 0) (fun b hb s hs => hd s (cut_mem b hb s hs)) hst]

theorem Agree.sub_loop (hV : LinearSpace V) (h : Agree V samples m m') (hm : SpanIn V m samples) {cfg : Subgradient.Config} {lr : ℚ}
    {order : ℕ → List (X × Y)} (hord : ∀ it, ∀ s ∈ order it, s ∈ samples) : ∀ (n it : ℕ) (data : List (X × Y))
    (st : Subgradient.St) (c : Subgradient.Curves), (∀ s ∈ data, s ∈ samples) → SubIn V st →
    Subgradient.loop m' cfg lr order n it data st c = Subgradient.loop m cfg lr order n it data st c
  | 0, _, _, _, _, _, _ => rfl
  | n + 1, it, data, st, c, hd, hst => by
    have hd' : ∀ s ∈ (if cfg.shuffle then order it else data), s ∈ samples := by
      split
      · exact hord it
      · exact hd
    unfold Subgradient.loop
    simp only
    rw [h.learn hV hm hd' hst]
    cases hl : Subgradient.learn m cfg lr (if cfg.shuffle then order it else data) st with
    | error err => rfl
    | ok r =>
      obtain ⟨st1, p⟩ := r
      have h1 := learn_in hV hm hd' hst hl
      simp only
      rw [(h.sub hd').objectivePrimal h1.selfW, (h.sub hd').computeTrainingLoss h1.selfW]
      split
      · rfl
      · split
        · rfl
        · exact h.sub_loop hV hm hord n _ _ _ _ hd' h1

theorem sub_loop_data {cfg : Subgradient.Config} {lr : ℚ} {order : ℕ → List (X × Y)}
    (hord : ∀ it, ∀ s ∈ order it, s ∈ samples) : ∀ (n it : ℕ) (data : List (X × Y)) (st : Subgradient.St) (c : Subgradient.Curves)
    (data' : List (X × Y)) (st' : Subgradient.St) (c' : Subgradient.Curves), (∀ s ∈ data, s ∈ samples) →
    Subgradient.loop m cfg lr order n it data st c = .ok (data', st', c') → ∀ s ∈ data', s ∈ samples
  | 0, _, data, st, c, data', st', c', hd, h => by
    unfold Subgradient.loop at h
    cases h
    exact hd
  | n + 1, it, data, st, c, data', st', c', hd, h => by
    have hd' : ∀ s ∈ (if cfg.shuffle then order it else data), s ∈ samples := by
      split
      · exact hord it
      · exact hd
    unfold Subgradient.loop at h
    simp only at h
    split at h
    · cases h
    · split at h
      · cases h
        exact hd'
      · split at h
        · cases h
        · exact sub_loop_data hord n _ _ _ _ _ _ _ hd' h

/-- Subgradient training of two models that agree on `V`. -/
theorem Agree.sub_fit (hV : LinearSpace V) (h : Agree V samples m m') (hm : SpanIn V m samples) {order : ℕ → List (X × Y)}
    (hord : ∀ it, ∀ s ∈ order it, s ∈ samples) {o : Subgradient.Obj} (ho : ∀ w, o.w = some w → V w) {warm : Bool} :
    Subgradient.fit m' order o samples warm = Subgradient.fit m order o samples warm := by
  have hw0 : V (o.w.getD fun _ => 0) := by
    cases hw : o.w with
    | none => exact hV.zero
    | some w => exact ho w hw
  unfold Subgradient.fit
  simp only
  split
  · rfl
  · rename_i lr curve _
    rw [h.sub_loop hV hm hord _ _ _ _ _ (fun _ h => h) ⟨hw0, hV.zero, hw0⟩]
    cases hl : Subgradient.loop m o.cfg lr order o.cfg.maxIter 0 samples ⟨o.w.getD fun _ => 0, fun _ => 0, o.w.getD fun _ => 0, o.t⟩
        ⟨curve, o.curves.loss⟩ with
    | error err => rfl
    | ok r =>
      obtain ⟨data, st, c⟩ := r
      have h1 := sub_loop_in hV hm hord _ _ _ _ _ _ _ _ (fun _ h => h) ⟨hw0, hV.zero, hw0⟩ hl
      have h2 := sub_loop_data hord _ _ _ _ _ _ _ _ (fun _ h => h) hl
      simp only
      rw [(h.sub h2).objectivePrimal h1.selfW]

end Verif.Lemmas
