import Verif.Lemmas.OneSlack

/-!
# C39 to C42, C51, C61 for OneSlackSSVM
-/

namespace Verif.Props

open Finset Verif.Spec Verif.Learner Verif.OneSlack

variable {X Y : Type}

/-- the cache holds joint features and losses of outputs that are related to their sample by `R`. -/
def Linked (m : SModel X Y) (R : X → Y → Y → Prop) (samples : List (X × Y))
    (cache : List (List (Cached Y))) : Prop :=
  List.Forall₂ (fun s l => ∀ e ∈ l, R s.1 s.2 e.2.2 ∧ e.1 = m.jointFeature s.1 e.2.2 ∧
    e.2.1 = m.lossOf s.2 e.2.2) samples cache

/-! ### constraints that are found are averaged constraints -/

theorem list_sum_sub {α : Type} (l : List α) (f g : α → ℚ) :
    (l.map fun a => f a - g a).sum = (l.map f).sum - (l.map g).sum := by
  induction l with
  | nil => simp
  | cons a l ih => simp only [List.map_cons, List.sum_cons, ih]; ring

theorem zip_map_self {α β : Type} (l : List α) (f : α → β) : l.zip (l.map f) = l.map fun a => (a, f a) := by
  induction l with
  | nil => rfl
  | cons a l ih => simp [ih]

theorem findNew_mean {m : SModel X Y} {outputs : X → Set Y} {R : X → Y → Y → Prop}
    {samples : List (X × Y)} {cfg : Config} {st : St X Y} {la : X → Y → W → Bool → Y} {inf : X → W → Y}
    (hm : st.model = { m with lossAug := la, inference := inf })
    (hla : ∀ s ∈ samples, ∀ w, R s.1 s.2 (la s.1 s.2 w true)) {f : Found Y}
    (h : findNew cfg st (jointFeatureGt m samples) samples = .ok (some f)) :
    (problemOf m outputs).IsMean R samples f.dj f.loss ∧
      f.yhat = samples.map fun s => la s.1 s.2 st.w true := by
  unfold findNew at h
  simp only [hm] at h
  split at h
  · cases h
  · simp at h
  · simp only [Except.ok.injEq, Option.some.injEq] at h
    subst h
    refine ⟨⟨samples.map fun s => la s.1 s.2 st.w true, ?_, ?_, ?_⟩, ?_⟩
    · rw [List.forall₂_map_right_iff, List.forall₂_same]
      exact fun s hs => hla s hs _
    · intro k _
      simp only
      rw [list_sum_sub]
      congr 1
      have e : samples.zip (samples.map fun s => la s.1 s.2 st.w true) =
          samples.map fun s => (s, la s.1 s.2 st.w true) := by
        exact zip_map_self _ _
      rw [e, List.map_map, List.map_map, List.map_map]
      rfl
    · simp only
      congr 1
      have e : samples.zip (samples.map fun s => la s.1 s.2 st.w true) =
          samples.map fun s => (s, la s.1 s.2 st.w true) := by
        exact zip_map_self _ _
      rw [e]
      rfl
    · simp only [List.map_map]
      rfl

theorem strongestAll_forall {Y : Type} {dim : ℕ} {w : W} {cache : List (List (Cached Y))}
    {es : List (Cached Y)} (h : strongestAll dim w cache = .ok es) :
    List.Forall₂ (fun l e => e ∈ l ∧ ∀ e' ∈ l, dot dim e'.1 w + e'.2.1 ≤ dot dim e.1 w + e.2.1) cache es := by
  induction cache generalizing es with
  | nil =>
    unfold strongestAll at h
    rw [Except.ok.injEq] at h
    subst h
    exact List.Forall₂.nil
  | cons c cs ih =>
    unfold strongestAll at h
    cases hc : strongestCached dim w c with
    | error err => rw [hc] at h; cases h
    | ok e =>
      rw [hc] at h
      simp only at h
      cases hs : strongestAll dim w cs with
      | error err => rw [hs] at h; cases h
      | ok es' =>
        rw [hs] at h
        simp only [Except.ok.injEq] at h
        subst h
        refine List.Forall₂.cons ?_ (ih hs)
        unfold strongestCached at hc
        split at hc
        · cases hc
        · rename_i e' he'
          rw [Except.ok.injEq] at hc
          subst hc
          obtain ⟨hi, hget⟩ := List.getElem?_eq_some_iff.mp he'
          refine ⟨hget ▸ List.getElem_mem hi, ?_⟩
          intro e2 he2
          obtain ⟨j, hj, rfl⟩ := List.getElem_of_mem he2
          have := le_maxN (fun i => (c[i]?.map fun c => dot dim c.1 w + c.2.1).getD 0) hj
          unfold maxN at this
          simp only [he', List.getElem?_eq_getElem hj] at this
          simpa using this

theorem fromCache_mean {m : SModel X Y} {outputs : X → Set Y} {R : X → Y → Y → Prop}
    {samples : List (X × Y)} {cfg : Config} {st : St X Y} {la : X → Y → W → Bool → Y} {inf : X → W → Y}
    (hm : st.model = { m with lossAug := la, inference := inf })
    (hk : ∀ cache, st.cache = some cache → m.rescaleC = false ∧ Linked m R samples cache) {f : Found Y}
    (h : fromCache cfg st (jointFeatureGt m samples) samples.length = .ok (some f)) :
    (problemOf m outputs).IsMean R samples f.dj f.loss := by
  unfold fromCache at h
  cases hc : st.cache with
  | none => rw [hc] at h; simp at h
  | some cache =>
    obtain ⟨hr, hlink⟩ := hk cache hc
    rw [hc] at h
    cases cache with
    | nil => simp at h
    | cons c cs =>
      simp only [hm] at h
      split at h
      · rename_i primal obj _ _
        by_cases hg : gapSmall cfg.cacheTol st.cacheTol (primal - obj) = true
        · rw [if_pos hg] at h; simp at h
        · rw [if_neg hg] at h
          cases hs : strongestAll m.dim st.w (c :: cs) with
          | error err => rw [hs] at h; cases h
          | ok es =>
            rw [hs] at h
            simp only at h
            split at h
            · cases h
            · simp at h
            · rename_i hcheck
              simp only [Except.ok.injEq, Option.some.injEq] at h
              subst h
              clear hcheck
              have hfa := strongestAll_forall hs
              have hall : List.Forall₂ (fun s (e : Cached Y) => R s.1 s.2 e.2.2 ∧
                  e.1 = m.jointFeature s.1 e.2.2 ∧ e.2.1 = m.lossOf s.2 e.2.2) samples es := by
                have : ∀ (S : List (X × Y)) (L : List (List (Cached Y))) (E : List (Cached Y)),
                    Linked m R S L → List.Forall₂ (fun l e => e ∈ l ∧
                      ∀ e' ∈ l, dot m.dim e'.1 st.w + e'.2.1 ≤ dot m.dim e.1 st.w + e.2.1) L E →
                    List.Forall₂ (fun s (e : Cached Y) => R s.1 s.2 e.2.2 ∧
                      e.1 = m.jointFeature s.1 e.2.2 ∧ e.2.1 = m.lossOf s.2 e.2.2) S E := by
                  intro S L E h1 h2
                  unfold Linked at h1
                  induction h1 generalizing E with
                  | nil => cases h2; exact List.Forall₂.nil
                  | cons hab _ ih =>
                    cases h2 with
                    | cons hcd h2 => exact List.Forall₂.cons (hab _ hcd.1) (ih _ h2)
                exact this _ _ _ hlink hfa
              have hf : ∀ x y yh, m.feat x yh y = m.jointFeature x yh := by
                intro x y yh; unfold SModel.feat; rw [hr]; rfl
              refine ⟨es.map fun e => e.2.2, ?_, ?_, ?_⟩
              · rw [List.forall₂_map_right_iff]
                exact hall.imp fun _ _ h => h.1
              · intro k _
                simp only
                congr 1
                clear hs hfa hlink hk
                unfold jointFeatureGt
                induction hall with
                | nil => simp
                | cons hab _ ih =>
                  simp only [List.map_cons, List.zip_cons_cons, List.sum_cons] at ih ⊢
                  rw [← ih, hab.2.1]
                  change _ = (m.feat _ _ _ k - m.feat _ _ _ k) + _
                  rw [hf _ _ (Prod.snd (Prod.snd _))]
                  ring
              · simp only
                congr 1
                clear hs hfa hlink hk
                induction hall with
                | nil => simp
                | cons hab _ ih =>
                  simp only [List.map_cons, List.zip_cons_cons, List.sum_cons] at ih ⊢
                  rw [ih, hab.2.2]
                  rfl
      · cases h

/-! ### the cache -/

theorem alreadyThere_ok {Y : Type} {eq : Y → Y → Except PyErr Bool} {yhat : Y} {l : List (Cached Y)}
    (h : alreadyThere eq yhat l = .ok false) : ∀ e ∈ l, eq yhat e.2.2 = .ok false := by
  induction l with
  | nil => simp
  | cons c cs ih =>
    unfold alreadyThere at h
    cases hc : eq yhat c.2.2 with
    | error err => rw [hc] at h; cases h
    | ok b =>
      rw [hc] at h
      simp only at h
      cases hs : alreadyThere eq yhat cs with
      | error err => rw [hs] at h; cases h
      | ok b' =>
        rw [hs] at h
        simp only [Except.ok.injEq, Bool.or_eq_false_iff] at h
        intro e he
        rcases List.mem_cons.mp he with rfl | he
        · rw [hc, h.1]
        · exact ih (by rw [hs, h.2]) e he

/-- per sample at most `size + 1` results, no two of which are equal. -/
def CacheOK (eq : Y → Y → Except PyErr Bool) (size : ℕ) (l : List (Cached Y)) : Prop :=
  l.length ≤ size + 1 ∧ l.Pairwise fun a b => eq b.2.2 a.2.2 = .ok false

theorem cacheSample_ok {m : SModel X Y} {eq : Y → Y → Except PyErr Bool} {size : ℕ}
    {l l' : List (Cached Y)} {x : X} {y yh : Y} (h : cacheSample m eq size l x y yh = .ok l') :
    (CacheOK eq size l → CacheOK eq size l') ∧
    (l' = l ∨ l' = l.drop (if size < l.length then 1 else 0) ++ [(m.jointFeature x yh, m.lossOf y yh, yh)]) := by
  unfold cacheSample at h
  split at h
  · cases h
  · rw [Except.ok.injEq] at h
    subst h
    exact ⟨id, .inl rfl⟩
  · rename_i hno
    have hall := alreadyThere_ok hno
    simp only [Except.ok.injEq] at h
    have hd : (if size < l.length then l.drop 1 else l) = l.drop (if size < l.length then 1 else 0) := by
      split_ifs <;> simp
    rw [hd] at h
    subst h
    refine ⟨?_, .inr rfl⟩
    rintro ⟨h1, h2⟩
    refine ⟨?_, ?_⟩
    · rw [List.length_append, List.length_drop]
      simp only [List.length_singleton]
      split_ifs <;> omega
    · rw [List.pairwise_append]
      refine ⟨h2.sublist (List.drop_sublist _ _), by simp, ?_⟩
      intro a ha b hb
      rw [List.mem_singleton] at hb
      subst hb
      exact hall a (List.mem_of_mem_drop ha)

theorem cacheSamples_ok {m : SModel X Y} {eq : Y → Y → Except PyErr Bool} {size : ℕ} :
    ∀ {cache cache' : List (List (Cached Y))} {samples : List (X × Y)} {yhat : List Y},
    cacheSamples m eq size cache samples yhat = .ok cache' →
    ((∀ l ∈ cache, CacheOK eq size l) → ∀ l ∈ cache', CacheOK eq size l) ∧
    ∀ R : X → Y → Y → Prop, Linked m R samples cache →
      List.Forall₂ (fun s yh => R s.1 s.2 yh) samples yhat → Linked m R samples cache' := by
  intro cache
  induction cache with
  | nil =>
    intro cache' samples yhat h
    unfold cacheSamples at h
    simp only [Except.ok.injEq] at h
    subst h
    exact ⟨fun h => h, fun R h _ => h⟩
  | cons c cs ih =>
    intro cache' samples yhat h
    cases samples with
    | nil =>
      unfold cacheSamples at h
      simp only [Except.ok.injEq] at h
      subst h
      exact ⟨fun h => h, fun R h _ => h⟩
    | cons s samples =>
      cases yhat with
      | nil =>
        unfold cacheSamples at h
        simp only [Except.ok.injEq] at h
        subst h
        exact ⟨fun h => h, fun R h _ => h⟩
      | cons yh yhat =>
        unfold cacheSamples at h
        cases hc : cacheSample m eq size c s.1 s.2 yh with
        | error err => rw [hc] at h; cases h
        | ok c' =>
          rw [hc] at h
          simp only at h
          cases hs : cacheSamples m eq size cs samples yhat with
          | error err => rw [hs] at h; cases h
          | ok cs' =>
            rw [hs] at h
            simp only [Except.ok.injEq] at h
            subst h
            obtain ⟨i1, i2⟩ := ih hs
            obtain ⟨j1, j2⟩ := cacheSample_ok hc
            refine ⟨?_, ?_⟩
            · intro hall l hl
              rcases List.mem_cons.mp hl with rfl | hl
              · exact j1 (hall c (by simp))
              · exact i1 (fun l hl => hall l (by simp [hl])) l hl
            · intro R hlink hfa
              unfold Linked at hlink
              cases hlink with
              | cons h1 h2 =>
                cases hfa with
                | cons h3 h4 =>
                  refine List.Forall₂.cons ?_ (i2 R h2 h4)
                  rcases j2 with rfl | rfl
                  · exact h1
                  · intro e he
                    rcases List.mem_append.mp he with he | he
                    · exact h1 e (List.mem_of_mem_drop he)
                    · rw [List.mem_singleton] at he
                      subst he
                      exact ⟨h3, rfl, rfl⟩

theorem updateCache_ok {m : SModel X Y} {eq : Y → Y → Except PyErr Bool} {cfg : Config}
    {cache cache' : Option (List (List (Cached Y)))} {samples : List (X × Y)} {yhat : List Y}
    (h : updateCache m eq cfg cache samples yhat = .ok cache') :
    ((∀ c, cache = some c → ∀ l ∈ c, CacheOK eq cfg.inferenceCache l) →
      ∀ c, cache' = some c → ∀ l ∈ c, CacheOK eq cfg.inferenceCache l) ∧
    (cfg.inferenceCache = 0 → cache' = cache) ∧
    ∀ R : X → Y → Y → Prop, (∀ c, cache = some c → Linked m R samples c) →
      List.Forall₂ (fun s yh => R s.1 s.2 yh) samples yhat → ∀ c, cache' = some c → Linked m R samples c := by
  unfold updateCache at h
  split_ifs at h with h0
  · rw [Except.ok.injEq] at h
    subst h
    exact ⟨fun h => h, fun _ => rfl, fun R h _ => h⟩
  · cases hc : cacheSamples m eq cfg.inferenceCache (cache.getD (yhat.map fun _ => [])) samples yhat with
    | error err => rw [hc] at h; cases h
    | ok c =>
      rw [hc] at h
      simp only [Except.ok.injEq] at h
      subst h
      obtain ⟨i1, i2⟩ := cacheSamples_ok hc
      refine ⟨?_, fun h => absurd h h0, ?_⟩
      · intro hall c' hc'
        rw [Option.some.injEq] at hc'
        subst hc'
        apply i1
        cases cache with
        | none =>
          intro l hl
          simp only [Option.getD_none, List.mem_map] at hl
          obtain ⟨_, -, rfl⟩ := hl
          exact ⟨by simp, List.Pairwise.nil⟩
        | some c0 => exact hall c0 rfl
      · intro R hlink hfa c' hc'
        rw [Option.some.injEq] at hc'
        subst hc'
        refine i2 R ?_ hfa
        cases cache with
        | none =>
          unfold Linked
          simp only [Option.getD_none]
          rw [List.forall₂_map_right_iff]
          exact hfa.imp fun _ _ _ e he => by simp at he
        | some c0 => exact hlink c0 rfl

/-! ### lower bounds -/

/-- The attributes of a learner are sound for the data: the stored constraints are averaged constraints of
the data, so are those that can be built from the cache, and all values in the objective curve are
lower bounds. -/
structure Sound (m : SModel X Y) (outputs : X → Set Y) (R : X → Y → Y → Prop) (C : ℚ)
    (samples : List (X × Y)) (a : Attrs Y) : Prop where
  constraints : ∀ cs, a.constraints = some cs → ∀ c ∈ cs, (problemOf m outputs).IsMean R samples c.1 c.2
  cache : ∀ cache, a.cache = some cache → m.rescaleC = false ∧ Linked m R samples cache
  curve : ∀ v ∈ a.objectiveCurve, (problemOf m outputs).LowerBound C samples v

/-- What a warm start takes over from the attributes of a learner is sound for the data: the constraints, unless the warm
start is soft, and the cache. -/
structure Reusable (m : SModel X Y) (outputs : X → Set Y) (R : X → Y → Y → Prop)
    (samples : List (X × Y)) (warm : Warm) (a : Attrs Y) : Prop where
  constraints : warm = .yes → ∀ cs, a.constraints = some cs → ∀ c ∈ cs, (problemOf m outputs).IsMean R samples c.1 c.2
  cache : ∀ cache, a.cache = some cache → m.rescaleC = false ∧ Linked m R samples cache

/-- values in `objective_curve_` when the loop starts. -/
def oldCurve (o : Obj Y) : Warm → List ℚ
  | .no => []
  | _ => (o.attrs.map fun a => a.objectiveCurve).getD []

/-- Invariant of the loop, which appends to the curve `old`. -/
structure Inv (m : SModel X Y) (outputs : X → Set Y) (R : X → Y → Y → Prop) (C : ℚ)
    (alt : Option ((X → Y → W → Bool → Y) × (X → W → Y))) (samples : List (X × Y)) (old : List ℚ) (st : St X Y) : Prop where
  model : ∃ la inf, st.model = { m with lossAug := la, inference := inf } ∧
    (∀ s ∈ samples, ∀ w, R s.1 s.2 (la s.1 s.2 w true)) ∧ (alt = none → la = m.lossAug) ∧
    (∀ p, alt = some p → st.switched = true → la = p.1)
  constraints : ∀ c ∈ st.constraints, (problemOf m outputs).IsMean R samples c.1 c.2
  cache : ∀ cache, st.cache = some cache → m.rescaleC = false ∧ Linked m R samples cache
  objective : ∀ v, st.objective = some v → (problemOf m outputs).LowerBound C samples v
  curve : ∃ new, st.objectiveCurve = old ++ new ∧ ∀ v ∈ new, (problemOf m outputs).LowerBound C samples v

theorem solveQP_ok {qp : QP.Solver} {dim : ℕ} {neg : Option (List ℕ)} {cn : ℚ} {cs : List Con}
    {sol : QP.Solution} (h : solveQP qp dim neg cn cs = .ok sol) :
    qp (qpOf dim neg cn cs 0) = some sol ∨
    qp (qpOf dim neg cn cs 0) = none ∧ qp (qpOf dim neg cn cs (1 / 10 ^ 8)) = some sol := by
  unfold solveQP at h
  split_ifs at h
  cases h0 : qp (qpOf dim neg cn cs 0) with
  | some s => rw [h0] at h; simp only [Except.ok.injEq] at h; exact .inl (h ▸ rfl)
  | none =>
    rw [h0] at h
    simp only at h
    cases h1 : qp (qpOf dim neg cn cs (1 / 10 ^ 8)) with
    | none => rw [h1] at h; cases h
    | some s => rw [h1] at h; simp only [Except.ok.injEq] at h; exact .inr ⟨rfl, h ▸ rfl⟩

/-- both attempts at once. -/
theorem solveQP_eps {qp : QP.Solver} {dim : ℕ} {neg : Option (List ℕ)} {cn : ℚ} {cs : List Con}
    {sol : QP.Solution} (h : solveQP qp dim neg cn cs = .ok sol) :
    ∃ eps : ℚ, 0 ≤ eps ∧ eps ≤ 1 / 10 ^ 8 ∧ qp (qpOf dim neg cn cs eps) = some sol ∧
      (qp (qpOf dim neg cn cs 0) ≠ none → eps = 0) := by
  rcases solveQP_ok h with h | ⟨h0, h⟩
  · exact ⟨0, le_rfl, by norm_num, h, fun _ => rfl⟩
  · exact ⟨1 / 10 ^ 8, by norm_num, le_rfl, h, fun h => absurd h0 h⟩

theorem iteration_inv {m : SModel X Y} {outputs : X → Set Y} {R : X → Y → Y → Prop} {qp : QP.Solver}
    (hqp : QP.Sound qp) {eq : Y → Y → Except PyErr Bool}
    {alt : Option ((X → Y → W → Bool → Y) × (X → W → Y))} {cfg : Config} {samples : List (X × Y)}
    (hC : 0 < cfg.C) (hne : samples ≠ [])
    (hR : ∀ s ∈ samples, ∀ ŷ, R s.1 s.2 ŷ → ŷ ∈ outputs s.1)
    (halt : ∀ p, alt = some p → ∀ s ∈ samples, ∀ w, R s.1 s.2 (p.1 s.1 s.2 w true))
    (hcr : cfg.inferenceCache = 0 ∨ m.rescaleC = false)
    {it : ℕ} {intr : Option Phase} {st st' : St X Y} {b : Bool}
    {old : List ℚ} (hI : Inv m outputs R cfg.C alt samples old st)
    (h : iteration qp eq alt cfg samples (jointFeatureGt m samples) it intr st = .ok (st', b)) :
    Inv m outputs R cfg.C alt samples old st' := by
  rcases iteration_ok h with ⟨rfl, -, -⟩ | ⟨la, inf, ha, hs, -, -, rfl⟩ | ⟨-, f, cd, cache, hfind, hadd⟩
  · exact hI
  · obtain ⟨la0, inf0, hm, h1, h2, h3⟩ := hI.model
    refine ⟨⟨la, inf, by simp [hm], halt _ ha, fun h => by simp [ha] at h, ?_⟩, hI.constraints, hI.cache,
      hI.objective, hI.curve⟩
    intro p hp _
    rw [ha, Option.some.injEq] at hp
    rw [← hp]
  · obtain ⟨la, inf, hm, h1, h2, h3⟩ := hI.model
    have hdim : st.model.dim = m.dim := by rw [hm]
    have hmean : (problemOf m outputs).IsMean R samples f.dj f.loss := by
      rcases hfind with ⟨hf, -, -⟩ | ⟨hf, -, -⟩
      · exact fromCache_mean hm hI.cache hf
      · exact (findNew_mean hm h1 hf).1
    have hcache : ∀ c, cache = some c → m.rescaleC = false ∧ Linked m R samples c := by
      rcases hfind with ⟨-, -, rfl⟩ | ⟨hf, -, hu⟩
      · exact hI.cache
      · have hy := (findNew_mean (outputs := outputs) hm h1 hf).2
        have hfa : List.Forall₂ (fun s yh => R s.1 s.2 yh) samples f.yhat := by
          rw [hy, List.forall₂_map_right_iff, List.forall₂_same]
          exact fun s hs => h1 s hs _
        obtain ⟨-, u2, u3⟩ := updateCache_ok hu
        have u3' := u3 R (fun c hc => by
          have := (hI.cache c hc).2
          unfold Linked at this ⊢
          rw [hm]
          exact this) hfa
        intro c hc
        refine ⟨?_, ?_⟩
        · rcases hcr with h0 | h0
          · rw [u2 h0] at hc; exact (hI.cache c hc).1
          · exact h0
        · have := u3' c hc
          unfold Linked at this ⊢
          rw [hm] at this
          exact this
    obtain ⟨a1, a2, a3, -, -, a4⟩ := addConstraint_ok hadd
    simp only at a1 a2 a3 a4
    have hcs : ∀ c ∈ st.constraints ++ [(f.dj, f.loss)], (problemOf m outputs).IsMean R samples c.1 c.2 := by
      intro c hc
      rcases List.mem_append.mp hc with hc | hc
      · exact hI.constraints c hc
      · rw [List.mem_singleton] at hc
        subst hc
        exact hmean
    have hmodel : ∃ la inf, st'.model = { m with lossAug := la, inference := inf } ∧
        (∀ s ∈ samples, ∀ w, R s.1 s.2 (la s.1 s.2 w true)) ∧ (alt = none → la = m.lossAug) ∧
        (∀ p, alt = some p → st'.switched = true → la = p.1) :=
      ⟨la, inf, a1.trans hm, h1, h2, by rw [a2]; exact h3⟩
    rcases a4 with ⟨-, -, -, b1, -, b2, b3, -⟩ | ⟨-, sol, c1, c2, -, c4, c5⟩
    · exact ⟨hmodel, b1 ▸ hcs, a3 ▸ hcache, b3 ▸ hI.objective, b2 ▸ hI.curve⟩
    · obtain ⟨eps, e0, -, e1, -⟩ := solveQP_eps c1
      rw [hdim] at e1
      obtain ⟨hfe, hval⟩ := hqp _ _ e1
      have hlen := ((feasible_qpOf _ _ _ _ _ _).mp hfe).1
      obtain ⟨-, -, psub, -, -⟩ := prune_facts cfg _ _ _ hlen c2
      have hlb : (problemOf m outputs).LowerBound cfg.C samples (-sol.primalObjective) := by
        rw [hval]
        exact qp_lower_bound (problemOf m outputs) cfg.C hC R samples hR hne cfg.negativity _ hcs eps e0 _ hfe
      refine ⟨hmodel, fun c hc => hcs c (psub.mem hc), a3 ▸ hcache, ?_, ?_⟩
      · intro v hv
        rw [c4, Option.some.injEq] at hv
        exact hv ▸ hlb
      · rcases c5 with ⟨-, -, d1, -⟩ | ⟨-, -, d1, -⟩
        · rw [d1]; exact hI.curve
        · rw [d1]
          obtain ⟨new, n1, n2⟩ := hI.curve
          refine ⟨new ++ [-sol.primalObjective], by rw [n1, List.append_assoc], ?_⟩
          intro v hv
          rcases List.mem_append.mp hv with hv | hv
          · exact n2 v hv
          · rw [List.mem_singleton] at hv
            exact hv ▸ hlb

theorem mean_true (m : SModel X Y) (outputs : X → Set Y) (R : X → Y → Y → Prop) (samples : List (X × Y))
    (hgt : ∀ s ∈ samples, R s.1 s.2 s.2 ∧ m.lossOf s.2 s.2 = 0) :
    (problemOf m outputs).IsMean R samples (fun _ => 0) 0 := by
  have e : samples.zip (samples.map Prod.snd) = samples.map fun s => (s, s.2) := by
    exact zip_map_self _ _
  refine ⟨samples.map Prod.snd, ?_, ?_, ?_⟩
  · rw [List.forall₂_map_right_iff, List.forall₂_same]
    exact fun s hs => (hgt s hs).1
  · intro k _
    rw [e, List.map_map, List.sum_eq_zero]
    · simp
    · intro v hv
      obtain ⟨s, -, rfl⟩ := List.mem_map.mp hv
      simp
  · rw [e, List.map_map, List.sum_eq_zero]
    · simp
    · intro v hv
      obtain ⟨s, hs, rfl⟩ := List.mem_map.mp hv
      exact (hgt s hs).2

theorem start_inv {m : SModel X Y} {outputs : X → Set Y} {R : X → Y → Y → Prop}
    {alt : Option ((X → Y → W → Bool → Y) × (X → W → Y))} {samples : List (X × Y)} {o : Obj Y}
    (hgt : ∀ s ∈ samples, R s.1 s.2 s.2 ∧ m.lossOf s.2 s.2 = 0)
    (hla : ∀ s ∈ samples, ∀ w, R s.1 s.2 (m.lossAug s.1 s.2 w true)) {warm : Warm}
    (hw : warm = .no ∨ ∀ a, o.attrs = some a → Reusable m outputs R samples warm a)
    {st : St X Y} (h : start m o warm = .ok st) :
    Inv m outputs R o.cfg.C alt samples (oldCurve o warm) st ∧ st.switched = false ∧ st.objective = none := by
  have h0 : ∀ c ∈ ([((fun _ => 0), 0)] : List Con), (problemOf m outputs).IsMean R samples c.1 c.2 := by
    intro c hc
    rw [List.mem_singleton] at hc
    subst hc
    exact mean_true m outputs R samples hgt
  have hmod : ∀ sw : Bool, sw = false → ∃ la inf, m = { m with lossAug := la, inference := inf } ∧
      (∀ s ∈ samples, ∀ w, R s.1 s.2 (la s.1 s.2 w true)) ∧ (alt = none → la = m.lossAug) ∧
      (∀ p, alt = some p → sw = true → la = p.1) :=
    fun sw hsw => ⟨m.lossAug, m.inference, rfl, hla, fun _ => rfl, fun p _ h => by rw [hsw] at h; cases h⟩
  unfold start at h
  simp only at h
  split at h
  · rw [Except.ok.injEq] at h
    subst h
    exact ⟨⟨hmod _ rfl, h0, by simp, by simp, ⟨[], rfl, by simp⟩⟩, rfl, rfl⟩
  · rename_i a ha
    rw [Except.ok.injEq] at h
    subst h
    rcases hw with hw | hw
    · cases hw
    · have hs := hw a ha
      exact ⟨⟨hmod _ rfl, h0, hs.cache, by simp, ⟨[], by simp [oldCurve, ha], by simp⟩⟩, rfl, rfl⟩
  · rename_i w cs alphas oc pc fl cache ha
    rw [Except.ok.injEq] at h
    subst h
    rcases hw with hw | hw
    · cases hw
    · have hs := hw _ ha
      exact ⟨⟨hmod _ rfl, hs.constraints rfl cs rfl, hs.cache, by simp, ⟨[], by simp [oldCurve, ha], by simp⟩⟩, rfl, rfl⟩
  · cases h

/-- **C39, appended values.** Let a `fit` succeed whose warm start, if any, takes over a cache - and, unless it is soft,
constraints - that are sound for the data. Every value that is appended to `objective_curve_` is at most the regularised
structured risk of every weight vector, whatever data the values before belong to. -/
theorem C39_appended (m : SModel X Y) (outputs : X → Set Y) (R : X → Y → Y → Prop) (qp : QP.Solver)
    (hqp : QP.Sound qp) (eq : Y → Y → Except PyErr Bool)
    (alt : Option ((X → Y → W → Bool → Y) × (X → W → Y))) (intr : ℕ → Option Phase) (o o' : Obj Y)
    (samples : List (X × Y)) (hC : 0 < o.cfg.C) (hne : samples ≠ [])
    (hR : ∀ s ∈ samples, ∀ ŷ, R s.1 s.2 ŷ → ŷ ∈ outputs s.1)
    (hgt : ∀ s ∈ samples, R s.1 s.2 s.2 ∧ m.lossOf s.2 s.2 = 0)
    (hla : ∀ s ∈ samples, ∀ w, R s.1 s.2 (m.lossAug s.1 s.2 w true))
    (halt : ∀ p, alt = some p → ∀ s ∈ samples, ∀ w, R s.1 s.2 (p.1 s.1 s.2 w true))
    (hcr : o.cfg.inferenceCache = 0 ∨ m.rescaleC = false) (warm : Warm)
    (hw : warm = .no ∨ ∀ a, o.attrs = some a → Reusable m outputs R samples warm a)
    (hi : (∀ it, intr it ≠ some .after) ∨ ∀ a, o.attrs = some a → ∀ cs, a.constraints = some cs →
      ∀ c ∈ cs, (problemOf m outputs).IsMean R samples c.1 c.2)
    (h : OneSlack.fit m qp eq alt intr o samples warm = .ok o') :
    ∃ a new, o'.attrs = some a ∧ a.objectiveCurve = oldCurve o warm ++ new ∧ new ≠ [] ∧
      (∀ v ∈ new, (problemOf m outputs).LowerBound o.cfg.C samples v) ∧
      (∀ cs, a.constraints = some cs → ∀ c ∈ cs, (problemOf m outputs).IsMean R samples c.1 c.2) ∧
      ∀ cache, a.cache = some cache → m.rescaleC = false ∧ Linked m R samples cache := by
  unfold OneSlack.fit at h
  cases hs : start m o warm with
  | error err => rw [hs] at h; cases h
  | ok st =>
    rw [hs] at h
    simp only at h
    obtain ⟨hI, -, hon⟩ := start_inv (alt := alt) hgt hla hw hs
    cases hl : loop qp eq alt o.cfg samples (jointFeatureGt m samples) intr o.cfg.maxIter 0 st with
    | error err => rw [hl] at h; cases h
    | ok st' =>
      rw [hl] at h
      simp only at h
      have hI' : Inv m outputs R o.cfg.C alt samples (oldCurve o warm) st' :=
        loop_induct _ (fun it s s' b hi hit => iteration_inv hqp hC hne hR halt hcr hi hit) _ _ _ _ hI hl
      have hshare : (∀ it, intr it ≠ some .after) → st'.objective ≠ none → st'.shared = true := by
        intro hint
        refine loop_induct (I := fun s => s.objective ≠ none → s.shared = true) ?_ _ _ _ _
          (fun h => absurd hon h) hl
        intro it s s' b hi hit
        rcases iteration_ok hit with ⟨rfl, -, -⟩ | ⟨la, inf, ha, hs, -, -, rfl⟩ | ⟨-, f, cd, cache, hfind, hadd⟩
        · exact hi
        · exact hi
        · obtain ⟨-, -, -, -, -, a4⟩ := addConstraint_ok hadd
          rcases a4 with ⟨-, -, -, -, -, -, b3, b4, -⟩ | ⟨-, sol, -, -, -, -, c5⟩
          · rw [b3, b4]; exact hi
          · rcases c5 with ⟨d0, -⟩ | ⟨-, -, -, d2, -⟩
            · exact absurd d0 (hint it)
            · exact fun _ => d2
      cases hp : objectivePrimal st'.model st'.w samples o.cfg.C false with
      | error err => rw [hp] at h; cases h
      | ok primal =>
        rw [hp] at h
        simp only at h
        cases hob : st'.objective with
        | none => rw [hob] at h; cases h
        | some obj =>
          rw [hob] at h
          simp only [Except.ok.injEq] at h
          subst h
          obtain ⟨new, n1, n2⟩ := hI'.curve
          refine ⟨_, new ++ [obj], rfl, by rw [n1, List.append_assoc], by simp, ?_, ?_, hI'.cache⟩
          · intro v hv
            rcases List.mem_append.mp hv with hv | hv
            · exact n2 v hv
            · rw [List.mem_singleton] at hv
              exact hv ▸ hI'.objective obj hob
          · intro cs hcs
            simp only at hcs
            split_ifs at hcs with hsh
            · rw [Option.some.injEq] at hcs
              exact hcs ▸ hI'.constraints
            · rcases hi with hint | hi
              · exact absurd (hshare hint (by rw [hob]; simp)) hsh
              · cases ha : o.attrs with
                | none => rw [ha] at hcs; simp at hcs
                | some a =>
                  rw [ha] at hcs
                  exact hi a ha cs hcs

/-- **C39, lower bounds.** Let a `fit` succeed — fresh, repeated, warm started from sound attributes, with
caching, switching of the inference method, pruning and interruptions. If loss-augmented inference returns
admissible outputs (not necessarily optimal ones) and the QP solver feasible points (not necessarily
optimal ones), every value in `objective_curve_` is at most the regularised structured risk of every
weight vector, and the attributes are sound for a following warm start. -/
theorem C39_fit (m : SModel X Y) (outputs : X → Set Y) (R : X → Y → Y → Prop) (qp : QP.Solver)
    (hqp : QP.Sound qp) (eq : Y → Y → Except PyErr Bool)
    (alt : Option ((X → Y → W → Bool → Y) × (X → W → Y))) (intr : ℕ → Option Phase) (o o' : Obj Y)
    (samples : List (X × Y)) (hC : 0 < o.cfg.C) (hne : samples ≠ [])
    (hR : ∀ s ∈ samples, ∀ ŷ, R s.1 s.2 ŷ → ŷ ∈ outputs s.1)
    (hgt : ∀ s ∈ samples, R s.1 s.2 s.2 ∧ m.lossOf s.2 s.2 = 0)
    (hla : ∀ s ∈ samples, ∀ w, R s.1 s.2 (m.lossAug s.1 s.2 w true))
    (halt : ∀ p, alt = some p → ∀ s ∈ samples, ∀ w, R s.1 s.2 (p.1 s.1 s.2 w true))
    (hcr : o.cfg.inferenceCache = 0 ∨ m.rescaleC = false) (warm : Warm)
    (hw : warm = .no ∧ (∀ it, intr it ≠ some .after) ∨
      ∀ a, o.attrs = some a → Sound m outputs R o.cfg.C samples a)
    (h : OneSlack.fit m qp eq alt intr o samples warm = .ok o') :
    ∃ a, o'.attrs = some a ∧ Sound m outputs R o.cfg.C samples a := by
  obtain ⟨a, new, h1, h2, -, h3, h4, h5⟩ := C39_appended m outputs R qp hqp eq alt intr o o' samples hC hne hR hgt hla halt hcr
    warm (hw.imp (·.1) fun hw a ha => ⟨fun _ => (hw a ha).constraints, (hw a ha).cache⟩)
    (hw.imp (·.2) fun hw a ha => (hw a ha).constraints) h
  refine ⟨a, h1, h4, h5, fun v hv => ?_⟩
  rw [h2] at hv
  rcases List.mem_append.mp hv with hv | hv
  · rcases hw with ⟨rfl, -⟩ | hw
    · cases hv
    · cases ha : o.attrs with
      | none => cases warm <;> simp [oldCurve, ha] at hv
      | some b =>
        refine (hw b ha).curve v ?_
        cases warm
        · cases hv
        all_goals simpa [oldCurve, ha] using hv
  · exact h3 v hv

end Verif.Props
