import Verif.Lemmas.UnitsDual

/-!
# One-slack cutting-plane training in other units
-/

namespace Verif.Props

open Finset Verif.Spec Verif.Lemmas Verif.Learner Verif.OneSlack

variable {X X' Y : Type} {ρ : Equiv.Perm ℕ} {a b : ℚ} {f : X → X'} {m : SModel X Y} {m' : SModel X' Y}

/-- entries of the cache in the two units. -/
def CachedUnits (ρ : Equiv.Perm ℕ) (a b : ℚ) (d : ℕ) (e e' : Cached Y) : Prop :=
  Multiple ρ b d e.1 e'.1 ∧ e'.2.1 = a * e.2.1 ∧ e'.2.2 = e.2.2

/-- caches in the two units. -/
def CacheUnits (ρ : Equiv.Perm ℕ) (a b : ℚ) (d : ℕ) : Option (List (List (Cached Y))) → Option (List (List (Cached Y))) → Prop
  | none, none => True
  | some c, some c' => List.Forall₂ (List.Forall₂ (CachedUnits ρ a b d)) c c'
  | _, _ => False

theorem argmaxN_units (ha : 0 < a) {g g' : ℕ → ℚ} (h : ∀ i, g' i = a * g i) (n : ℕ) : argmaxN g' n = argmaxN g n := by
  induction n with
  | zero => rfl
  | succ n ih =>
    unfold argmaxN
    rw [ih, h, h]
    simp only [mul_lt_mul_iff_right₀ ha]

theorem forall₂_getElem? {α β : Type} {R : α → β → Prop} {l : List α} {l' : List β} (h : List.Forall₂ R l l') (i : ℕ) :
    (l[i]? = none ∧ l'[i]? = none) ∨ ∃ x y, l[i]? = some x ∧ l'[i]? = some y ∧ R x y := by
  induction h generalizing i with
  | nil => exact .inl ⟨by simp, by simp⟩
  | @cons x y l l' hxy _ ih =>
    cases i with
    | zero => exact .inr ⟨x, y, by simp, by simp, hxy⟩
    | succ i => simpa using ih i

theorem strongestCached_units (ha : 0 < a) (hb : 0 < b) {d : ℕ} (hρ : Reorders ρ d) {w w' : W} (hw : Multiple ρ (a / b) d w w')
    {c c' : List (Cached Y)} (h : List.Forall₂ (CachedUnits ρ a b d) c c') :
    BothRun (CachedUnits ρ a b d) (strongestCached d w c) (strongestCached d w' c') := by
  unfold strongestCached
  have hidx : argmaxN (fun i => (c'[i]?.map fun e => dot d e.1 w' + e.2.1).getD 0) c'.length =
      argmaxN (fun i => (c[i]?.map fun e => dot d e.1 w + e.2.1).getD 0) c.length := by
    rw [← h.length_eq]
    refine argmaxN_units ha (fun i => ?_) _
    rcases forall₂_getElem? h i with ⟨h1, h2⟩ | ⟨x, y, h1, h2, hxy⟩
    · simp only [h1, h2]; simp
    · simp only [h1, h2, Option.map_some, Option.getD_some]
      rw [dot_units hρ hxy.1 hw, hxy.2.1, mul_div_cancel₀ _ hb.ne']
      ring
  rw [hidx]
  rcases forall₂_getElem? h (argmaxN (fun i => (c[i]?.map fun e => dot d e.1 w + e.2.1).getD 0) c.length) with
    ⟨h1, h2⟩ | ⟨x, y, h1, h2, hxy⟩
  · rw [h1, h2]; exact .error _
  · rw [h1, h2]; exact .ok hxy

theorem strongestAll_units (ha : 0 < a) (hb : 0 < b) {d : ℕ} (hρ : Reorders ρ d) {w w' : W} (hw : Multiple ρ (a / b) d w w')
    {c c' : List (List (Cached Y))} (h : List.Forall₂ (List.Forall₂ (CachedUnits ρ a b d)) c c') :
    BothRun (List.Forall₂ (CachedUnits ρ a b d)) (strongestAll d w c) (strongestAll d w' c') := by
  induction h with
  | nil => exact .ok List.Forall₂.nil
  | @cons x y l l' hxy _ ih =>
    unfold strongestAll
    have h1 := strongestCached_units ha hb hρ hw hxy
    generalize strongestCached d w x = r at h1 ⊢
    generalize strongestCached d w' y = r' at h1 ⊢
    cases h1 with
    | error e => exact .error e
    | ok hr =>
      simp only
      generalize strongestAll d w l = s at ih ⊢
      generalize strongestAll d w' l' = s' at ih ⊢
      cases ih with
      | error e => exact .error e
      | ok hs => exact .ok (List.Forall₂.cons hr hs)

theorem alreadyThere_units {d : ℕ} (eq : Y → Y → Except PyErr Bool) (z : Y) {c c' : List (Cached Y)}
    (h : List.Forall₂ (CachedUnits ρ a b d) c c') : alreadyThere eq z c' = alreadyThere eq z c := by
  induction h with
  | nil => rfl
  | cons hxy _ ih => unfold alreadyThere; rw [hxy.2.2, ih]

theorem cacheSample_units (h : OtherUnits ρ a b f m m') (eq : Y → Y → Except PyErr Bool) (size : ℕ) {c c' : List (Cached Y)}
    (hc : List.Forall₂ (CachedUnits ρ a b m.dim) c c') (x : X) (y z : Y) :
    BothRun (List.Forall₂ (CachedUnits ρ a b m.dim)) (cacheSample m eq size c x y z) (cacheSample m' eq size c' (f x) y z) := by
  unfold cacheSample
  rw [alreadyThere_units eq z hc]
  cases alreadyThere eq z c with
  | error e => exact .error e
  | ok v =>
    cases v with
    | true => exact .ok hc
    | false =>
      simp only [← hc.length_eq]
      refine .ok (List.rel_append ?_ (List.Forall₂.cons ⟨h.feature x z, lossOf_units h y z, rfl⟩ List.Forall₂.nil))
      by_cases hs : size < c.length
      · rw [if_pos hs, if_pos hs]; exact List.forall₂_drop 1 hc
      · rw [if_neg hs, if_neg hs]; exact hc

theorem cacheSamples_units (h : OtherUnits ρ a b f m m') (eq : Y → Y → Except PyErr Bool) (size : ℕ) :
    ∀ {c c' : List (List (Cached Y))}, List.Forall₂ (List.Forall₂ (CachedUnits ρ a b m.dim)) c c' →
    ∀ (samples : List (X × Y)) (zs : List Y),
      BothRun (List.Forall₂ (List.Forall₂ (CachedUnits ρ a b m.dim))) (cacheSamples m eq size c samples zs)
        (cacheSamples m' eq size c' (inUnits f samples) zs) := by
  intro c c' hc
  induction hc with
  | nil => intro samples zs; unfold cacheSamples; exact .ok List.Forall₂.nil
  | @cons x y l l' hxy hl ih =>
    intro samples zs
    cases samples with
    | nil => exact .ok (List.Forall₂.cons hxy hl)
    | cons s samples =>
      cases zs with
      | nil => exact .ok (List.Forall₂.cons hxy hl)
      | cons z zs =>
        have e : inUnits f (s :: samples) = (f s.1, s.2) :: inUnits f samples := rfl
        rw [e]
        unfold cacheSamples
        simp only
        have h1 := cacheSample_units h eq size hxy s.1 s.2 z
        generalize cacheSample m eq size x s.1 s.2 z = r at h1 ⊢
        generalize cacheSample m' eq size y (f s.1) s.2 z = r' at h1 ⊢
        cases h1 with
        | error e => exact .error e
        | ok hr =>
          simp only
          have h2 := ih samples zs
          generalize cacheSamples m eq size l samples zs = q at h2 ⊢
          generalize cacheSamples m' eq size l' (inUnits f samples) zs = q' at h2 ⊢
          cases h2 with
          | error e => exact .error e
          | ok hq => exact .ok (List.Forall₂.cons hr hq)

/-- the parameters of OneSlackSSVM in other units. -/
def oneConfigUnits (ρ : Equiv.Perm ℕ) (a b : ℚ) (cfg : Config) : Config := 
  { cfg with C := cfg.C * a / b ^ 2, tol := a * cfg.tol, negativity := reorderNeg ρ cfg.negativity }

theorem updateCache_units (h : OtherUnits ρ a b f m m') (eq : Y → Y → Except PyErr Bool) (cfg : Config)
    {c c' : Option (List (List (Cached Y)))} (hc : CacheUnits ρ a b m.dim c c') (samples : List (X × Y)) (zs : List Y) :
    BothRun (CacheUnits ρ a b m.dim) (updateCache m eq cfg c samples zs)
      (updateCache m' eq (oneConfigUnits ρ a b cfg) c' (inUnits f samples) zs) := by
  unfold updateCache
  rw [show (oneConfigUnits ρ a b cfg).inferenceCache = cfg.inferenceCache from rfl]
  by_cases hz : cfg.inferenceCache = 0
  · rw [if_pos hz, if_pos hz]; exact .ok hc
  · rw [if_neg hz, if_neg hz]
    have h0 : List.Forall₂ (List.Forall₂ (CachedUnits ρ a b m.dim)) (c.getD (zs.map fun _ => []))
        (c'.getD (zs.map fun _ => [])) := by
      cases c with
      | none =>
        cases c' with
        | none =>
          simp only [Option.getD_none]
          clear hc
          induction zs with
          | nil => exact List.Forall₂.nil
          | cons z zs ih => exact List.Forall₂.cons List.Forall₂.nil ih
        | some c' => exact absurd hc (by simp [CacheUnits])
      | some c =>
        cases c' with
        | none => exact absurd hc (by simp [CacheUnits])
        | some c' => exact hc
    have h1 := cacheSamples_units h eq cfg.inferenceCache h0 samples zs
    generalize cacheSamples m eq cfg.inferenceCache (c.getD (zs.map fun _ => [])) samples zs = r at h1 ⊢
    generalize cacheSamples m' eq cfg.inferenceCache (c'.getD (zs.map fun _ => [])) (inUnits f samples) zs = r' at h1 ⊢
    cases h1 with
    | error e => exact .error e
    | ok hr => exact .ok hr

/-- states in the two units. -/
structure OneUnits (ρ : Equiv.Perm ℕ) (a b : ℚ) (m : SModel X Y) (m' : SModel X' Y) (st : St X Y) (st' : St X' Y) : Prop where
  model : st.model = m
  model' : st'.model = m'
  w : Multiple ρ (a / b) m.dim st.w st'.w
  constraints : List.Forall₂ (ConUnits ρ a b m.dim) st.constraints st'.constraints
  shared : st'.shared = st.shared
  alphas : st'.alphas.length = st.alphas.length
  objectiveCurve : st'.objectiveCurve = st.objectiveCurve.map fun v => (a / b) ^ 2 * v
  primalCurve : st'.primalCurve = st.primalCurve.map fun v => (a / b) ^ 2 * v
  cachedFlags : st'.cachedFlags = st.cachedFlags
  lossCurve : st'.lossCurve = st.lossCurve
  cache : CacheUnits ρ a b m.dim st.cache st'.cache
  objective : st'.objective = st.objective.map fun v => (a / b) ^ 2 * v

/-- what the next iteration needs in addition: last slack and, with `cache_tol='auto'`, the tolerance of the cache are in the two units, or
training just started. -/
def OneReadyFor (kind : CacheTol) (a b : ℚ) (d : ℕ) (st : St X Y) (st' : St X' Y) : Prop :=
  ((kind = .auto → st'.cacheTol = (a / b) ^ 2 * st.cacheTol) ∧ st'.lastSlack = a * st.lastSlack) ∨
  (st.cache = none ∧ st'.cache = none ∧ st.lastSlack = -1 ∧ st'.lastSlack = -1 ∧ ∀ k < d, st.w k = 0)

theorem checkBad_units (ha : 0 < a) (hb : 0 < b) {d : ℕ} (hρ : Reorders ρ d) (cfg : Config) (hcc : cfg.checkConstraints = false) {w w' : W}
    {ls ls' v v' : ℚ} {dj dj' : W} {loss loss' : ℚ} {old old' : List Con} (brk : Bool)
    (hv : v' = a * v) (hdj : Multiple ρ b d dj dj') (hloss : loss' = a * loss) (hold : List.Forall₂ (ConUnits ρ a b d) old old')
    (hslack : ls' = a * ls ∨ (ls = -1 ∧ ls' = -1 ∧ 0 ≤ v ∧ cfg.tol ≤ 1 ∧ a * cfg.tol ≤ 1)) :
    checkBad (oneConfigUnits ρ a b cfg) d w' ls' v' dj' loss' old' brk = checkBad cfg d w ls v dj loss old brk := by
  unfold checkBad
  simp only [oneConfigUnits, hcc, Bool.false_eq_true, if_false]
  have h1 : (v' - ls' < 0 ∧ 0 < v' ∧ brk = true) ↔ (v - ls < 0 ∧ 0 < v ∧ brk = true) := by
    rcases hslack with hs | ⟨hs, hs', h0, -, -⟩
    · rw [hv, hs, ← mul_sub, mul_pos_iff_of_pos_left ha]
      have : a * (v - ls) < 0 ↔ v - ls < 0 := by
        constructor
        · intro h; by_contra hc; exact absurd h (not_lt.mpr (mul_nonneg ha.le (not_lt.mp hc)))
        · intro h; exact mul_neg_of_pos_of_neg ha h
      rw [this]
    · rw [hs, hs', hv]
      have : 0 ≤ a * v := mul_nonneg ha.le h0
      constructor
      · rintro ⟨h, -, -⟩; linarith
      · rintro ⟨h, -, -⟩; linarith
  have h2 : v' - ls' < a * cfg.tol ↔ v - ls < cfg.tol := by
    rcases hslack with hs | ⟨hs, hs', h0, ht, ht'⟩
    · rw [hv, hs, ← mul_sub, mul_lt_mul_iff_right₀ ha]
    · rw [hs, hs', hv]
      have : 0 ≤ a * v := mul_nonneg ha.le h0
      constructor
      · intro h; linarith
      · intro h; linarith
  have h3 : old'.any (fun c => decide (∀ k < d, c.1 k = dj' k) && decide (loss' = c.2)) =
      old.any (fun c => decide (∀ k < d, c.1 k = dj k) && decide (loss = c.2)) := by
    induction hold with
    | nil => rfl
    | @cons c c' l l' hc _ ih =>
      rw [List.any_cons, List.any_cons, ih]
      congr 1
      have e1 : (∀ k < d, c'.1 k = dj' k) ↔ ∀ k < d, c.1 k = dj k := by
        constructor
        · intro he k hk
          have hk' := (reorders_symm hρ k).mpr hk
          have := he _ hk'
          rwa [hc.1 _ hk', hdj _ hk', mul_right_inj' hb.ne', Equiv.apply_symm_apply] at this
        · intro he k hk
          rw [hc.1 k hk, hdj k hk, he _ ((hρ k).mpr hk)]
      have e2 : loss' = c'.2 ↔ loss = c.2 := by rw [hloss, hc.2, mul_right_inj' ha.ne']
      simp only [e1, e2]
  simp only [h1, h2, h3]

theorem forall₂_sum_units {α β : Type} {R : α → β → Prop} {l : List α} {l' : List β} (h : List.Forall₂ R l l') {c : ℚ}
    {g : α → ℚ} {g' : β → ℚ} (e : ∀ x y, R x y → g' y = c * g x) : (l'.map g').sum = c * (l.map g).sum := by
  induction h with
  | nil => simp
  | cons hxy _ ih => rw [List.map_cons, List.map_cons, List.sum_cons, List.sum_cons, ih, e _ _ hxy]; ring

/-- found constraints in the two units. -/
def FoundUnits (ρ : Equiv.Perm ℕ) (a b : ℚ) (d : ℕ) : Option (Found Y) → Option (Found Y) → Prop
  | none, none => True
  | some p, some p' => p'.yhat = p.yhat ∧ Multiple ρ b d p.dj p'.dj ∧ p'.loss = a * p.loss
  | _, _ => False

theorem getLast?_units {c : ℚ} (l : List ℚ) : (l.map fun v => c * v).getLast? = l.getLast?.map fun v => c * v := by
  rw [List.getLast?_map]

theorem fromCache_units (ha : 0 < a) (hb : 0 < b) (h : OtherUnits ρ a b f m m') (cfg : Config)
    (hcc : cfg.checkConstraints = false) {gt gt' : W} (hgt : Multiple ρ b m.dim gt gt') (n : ℕ) {st : St X Y} {st' : St X' Y}
    (hs : OneUnits ρ a b m m' st st') (hr : OneReadyFor cfg.cacheTol a b m.dim st st') :
    BothRun (fun p p' => FoundUnits ρ a b m.dim p p' ∧ (p.isSome → st.cache ≠ none))
      (fromCache cfg st gt n) (fromCache (oneConfigUnits ρ a b cfg) st' gt' n) := by
  have hc := hs.cache
  unfold fromCache
  rcases hr with ⟨hct, hls⟩ | ⟨h1, h2, -⟩
  swap
  · rw [h1, h2]; exact .ok ⟨trivial, by simp⟩
  cases e1 : st.cache with
  | none =>
    cases e2 : st'.cache with
    | none => exact .ok ⟨trivial, by simp⟩
    | some c' => rw [e1, e2] at hc; exact absurd hc (by simp [CacheUnits])
  | some c =>
    cases e2 : st'.cache with
    | none => rw [e1, e2] at hc; exact absurd hc (by simp [CacheUnits])
    | some c' =>
      rw [e1, e2] at hc
      replace hc : List.Forall₂ (List.Forall₂ (CachedUnits ρ a b m.dim)) c c' := hc
      cases hc with
      | nil => exact .ok ⟨trivial, by simp⟩
      | @cons x y l l' hxy hl =>
        simp only [hs.primalCurve, hs.objectiveCurve, getLast?_units]
        cases st.primalCurve.getLast? with
        | none => exact .error _
        | some p =>
          cases st.objectiveCurve.getLast? with
          | none => exact .error _
          | some o =>
            simp only [Option.map_some]
            have hg : gapSmall (oneConfigUnits ρ a b cfg).cacheTol st'.cacheTol ((a / b) ^ 2 * p - (a / b) ^ 2 * o) =
                gapSmall cfg.cacheTol st.cacheTol (p - o) := by
              rw [show (oneConfigUnits ρ a b cfg).cacheTol = cfg.cacheTol from rfl]
              cases hk : cfg.cacheTol with
              | auto =>
                unfold gapSmall
                simp only
                rw [hct hk, ← mul_sub]
                have : 0 < (a / b) ^ 2 := by positivity
                simp only [mul_lt_mul_iff_right₀ this]
              | default => rfl
              | value t => rfl
            rw [hg]
            by_cases hgs : gapSmall cfg.cacheTol st.cacheTol (p - o) = true
            · rw [if_pos hgs, if_pos hgs]; exact .ok ⟨trivial, by simp⟩
            · rw [if_neg hgs, if_neg hgs, hs.model, hs.model', h.dim]
              have hall := strongestAll_units ha hb h.order hs.w (List.Forall₂.cons hxy hl)
              generalize strongestAll m.dim st.w (x :: l) = r at hall ⊢
              generalize strongestAll m.dim st'.w (y :: l') = r' at hall ⊢
              cases hall with
              | error e => exact .error e
              | @ok es es' hes =>
                simp only
                have hdj : Multiple ρ b m.dim (fun k => (gt k - (es.map fun e => e.1 k).sum) / (n : ℚ))
                    (fun k => (gt' k - (es'.map fun e => e.1 k).sum) / (n : ℚ)) := by
                  intro k hk
                  simp only
                  rw [hgt k hk, forall₂_sum_units (c := b) (g := fun e : Cached Y => e.1 (ρ k)) hes fun x y hxy => hxy.1 k hk]
                  ring
                have hloss : (es'.map fun e => e.2.1).sum / (n : ℚ) = a * ((es.map fun e => e.2.1).sum / (n : ℚ)) := by
                  rw [forall₂_sum_units (c := a) (g := fun e : Cached Y => e.2.1) hes fun x y hxy => hxy.2.1]
                  ring
                have hys : es'.map (fun e => e.2.2) = es.map fun e => e.2.2 := by
                  clear hdj hloss
                  induction hes with
                  | nil => rfl
                  | cons hxy _ ih => rw [List.map_cons, List.map_cons, ih, hxy.2.2]
                have hviol : (es'.map fun e => e.2.1).sum / (n : ℚ) -
                    dot m.dim st'.w (fun k => (gt' k - (es'.map fun e => e.1 k).sum) / (n : ℚ)) =
                    a * ((es.map fun e => e.2.1).sum / (n : ℚ) -
                      dot m.dim st.w (fun k => (gt k - (es.map fun e => e.1 k).sum) / (n : ℚ))) := by
                  rw [hloss, dot_units h.order hs.w hdj, div_mul_cancel₀ _ hb.ne', mul_sub]
                rw [checkBad_units ha hb h.order cfg hcc false hviol hdj hloss hs.constraints (.inl hls) (w := st.w)]
                generalize checkBad cfg _ _ _ _ _ _ _ _ = q
                cases q with
                | error e => exact .error e
                | ok v =>
                  cases v with
                  | true => exact .ok ⟨trivial, by simp⟩
                  | false => exact .ok ⟨⟨hys, hdj, hloss⟩, by simp⟩

theorem findNew_units (ha : 0 < a) (hb : 0 < b) (h : OtherUnits ρ a b f m m') (cfg : Config)
    (hcc : cfg.checkConstraints = false) (ht : cfg.tol ≤ 1) (ht' : a * cfg.tol ≤ 1) {gt gt' : W}
    (hgt : Multiple ρ b m.dim gt gt') (samples : List (X × Y))
    (h0 : ∀ s ∈ samples, ∀ w, 0 ≤ m.lossOf s.2 (m.lossAug s.1 s.2 w true)) {st : St X Y} {st' : St X' Y}
    (hs : OneUnits ρ a b m m' st st') (hr : OneReadyFor cfg.cacheTol a b m.dim st st') :
    BothRun (FoundUnits ρ a b m.dim) (findNew cfg st gt samples)
      (findNew (oneConfigUnits ρ a b cfg) st' gt' (inUnits f samples)) := by
  have hlen : (inUnits f samples).length = samples.length := by unfold inUnits; simp
  unfold findNew
  simp only [hs.model, hs.model', h.dim, hlen]
  have houts : ∀ k < m.dim, (((inUnits f samples).map fun s => (s, m'.lossAug s.1 s.2 st'.w true)).map
      fun p => m'.feat p.1.1 p.2 p.1.2 k).sum =
      b * ((samples.map fun s => (s, m.lossAug s.1 s.2 st.w true)).map fun p => m.feat p.1.1 p.2 p.1.2 (ρ k)).sum := by
    intro k hk
    unfold inUnits
    simp only [List.map_map]
    refine sum_units samples fun s => ?_
    simp only [Function.comp]
    rw [h.lossAug s.1 s.2 _ _ true hs.w, feat_units h _ _ _ k hk]
  have hloss : (((inUnits f samples).map fun s => (s, m'.lossAug s.1 s.2 st'.w true)).map
      fun p => m'.lossOf p.1.2 p.2).sum / (samples.length : ℚ) =
      a * (((samples.map fun s => (s, m.lossAug s.1 s.2 st.w true)).map fun p => m.lossOf p.1.2 p.2).sum /
        (samples.length : ℚ)) := by
    unfold inUnits
    simp only [List.map_map]
    rw [sum_units (c := a) (g := (fun p : (X × Y) × Y => m.lossOf p.1.2 p.2) ∘ fun s : X × Y =>
      (s, m.lossAug s.1 s.2 st.w true)) samples fun s => ?_]
    · ring
    · simp only [Function.comp]
      rw [h.lossAug s.1 s.2 _ _ true hs.w, lossOf_units h]
  have hdj : Multiple ρ b m.dim (fun k => (gt k - ((samples.map fun s => (s, m.lossAug s.1 s.2 st.w true)).map
        fun p => m.feat p.1.1 p.2 p.1.2 k).sum) / (samples.length : ℚ))
      (fun k => (gt' k - (((inUnits f samples).map fun s => (s, m'.lossAug s.1 s.2 st'.w true)).map
        fun p => m'.feat p.1.1 p.2 p.1.2 k).sum) / (samples.length : ℚ)) := by
    intro k hk
    simp only
    rw [houts k hk, hgt k hk]
    ring
  have hviol := dot_units h.order hs.w hdj
  rw [div_mul_cancel₀ _ hb.ne'] at hviol
  have hnn : 0 ≤ ((samples.map fun s => (s, m.lossAug s.1 s.2 st.w true)).map fun p => m.lossOf p.1.2 p.2).sum /
      (samples.length : ℚ) := by
    refine div_nonneg (List.sum_nonneg fun q hq => ?_) (by positivity)
    simp only [List.map_map, List.mem_map, Function.comp] at hq
    obtain ⟨s, hm, rfl⟩ := hq
    exact h0 s hm st.w
  have hys : ((inUnits f samples).map fun s => (s, m'.lossAug s.1 s.2 st'.w true)).map (fun p => p.2) =
      (samples.map fun s => (s, m.lossAug s.1 s.2 st.w true)).map fun p => p.2 := by
    unfold inUnits
    simp only [List.map_map]
    refine List.map_congr_left fun s _ => ?_
    simp only [Function.comp]
    exact h.lossAug s.1 s.2 _ _ true hs.w
  have hcheck : checkBad (oneConfigUnits ρ a b cfg) m.dim st'.w st'.lastSlack
      ((((inUnits f samples).map fun s => (s, m'.lossAug s.1 s.2 st'.w true)).map
        fun p => m'.lossOf p.1.2 p.2).sum / (samples.length : ℚ) - dot m.dim st'.w
        (fun k => (gt' k - (((inUnits f samples).map fun s => (s, m'.lossAug s.1 s.2 st'.w true)).map
        fun p => m'.feat p.1.1 p.2 p.1.2 k).sum) / (samples.length : ℚ)))
      (fun k => (gt' k - (((inUnits f samples).map fun s => (s, m'.lossAug s.1 s.2 st'.w true)).map
        fun p => m'.feat p.1.1 p.2 p.1.2 k).sum) / (samples.length : ℚ))
      ((((inUnits f samples).map fun s => (s, m'.lossAug s.1 s.2 st'.w true)).map
        fun p => m'.lossOf p.1.2 p.2).sum / (samples.length : ℚ)) st'.constraints cfg.breakOnBad =
    checkBad cfg m.dim st.w st.lastSlack
      (((samples.map fun s => (s, m.lossAug s.1 s.2 st.w true)).map fun p => m.lossOf p.1.2 p.2).sum /
        (samples.length : ℚ) - dot m.dim st.w (fun k => (gt k - ((samples.map fun s => (s, m.lossAug s.1 s.2 st.w true)).map
        fun p => m.feat p.1.1 p.2 p.1.2 k).sum) / (samples.length : ℚ)))
      (fun k => (gt k - ((samples.map fun s => (s, m.lossAug s.1 s.2 st.w true)).map
        fun p => m.feat p.1.1 p.2 p.1.2 k).sum) / (samples.length : ℚ))
      (((samples.map fun s => (s, m.lossAug s.1 s.2 st.w true)).map fun p => m.lossOf p.1.2 p.2).sum /
        (samples.length : ℚ)) st.constraints cfg.breakOnBad := by
    refine checkBad_units ha hb h.order cfg hcc cfg.breakOnBad ?_ hdj hloss hs.constraints ?_
    · rw [hloss, hviol, mul_sub]
    · rcases hr with ⟨-, hls⟩ | ⟨-, -, h3, h4, h5⟩
      · exact .inl hls
      · refine .inr ⟨h3, h4, ?_, ht, ht'⟩
        have hz : ∀ v : W, dot m.dim st.w v = 0 := by
          intro v
          unfold dot
          exact sum_eq_zero fun k hk => by rw [h5 k (mem_range.mp hk), zero_mul]
        rw [hz, sub_zero]
        exact hnn
  rw [show (oneConfigUnits ρ a b cfg).breakOnBad = cfg.breakOnBad from rfl, hcheck]
  generalize checkBad cfg _ _ _ _ _ _ _ _ = q
  cases q with
  | error e => exact .error e
  | ok v =>
    cases v with
    | true => exact .ok trivial
    | false => exact .ok ⟨hys, hdj, hloss⟩

theorem max?_units (ha : 0 < a) (l : List ℚ) : (l.map fun v => a * v).max? = l.max?.map fun v => a * v := by
  cases l with
  | nil => rfl
  | cons x l =>
    rw [List.map_cons, List.max?_cons', List.max?_cons', Option.map_some]
    congr 1
    induction l generalizing x with
    | nil => rfl
    | cons y l ih =>
      rw [List.map_cons, List.foldl_cons, List.foldl_cons, ← mul_max_of_nonneg _ _ ha.le, ih]

theorem newLastSlack_units (ha : 0 < a) (hb : 0 < b) {d : ℕ} (hρ : Reorders ρ d) {w w' : W} (hw : Multiple ρ (a / b) d w w') {cs cs' : List Con}
    (h : List.Forall₂ (ConUnits ρ a b d) cs cs') :
    newLastSlack d w' cs' = (newLastSlack d w cs).map fun v => a * v := by
  unfold newLastSlack
  have e : (cs'.map fun c => -dot d w' c.1 + c.2) = (cs.map fun c => -dot d w c.1 + c.2).map fun v => a * v := by
    induction h with
    | nil => rfl
    | cons hc _ ih =>
      rw [List.map_cons, List.map_cons, List.map_cons, ih, dot_units hρ hw hc.1, hc.2, div_mul_cancel₀ _ hb.ne']
      congr 1
      ring
  rw [e, max?_units ha]
  cases (cs.map fun c => -dot d w c.1 + c.2).max? with
  | none => rfl
  | some v =>
    simp only [Option.map_some, Except.map]
    rw [mul_max_of_nonneg _ _ ha.le, mul_zero]

theorem prune_units {d : ℕ} (cfg : Config) (hw : cfg.inactiveWindow = 0) {cs cs' : List Con}
    (h : List.Forall₂ (ConUnits ρ a b d) cs cs') {al al' : List (List ℚ)} (hal : al'.length = al.length) {x x' : List ℚ}
    (hx : x.length = cs.length) (hx' : x'.length = cs.length) :
    BothRun (fun p p' => p.1 = cs ∧ p'.1 = cs' ∧ p'.2.length = p.2.length) (prune cfg cs al x)
      (prune (oneConfigUnits ρ a b cfg) cs' al' x') := by
  unfold prune
  rw [show (oneConfigUnits ρ a b cfg).inactiveWindow = cfg.inactiveWindow from rfl]
  simp only [List.length_append, hal, ← h.length_eq]
  by_cases hn : al.length + [([] : List ℚ)].length ≠ cs.length
  · rw [if_pos hn, if_pos hn]; exact .error _
  · rw [if_neg hn, if_neg hn, if_pos hw, if_pos hw]
    refine .ok ⟨rfl, rfl, ?_⟩
    simp only [List.length_zipWith, List.length_append, hal, hx, hx']

theorem addConstraint_units (ha : 0 < a) (hb : 0 < b) (h : OtherUnits ρ a b f m m') {qp qp' : QP.Solver}
    (hq : QP.Exact qp) (hqc : QP.Complete qp) (hq' : QP.Exact qp') (hqc' : QP.Complete qp') (cfg : Config)
    (hw0 : cfg.inactiveWindow = 0) (samples : List (X × Y)) (it : ℕ) (intr : Option Phase) {st : St X Y} {st' : St X' Y}
    (hs : OneUnits ρ a b m m' st st') (fd fd' : Found Y) (hdj : Multiple ρ b m.dim fd.dj fd'.dj) (hloss : fd'.loss = a * fd.loss)
    (cached : Bool) (hct : cached = true → cfg.cacheTol = .auto → st'.cacheTol = (a / b) ^ 2 * st.cacheTol) :
    BothRun (fun r r' => OneUnits ρ a b m m' r.1 r'.1 ∧ r'.2 = r.2 ∧ (r.2 = true → OneReadyFor cfg.cacheTol a b m.dim r.1 r'.1))
      (addConstraint qp cfg samples it intr st fd cached)
      (addConstraint qp' (oneConfigUnits ρ a b cfg) (inUnits f samples) it intr st' fd' cached) := by
  have hlen : (inUnits f samples).length = samples.length := by unfold inUnits; simp
  have hslack : -dot m.dim st'.w fd'.dj + fd'.loss = a * (-dot m.dim st.w fd.dj + fd.loss) := by
    rw [dot_units h.order hs.w hdj, hloss, div_mul_cancel₀ _ hb.ne']; ring
  have hmax : max (a * (-dot m.dim st.w fd.dj + fd.loss)) 0 = a * max (-dot m.dim st.w fd.dj + fd.loss) 0 := by
    rw [mul_max_of_nonneg _ _ ha.le, mul_zero]
  have hprimal : cfg.C * a / b ^ 2 * (samples.length : ℚ) * max (-dot m.dim st'.w fd'.dj + fd'.loss) 0 +
      (∑ k ∈ range m.dim, st'.w k ^ 2) / 2 = (a / b) ^ 2 * (cfg.C * samples.length *
      max (-dot m.dim st.w fd.dj + fd.loss) 0 + (∑ k ∈ range m.dim, st.w k ^ 2) / 2) := by
    rw [hslack, hmax, sumSq_units h.order hs.w]
    field_simp
  have hcs : List.Forall₂ (ConUnits ρ a b m.dim) (st.constraints ++ [(fd.dj, fd.loss)])
      (st'.constraints ++ [(fd'.dj, fd'.loss)]) :=
    List.rel_append hs.constraints (List.Forall₂.cons ⟨hdj, hloss⟩ List.Forall₂.nil)
  have hcurve := trainingLoss_units ha h samples hs.w cfg.showLossEvery it st.lossCurve
  have hC : (oneConfigUnits ρ a b cfg).C = cfg.C * a / b ^ 2 := rfl
  have hsl : (oneConfigUnits ρ a b cfg).showLossEvery = cfg.showLossEvery := rfl
  have hng : (oneConfigUnits ρ a b cfg).negativity = reorderNeg ρ cfg.negativity := rfl
  have hkt : (oneConfigUnits ρ a b cfg).cacheTol = cfg.cacheTol := rfl
  have hpc : (st.primalCurve.map fun v => (a / b) ^ 2 * v) ++ [(a / b) ^ 2 * (cfg.C * samples.length *
      max (-dot m.dim st.w fd.dj + fd.loss) 0 + (∑ k ∈ range m.dim, st.w k ^ 2) / 2)] =
      (st.primalCurve ++ [cfg.C * samples.length * max (-dot m.dim st.w fd.dj + fd.loss) 0 +
        (∑ k ∈ range m.dim, st.w k ^ 2) / 2]).map fun v => (a / b) ^ 2 * v := by simp
  unfold addConstraint
  simp only [hs.model, hs.model', h.dim, hlen, hC, hsl, hng, hkt, hprimal, hs.lossCurve, hcurve, hs.primalCurve,
    hs.cachedFlags, hpc]
  by_cases hi : intr = some .qp
  · rw [if_pos hi, if_pos hi]
    exact .ok ⟨⟨rfl, rfl, hs.w, hcs, hs.shared, hs.alphas, hs.objectiveCurve, rfl, rfl, rfl, hs.cache,
      hs.objective⟩, rfl, by simp⟩
  · rw [if_neg hi, if_neg hi]
    have hsol := solveQP_units ha hb h.order hq hqc hq' hqc' hcs cfg.negativity (cfg.C * samples.length)
    have ecn : cfg.C * a / b ^ 2 * (samples.length : ℚ) = cfg.C * samples.length * (a / b ^ 2) := by ring
    rw [ecn]
    generalize solveQP qp m.dim cfg.negativity (cfg.C * samples.length) (st.constraints ++ [(fd.dj, fd.loss)]) = r at hsol ⊢
    generalize solveQP qp' m.dim (reorderNeg ρ cfg.negativity) (cfg.C * samples.length * (a / b ^ 2))
      (st'.constraints ++ [(fd'.dj, fd'.loss)]) = r' at hsol ⊢
    cases hsol with
    | error e => exact .error e
    | @ok s s' hss =>
      obtain ⟨hx, hx', hww, hob⟩ := hss
      simp only
      have hp := prune_units cfg hw0 hcs hs.alphas hx hx'
      generalize prune cfg (st.constraints ++ [(fd.dj, fd.loss)]) st.alphas s.x = p at hp ⊢
      generalize prune (oneConfigUnits ρ a b cfg) (st'.constraints ++ [(fd'.dj, fd'.loss)]) st'.alphas s'.x = p' at hp ⊢
      cases hp with
      | error e => exact .error e
      | @ok p p' hpp =>
        obtain ⟨c1, al1⟩ := p
        obtain ⟨c1', al1'⟩ := p'
        obtain ⟨e1, e2, e3⟩ := hpp
        simp only at e1 e2 e3 ⊢
        subst e1 e2
        have hobj : -s'.primalObjective = (a / b) ^ 2 * (-s.primalObjective) := by rw [hob]; ring
        rw [hobj]
        have hobjs : some ((a / b) ^ 2 * (-s.primalObjective)) = (some (-s.primalObjective)).map
            fun v : ℚ => (a / b) ^ 2 * v := rfl
        have htol : cfg.cacheTol = .auto → newCacheTol cfg.cacheTol cached st'.cacheTol ((a / b) ^ 2 * (cfg.C * samples.length *
            max (-dot m.dim st.w fd.dj + fd.loss) 0 + (∑ k ∈ range m.dim, st.w k ^ 2) / 2) -
              (a / b) ^ 2 * (-s.primalObjective)) =
            (a / b) ^ 2 * newCacheTol cfg.cacheTol cached st.cacheTol ((cfg.C * samples.length *
            max (-dot m.dim st.w fd.dj + fd.loss) 0 + (∑ k ∈ range m.dim, st.w k ^ 2) / 2) - (-s.primalObjective)) := by
          intro hk
          unfold newCacheTol
          rw [hk]
          simp only
          cases cached with
          | true => exact hct rfl hk
          | false =>
            simp only [Bool.false_eq_true, if_false]
            ring
        by_cases hi2 : intr = some .after
        · rw [if_pos hi2, if_pos hi2]
          exact .ok ⟨⟨rfl, rfl, hww, hcs, hs.shared, e3, hs.objectiveCurve, rfl, rfl, rfl, hs.cache, rfl⟩,
            rfl, by simp⟩
        · rw [if_neg hi2, if_neg hi2, newLastSlack_units ha hb h.order hww hcs]
          cases newLastSlack m.dim (weightsOf (st.constraints ++ [(fd.dj, fd.loss)]) s.x)
              (st.constraints ++ [(fd.dj, fd.loss)]) with
          | error e => exact .error e
          | ok v =>
            simp only [Except.map]
            exact .ok ⟨⟨rfl, rfl, hww, hcs, rfl, e3, by simp only [hs.objectiveCurve]; simp, rfl, rfl, rfl,
              hs.cache, rfl⟩, rfl, fun _ => .inl ⟨htol, rfl⟩⟩

theorem iteration_units (ha : 0 < a) (hb : 0 < b) (h : OtherUnits ρ a b f m m') {qp qp' : QP.Solver}
    (hq : QP.Exact qp) (hqc : QP.Complete qp) (hq' : QP.Exact qp') (hqc' : QP.Complete qp')
    (eq : Y → Y → Except PyErr Bool) (cfg : Config) (hw0 : cfg.inactiveWindow = 0) (hcc : cfg.checkConstraints = false)
    (ht : cfg.tol ≤ 1) (ht' : a * cfg.tol ≤ 1) {gt gt' : W} (hgt : Multiple ρ b m.dim gt gt') (samples : List (X × Y))
    (h0 : ∀ s ∈ samples, ∀ w, 0 ≤ m.lossOf s.2 (m.lossAug s.1 s.2 w true)) (it : ℕ) (intr : Option Phase)
    {st : St X Y} {st' : St X' Y} (hs : OneUnits ρ a b m m' st st') (hr : OneReadyFor cfg.cacheTol a b m.dim st st') :
    BothRun (fun r r' => OneUnits ρ a b m m' r.1 r'.1 ∧ r'.2 = r.2 ∧ (r.2 = true → OneReadyFor cfg.cacheTol a b m.dim r.1 r'.1))
      (iteration qp eq none cfg samples gt it intr st)
      (iteration qp' eq none (oneConfigUnits ρ a b cfg) (inUnits f samples) gt' it intr st') := by
  have hlen : (inUnits f samples).length = samples.length := by unfold inUnits; simp
  unfold iteration
  by_cases hi : intr = some .search
  · rw [if_pos hi, if_pos hi]; exact .ok ⟨hs, rfl, by simp⟩
  · rw [if_neg hi, if_neg hi, hlen]
    have h1 := fromCache_units ha hb h cfg hcc hgt samples.length hs hr
    generalize fromCache cfg st gt samples.length = p at h1 ⊢
    generalize fromCache (oneConfigUnits ρ a b cfg) st' gt' samples.length = p' at h1 ⊢
    cases h1 with
    | error e => exact .error e
    | @ok p p' hp =>
      obtain ⟨hf, hcache⟩ := hp
      cases p with
      | some fd =>
        cases p' with
        | none => exact absurd hf (by simp [FoundUnits])
        | some fd' =>
          obtain ⟨-, h2, h3⟩ := hf
          refine addConstraint_units ha hb h hq hqc hq' hqc' cfg hw0 samples it intr hs fd fd' h2 h3 true fun _ hk => ?_
          rcases hr with ⟨hct, -⟩ | ⟨hn, -⟩
          · exact hct hk
          · exact absurd hn (hcache rfl)
      | none =>
        cases p' with
        | some fd' => exact absurd hf (by simp [FoundUnits])
        | none =>
          simp only
          have h2 := findNew_units ha hb h cfg hcc ht ht' hgt samples h0 hs hr
          generalize findNew cfg st gt samples = q at h2 ⊢
          generalize findNew (oneConfigUnits ρ a b cfg) st' gt' (inUnits f samples) = q' at h2 ⊢
          cases h2 with
          | error e => exact .error e
          | @ok q q' hqq =>
            cases q with
            | some fd =>
              cases q' with
              | none => exact absurd hqq (by simp [FoundUnits])
              | some fd' =>
                obtain ⟨h3, h4, h5⟩ := hqq
                simp only
                rw [h3, hs.model, hs.model']
                have hu := updateCache_units h eq cfg hs.cache samples fd.yhat
                generalize updateCache m eq cfg st.cache samples fd.yhat = u at hu ⊢
                generalize updateCache m' eq (oneConfigUnits ρ a b cfg) st'.cache (inUnits f samples) fd.yhat = u' at hu ⊢
                cases hu with
                | error e => exact .error e
                | @ok u u' huu =>
                  simp only
                  refine addConstraint_units ha hb h hq hqc hq' hqc' cfg hw0 samples it intr ?_ fd fd' h4 h5 false (by simp)
                  exact ⟨rfl, rfl, hs.w, hs.constraints, hs.shared, hs.alphas, hs.objectiveCurve, hs.primalCurve,
                    hs.cachedFlags, hs.lossCurve, huu, hs.objective⟩
            | none =>
              cases q' with
              | some fd' => exact absurd hqq (by simp [FoundUnits])
              | none =>
                cases st.switched <;> cases st'.switched <;> exact .ok ⟨hs, rfl, by simp⟩

theorem oneLoop_units (ha : 0 < a) (hb : 0 < b) (h : OtherUnits ρ a b f m m') {qp qp' : QP.Solver}
    (hq : QP.Exact qp) (hqc : QP.Complete qp) (hq' : QP.Exact qp') (hqc' : QP.Complete qp')
    (eq : Y → Y → Except PyErr Bool) (cfg : Config) (hw0 : cfg.inactiveWindow = 0) (hcc : cfg.checkConstraints = false)
    (ht : cfg.tol ≤ 1) (ht' : a * cfg.tol ≤ 1) {gt gt' : W} (hgt : Multiple ρ b m.dim gt gt') (samples : List (X × Y))
    (h0 : ∀ s ∈ samples, ∀ w, 0 ≤ m.lossOf s.2 (m.lossAug s.1 s.2 w true)) (intr : ℕ → Option Phase) :
    ∀ (n it : ℕ) (st : St X Y) (st' : St X' Y), OneUnits ρ a b m m' st st' → OneReadyFor cfg.cacheTol a b m.dim st st' →
      BothRun (OneUnits ρ a b m m') (loop qp eq none cfg samples gt intr n it st)
        (loop qp' eq none (oneConfigUnits ρ a b cfg) (inUnits f samples) gt' intr n it st') := by
  intro n
  induction n with
  | zero => intro it st st' hs hr; exact .ok hs
  | succ n ih =>
    intro it st st' hs hr
    unfold loop
    have h1 := iteration_units ha hb h hq hqc hq' hqc' eq cfg hw0 hcc ht ht' hgt samples h0 it (intr it) hs hr
    generalize iteration qp eq none cfg samples gt it (intr it) st = r at h1 ⊢
    generalize iteration qp' eq none (oneConfigUnits ρ a b cfg) (inUnits f samples) gt' it (intr it) st' = r' at h1 ⊢
    cases h1 with
    | error e => exact .error e
    | @ok r r' hrr =>
      obtain ⟨s, go⟩ := r
      obtain ⟨s', go'⟩ := r'
      obtain ⟨h2, h3, h4⟩ := hrr
      simp only at h2 h3 h4
      subst h3
      cases go' with
      | false => exact .ok h2
      | true => exact ih _ _ _ h2 (h4 rfl)

end Verif.Props
