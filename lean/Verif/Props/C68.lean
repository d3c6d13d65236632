import Verif.Props.C41

/-!
# C68: what `cache_tol='auto'` does in OneSlackSSVM
-/

namespace Verif.Props

open Finset Verif.Spec Verif.Learner Verif.OneSlack

variable {X Y : Type}

/-- Specification: entry `i` was made from the cache while the gap was at least a quarter of the gap after the
last inference. `flags`, `primal` and `dual` are the recorded curves; entry `i - 1` of the curves is the last one
before step `i`. -/
def Spec.CacheUse (flags : List Bool) (primal dual : List ℚ) (i : ℕ) : Prop :=
  ∃ j < i, flags[j]? = some false ∧ (∀ k, j < k → k < i → flags[k]? = some true) ∧
    ∃ p d p' d', primal[i - 1]? = some p ∧ dual[i - 1]? = some d ∧ primal[j]? = some p' ∧ dual[j]? = some d' ∧
      (p' - d') / 4 ≤ p - d

theorem Spec.CacheUse.mono {flags flags' : List Bool} {primal primal' dual dual' : List ℚ} {i : ℕ}
    (h : Spec.CacheUse flags primal dual i) :
    Spec.CacheUse (flags ++ flags') (primal ++ primal') (dual ++ dual') i := by
  have key : ∀ {α : Type} (l l' : List α) (k : ℕ) (a : α), l[k]? = some a → (l ++ l')[k]? = some a := by
    intro α l l' k a ha
    rw [List.getElem?_append_left (List.getElem?_eq_some_iff.mp ha).1]
    exact ha
  obtain ⟨j, hj, h1, h2, p, d, p', d', h3, h4, h5, h6, h7⟩ := h
  exact ⟨j, hj, key _ _ _ _ h1, fun k a b => key _ _ _ _ (h2 k a b), p, d, p', d', key _ _ _ _ h3, key _ _ _ _ h4,
    key _ _ _ _ h5, key _ _ _ _ h6, h7⟩

/-- Invariant of the loop. -/
structure Auto (st : St X Y) : Prop where
  primal : st.primalCurve.length = st.cachedFlags.length
  dual : st.objectiveCurve.length = st.cachedFlags.length
  used : ∀ i : ℕ, st.cachedFlags[i]? = some true → Spec.CacheUse st.cachedFlags st.primalCurve st.objectiveCurve i
  tol : st.cache ≠ none → ∃ j, st.cachedFlags[j]? = some false ∧
    (∀ k, j < k → k < st.cachedFlags.length → st.cachedFlags[k]? = some true) ∧
    ∃ p d, st.primalCurve[j]? = some p ∧ st.objectiveCurve[j]? = some d ∧ st.cacheTol = (p - d) / 4

theorem addConstraint_cacheTol {qp : QP.Solver} {cfg : Config} {samples : List (X × Y)} {it : ℕ}
    {st st' : St X Y} {f : Found Y} {cached b : Bool}
    (h : addConstraint qp cfg samples it none st f cached = .ok (st', b)) :
    ∃ p d, st'.primalCurve = st.primalCurve ++ [p] ∧ st'.objectiveCurve = st.objectiveCurve ++ [d] ∧
      st'.cachedFlags = st.cachedFlags ++ [cached] ∧ st'.cache = st.cache ∧
      st'.cacheTol = newCacheTol cfg.cacheTol cached st.cacheTol (p - d) := by
  unfold addConstraint at h
  simp only at h
  rw [if_neg (by simp)] at h
  split at h
  · cases h
  · rename_i sol hs
    split at h
    · cases h
    · rename_i cs' al' hp
      rw [if_neg (by simp)] at h
      split at h
      · cases h
      · simp only [Except.ok.injEq, Prod.mk.injEq] at h
        obtain ⟨rfl, rfl⟩ := h
        exact ⟨_, _, rfl, rfl, rfl, rfl, rfl⟩

theorem fromCache_gap {cfg : Config} {st : St X Y} {gt : W} {n : ℕ} {f : Found Y} (ht : cfg.cacheTol = .auto)
    (h : fromCache cfg st gt n = .ok (some f)) :
    st.cache ≠ none ∧ ∃ p d, st.primalCurve.getLast? = some p ∧ st.objectiveCurve.getLast? = some d ∧
      st.cacheTol ≤ p - d := by
  unfold fromCache at h
  split at h
  · simp at h
  · simp at h
  · rename_i hc
    split at h
    · rename_i p d hp hd
      rw [ht] at h
      split_ifs at h with hg
      · simp at h
      · refine ⟨by rw [hc]; simp, p, d, hp, hd, ?_⟩
        simpa [gapSmall] using hg
    · cases h

theorem iteration_auto {qp : QP.Solver} {eq : Y → Y → Except PyErr Bool}
    {alt : Option ((X → Y → W → Bool → Y) × (X → W → Y))} {cfg : Config} {samples : List (X × Y)}
    (ht : cfg.cacheTol = .auto) {gt : W} {it : ℕ} {st st' : St X Y} {b : Bool} (hI : Auto st)
    (h : iteration qp eq alt cfg samples gt it none st = .ok (st', b)) : Auto st' := by
  rcases iteration_ok h with ⟨rfl, -, -⟩ | ⟨la, inf, ha, hs, -, -, rfl⟩ | ⟨-, f, cd, cache, hfind, hadd⟩
  · exact hI
  · exact ⟨hI.primal, hI.dual, hI.used, hI.tol⟩
  · obtain ⟨p, d, a1, a2, a3, a4, a5⟩ := addConstraint_cacheTol hadd
    simp only at a1 a2 a3 a4 a5
    obtain ⟨i1, i2, i3, i4⟩ := hI
    have old : ∀ i : ℕ, i < st.cachedFlags.length → st'.cachedFlags[i]? = some true →
        Spec.CacheUse st'.cachedFlags st'.primalCurve st'.objectiveCurve i := by
      intro i hi hi'
      rw [a3, List.getElem?_append_left hi] at hi'
      rw [a1, a2, a3]
      exact (i3 i hi').mono
    have split : ∀ i : ℕ, st'.cachedFlags[i]? = some true → i < st.cachedFlags.length ∨ i = st.cachedFlags.length := by
      intro i hi
      have := (List.getElem?_eq_some_iff.mp hi).1
      rw [a3, List.length_append, List.length_singleton] at this
      omega
    rcases hfind with ⟨hf, rfl, hc⟩ | ⟨-, rfl, -⟩
    · obtain ⟨g1, q, e, g2, g3, g4⟩ := fromCache_gap ht hf
      obtain ⟨j, j1, j2, p', d', j3, j4, j5⟩ := i4 g1
      have hjl := (List.getElem?_eq_some_iff.mp j1).1
      have hflag : ∀ k, j < k → k < st.cachedFlags.length → st'.cachedFlags[k]? = some true := by
        intro k hk hk'
        rw [a3, List.getElem?_append_left hk']
        exact j2 k hk hk'
      have hj1 : st'.cachedFlags[j]? = some false := by rw [a3, List.getElem?_append_left hjl]; exact j1
      have hj3 : st'.primalCurve[j]? = some p' := by
        rw [a1, List.getElem?_append_left (by omega)]; exact j3
      have hj4 : st'.objectiveCurve[j]? = some d' := by
        rw [a2, List.getElem?_append_left (by omega)]; exact j4
      refine ⟨by simp [a1, a3, i1], by simp [a2, a3, i2], ?_, ?_⟩
      · intro i hi
        rcases split i hi with hlt | rfl
        · exact old i hlt hi
        · refine ⟨j, hjl, hj1, hflag, q, e, p', d', ?_, ?_, hj3, hj4, ?_⟩
          · rw [a1, List.getElem?_append_left (by omega), ← i1, ← List.getLast?_eq_getElem?]; exact g2
          · rw [a2, List.getElem?_append_left (by omega), ← i2, ← List.getLast?_eq_getElem?]; exact g3
          · rw [← j5]; exact g4
      · intro _
        refine ⟨j, hj1, ?_, p', d', hj3, hj4, ?_⟩
        · intro k hk hk'
          rw [a3, List.length_append, List.length_singleton] at hk'
          rcases Nat.lt_or_ge k st.cachedFlags.length with hlt | hge
          · exact hflag k hk hlt
          · have : k = st.cachedFlags.length := by omega
            rw [this, a3]; simp
        · rw [a5, ht]; exact j5
    · refine ⟨by simp [a1, a3, i1], by simp [a2, a3, i2], ?_, ?_⟩
      · intro i hi
        rcases split i hi with hlt | rfl
        · exact old i hlt hi
        · rw [a3] at hi; simp at hi
      · intro _
        refine ⟨st.cachedFlags.length, by rw [a3]; simp, ?_, p, d, ?_, ?_, ?_⟩
        · intro k hk hk'
          rw [a3, List.length_append, List.length_singleton] at hk'
          omega
        · rw [a1, ← i1]; simp
        · rw [a2, ← i2]; simp
        · rw [a5, ht]; rfl

/-- **C68 for `cache_tol='auto'`.** In an uninterrupted fresh `fit`, a constraint is taken from the cache only
while the recorded duality gap is at least a quarter of the gap that was recorded when inference was called for
the last time; in particular inference was called before. (Missing for C68: numbers and `None`, for which the
claim is false, see `C68_violated`.) -/
theorem C68_auto_partial (m : SModel X Y) (qp : QP.Solver) (eq : Y → Y → Except PyErr Bool)
    (alt : Option ((X → Y → W → Bool → Y) × (X → W → Y))) (o o' : Obj Y) (samples : List (X × Y))
    (ht : o.cfg.cacheTol = .auto)
    (h : OneSlack.fit m qp eq alt (fun _ => none) o samples .no = .ok o') :
    ∃ a, o'.attrs = some a ∧ a.primalCurve.length = a.cachedFlags.length ∧
      a.objectiveCurve.length = a.cachedFlags.length ∧ a.cachedFlags.getLast? = some false ∧
      ∀ i : ℕ, a.cachedFlags[i]? = some true → Spec.CacheUse a.cachedFlags a.primalCurve a.objectiveCurve i := by
  unfold OneSlack.fit at h
  cases hs : start m o .no with
  | error err => rw [hs] at h; cases h
  | ok st =>
    rw [hs] at h
    simp only at h
    have hI : Auto st := by
      unfold start at hs
      simp only [Except.ok.injEq] at hs
      subst hs
      exact ⟨rfl, rfl, by simp, fun h => absurd rfl h⟩
    cases hlp : loop qp eq alt o.cfg samples (jointFeatureGt m samples) (fun _ => none) o.cfg.maxIter 0 st with
    | error err => rw [hlp] at h; cases h
    | ok st' =>
      rw [hlp] at h
      simp only at h
      have hI' : Auto st' := loop_induct _ (fun it s s' b hi hit => iteration_auto ht hi hit) _ _ _ _ hI hlp
      cases hp : objectivePrimal st'.model st'.w samples o.cfg.C false with
      | error err => rw [hp] at h; cases h
      | ok primal =>
        rw [hp] at h
        simp only at h
        cases hob : st'.objective with
        | none => rw [hob] at h; cases h
        | some obj =>
          rw [hob] at h
          simp only [Except.ok.injEq] at h
          subst h
          refine ⟨_, rfl, by simp [hI'.primal], by simp [hI'.dual], by simp, ?_⟩
          intro i hi
          refine Spec.CacheUse.mono (hI'.used i ?_)
          rcases Nat.lt_or_ge i st'.cachedFlags.length with hlt | hge
          · simp only at hi
            rw [List.getElem?_append_left hlt] at hi
            exact hi
          · simp only at hi
            rw [List.getElem?_append_right hge] at hi
            have := List.mem_of_getElem? hi
            simp at this

/-- A solver that distributes the weight evenly over all constraints but the first. -/
def evenSolver (cn : ℚ) : QP.Solver := fun p =>
  some ⟨(List.range p.q.length).map fun i => if i = 0 then 0 else cn / ((p.q.length : ℚ) - 1), 0⟩

/-- Two samples and three outputs: the fourth and fifth constraint come from the cache. -/
example : (OneSlack.fit (tableModel 2 3 (fun y => if y = 0 then vec2 1 (-2) else if y = 1 then vec2 0 2 else vec2 (-2) 0)
      (fun y => y + 1)) (evenSolver 1) natEq none (fun _ => none) (exampleOS 5 (1 / 2) 10 0) [((), 0), ((), 1)]
      .no).toOption.bind (fun o => o.attrs.map fun a => a.cachedFlags) =
    some [false, false, false, true, true, false] := by decide +kernel

end Verif.Props
