import Verif.Model.LatentSSVM
import Verif.Spec.Latent
import Verif.Model.FrankWolfe
import Verif.Props.C40
import Mathlib.Tactic.IntervalCases

/-!
# C57: LatentSSVM descends
-/

namespace Verif.Props

open Finset Verif.Spec Verif.Learner Verif.NSlack Verif.LatentSSVM

variable {X Y H σ : Type}

/-! ### the latent objective -/

theorem latent_value_eq {P : Problem X H} {completions : X → Y → Set H} {samples : List (X × Y)}
    (hlab : P.LabelOnly completions samples) {s : X × Y} (hs : s ∈ samples) {h h' : H}
    (hh : h ∈ completions s.1 s.2) (hh' : h' ∈ completions s.1 s.2) (w : ℕ → ℚ) (o : H) :
    P.value w s.1 h o = P.value w s.1 h' o := by
  unfold Problem.value
  refine sum_congr rfl fun k _ => ?_
  rw [((hlab s hs h hh).2 h' hh' o).2 k]

/-- hinge losses of two completions of the same label differ by the difference of their scores. -/
theorem hinge_shift {P : Problem X H} {completions : X → Y → Set H} {samples : List (X × Y)}
    (hlab : P.LabelOnly completions samples) {s : X × Y} (hs : s ∈ samples) {h h' : H}
    (hh : h ∈ completions s.1 s.2) (hh' : h' ∈ completions s.1 s.2) {w : ℕ → ℚ} {v : ℚ}
    (hv : P.IsHinge w s.1 h v) :
    P.IsHinge w s.1 h' (v + P.value w s.1 h h - P.value w s.1 h' h') := by
  have key : ∀ o, P.violation w s.1 h' o =
      P.violation w s.1 h o + P.value w s.1 h h - P.value w s.1 h' h' := by
    intro o
    unfold Problem.violation
    rw [latent_value_eq hlab hs hh' hh w o, ((hlab s hs h' hh').2 h hh o).1]
    ring
  obtain ⟨⟨o, ho, hvo⟩, hmax⟩ := hv
  refine ⟨⟨o, ho, by rw [key, hvo]⟩, ?_⟩
  rintro u ⟨o', ho', rfl⟩
  have := hmax ⟨o', ho', rfl⟩
  rw [key]
  linarith

/-- the latent hinge loss is the hinge loss of the best completion. -/
theorem latentHinge_iff {P : Problem X H} {completions : X → Y → Set H} {samples : List (X × Y)}
    (hlab : P.LabelOnly completions samples) {lat : X → Y → (ℕ → ℚ) → H} {w : ℕ → ℚ}
    (hlat : P.ExactCompletionAt completions lat samples w) {s : X × Y} (hs : s ∈ samples) (v : ℚ) :
    P.IsLatentHinge (completions s.1 s.2) w s.1 v ↔ P.IsHinge w s.1 (lat s.1 s.2 w) v := by
  obtain ⟨h1, h2⟩ := hlat s hs
  constructor
  · rintro ⟨⟨h, hh, hv⟩, hmin⟩
    have h3 := hinge_shift hlab hs hh h1 hv
    have h4 := hmin ⟨_, h1, h3⟩
    have h5 := h2 h hh
    have : v = v + P.value w s.1 h h - P.value w s.1 (lat s.1 s.2 w) (lat s.1 s.2 w) := by linarith
    rw [this]
    exact h3
  · intro hv
    refine ⟨⟨_, h1, hv⟩, ?_⟩
    rintro u ⟨h, hh, hu⟩
    have h3 := hinge_shift hlab hs hh h1 hu
    have h4 : v = u + P.value w s.1 h h - P.value w s.1 (lat s.1 s.2 w) (lat s.1 s.2 w) := hv.unique h3
    have h5 := h2 h hh
    linarith

/-- The classical form of the latent hinge loss: the best augmented score minus the best score of a
completion. -/
theorem C57_classical (P : Problem X H) (completions : X → Y → Set H) (samples : List (X × Y))
    (hlab : P.LabelOnly completions samples) (s : X × Y) (hs : s ∈ samples) (w : ℕ → ℚ) (h0 : H)
    (hh0 : h0 ∈ completions s.1 s.2) (a b : ℚ)
    (ha : IsGreatest {v | ∃ o ∈ P.outputs s.1, v = P.loss h0 o + P.value w s.1 h0 o} a)
    (hb : IsGreatest {v | ∃ h ∈ completions s.1 s.2, v = P.value w s.1 h h} b) :
    P.IsLatentHinge (completions s.1 s.2) w s.1 (a - b) := by
  obtain ⟨⟨o, ho, hao⟩, hamax⟩ := ha
  obtain ⟨⟨h, hh, hbh⟩, hbmax⟩ := hb
  have key : ∀ h' ∈ completions s.1 s.2, P.IsHinge w s.1 h' (a - P.value w s.1 h' h') := by
    intro h' hh'
    have hv : ∀ o, P.violation w s.1 h' o = P.loss h0 o + P.value w s.1 h0 o - P.value w s.1 h' h' := by
      intro o
      unfold Problem.violation
      rw [latent_value_eq hlab hs hh' hh0 w o, ((hlab s hs h' hh').2 h0 hh0 o).1]
    refine ⟨⟨o, ho, by rw [hv, hao]⟩, ?_⟩
    rintro u ⟨o', ho', rfl⟩
    have := hamax ⟨o', ho', rfl⟩
    rw [hv]
    linarith
  refine ⟨⟨h, hh, by rw [hbh]; exact key h hh⟩, ?_⟩
  rintro u ⟨h', hh', hu⟩
  have h1 : u = a - P.value w s.1 h' h' := hu.unique (key h' hh')
  have h2 := hbmax ⟨h', hh', rfl⟩
  linarith

/-- the samples completed by `f`. -/
def completed (samples : List (X × Y)) (f : X × Y → H) : List (X × H) := samples.map fun s => (s.1, f s)

theorem zip_completed (samples : List (X × Y)) (f : X × Y → H) :
    (samples.map Prod.fst).zip (samples.map f) = completed samples f := by
  unfold completed
  rw [List.zip_map', List.map_congr_left]
  intro s _
  rfl

/-- the latent objective is the objective for the best completions. -/
theorem latentObjective_iff_at {P : Problem X H} {completions : X → Y → Set H} {samples : List (X × Y)}
    (hlab : P.LabelOnly completions samples) {lat : X → Y → (ℕ → ℚ) → H} {w : ℕ → ℚ}
    (hlat : P.ExactCompletionAt completions lat samples w) (C : ℚ) (v : ℚ) :
    P.IsLatentObjective completions C samples w v ↔
      P.IsObjective C (completed samples fun s => lat s.1 s.2 w) w v := by
  unfold Problem.IsLatentObjective Problem.IsObjective completed
  refine exists_congr fun ls => and_congr_left fun hv => ?_
  rw [List.forall₂_map_left_iff]
  clear hv
  constructor
  · intro h
    induction h with
    | nil => exact .nil
    | @cons s l samples ls h _ ih =>
      exact .cons ((latentHinge_iff hlab hlat (by simp) l).mp h) (ih (fun t ht => hlab t (by simp [ht]))
        (fun t ht => hlat t (by simp [ht])))
  · intro h
    induction h with
    | nil => exact .nil
    | @cons s l samples ls h _ ih =>
      exact .cons ((latentHinge_iff hlab hlat (by simp) l).mpr h) (ih (fun t ht => hlab t (by simp [ht]))
        (fun t ht => hlat t (by simp [ht])))

theorem latentObjective_iff {P : Problem X H} {completions : X → Y → Set H} {samples : List (X × Y)}
    (hlab : P.LabelOnly completions samples) {lat : X → Y → (ℕ → ℚ) → H}
    (hlat : P.ExactCompletion completions lat samples) (C : ℚ) (w : ℕ → ℚ) (v : ℚ) :
    P.IsLatentObjective completions C samples w v ↔
      P.IsObjective C (completed samples fun s => lat s.1 s.2 w) w v :=
  latentObjective_iff_at hlab (hlat.at w) C v

/-- the latent objective is at most the objective for any completions, and the latter exists with it. -/
theorem latentObjective_le {P : Problem X H} {completions : X → Y → Set H} {samples : List (X × Y)}
    (hlab : P.LabelOnly completions samples) {C : ℚ} (hC : 0 ≤ C) {f : X × Y → H}
    (hf : ∀ s ∈ samples, f s ∈ completions s.1 s.2) {w : ℕ → ℚ} {v : ℚ}
    (h : P.IsLatentObjective completions C samples w v) :
    ∃ u, P.IsObjective C (completed samples f) w u ∧ v ≤ u := by
  obtain ⟨ls, h1, rfl⟩ := h
  have : ∃ hs : List ℚ, List.Forall₂ (fun s h => P.IsHinge w s.1 s.2 h) (completed samples f) hs ∧
      ls.sum ≤ hs.sum := by
    induction h1 with
    | nil => exact ⟨[], .nil, le_rfl⟩
    | @cons s l samples ls h _ ih =>
      obtain ⟨hs, i1, i2⟩ := ih (fun t ht => hlab t (by simp [ht])) (fun t ht => hf t (by simp [ht]))
      obtain ⟨⟨g, hg, hv⟩, hmin⟩ := h
      have h3 := hinge_shift hlab (by simp) hg (hf s (by simp)) hv
      refine ⟨_ :: hs, .cons h3 i1, ?_⟩
      rw [List.sum_cons, List.sum_cons]
      exact add_le_add (hmin ⟨_, hf s (by simp), h3⟩) i2
  obtain ⟨hs, h2, h3⟩ := this
  refine ⟨_, ⟨hs, h2, rfl⟩, ?_⟩
  have := mul_le_mul_of_nonneg_left h3 hC
  linarith

theorem objective_unique {P : Problem X H} {C : ℚ} {data : List (X × H)} {w : ℕ → ℚ} {u v : ℚ}
    (hu : P.IsObjective C data w u) (hv : P.IsObjective C data w v) : u = v := by
  obtain ⟨a, ha, rfl⟩ := hu
  obtain ⟨b, hb, rfl⟩ := hv
  have : a = b := by
    clear * - ha hb
    induction ha generalizing b with
    | nil => cases hb; rfl
    | cons h _ ih =>
      cases hb with
      | cons h' hb => rw [h.unique h', ih _ hb]
  rw [this]

/-! ### the loop -/

/-- what happened between two calls of the base learner. -/
def Follows (L : LModel X Y H) (B : Base σ X H) (same : H → H → Bool) (samples : List (X × Y))
    (a b : List H × σ) : Prop :=
  b.1 = samples.map (fun s => L.latent s.1 s.2 (B.w a.2)) ∧ (∃ p ∈ b.1.zip a.1, same p.1 p.2 = false) ∧
    B.fit a.2 ((samples.map Prod.fst).zip b.1) ((B.constraints a.2).map (recomputed L.m samples b.1 (B.w a.2))) true =
      .ok b.2

/-- what `hist` records. -/
structure HistOK (L : LModel X Y H) (B : Base σ X H) (same : H → H → Bool) (samples : List (X × Y)) (base : σ)
    (h0 : List H) (st : LatentSSVM.St σ H) : Prop where
  first : ∃ b, st.hist.head? = some (h0, b) ∧ B.fit base ((samples.map Prod.fst).zip h0) none false = .ok b
  last : st.hist.getLast? = some (st.hs, st.base) ∧ st.w = B.w st.base
  chain : ∀ (i : ℕ) (a b : List H × σ), st.hist[i]? = some a → st.hist[i + 1]? = some b →
    Follows L B same samples a b

theorem refit_ok {B : Base σ X H} {samples : List (X × Y)} {st st' : LatentSSVM.St σ H} {h : List H}
    {cons : Option (List (List (NCon H)))} {warm : Bool} (hr : refit B samples st h cons warm = .ok st') :
    ∃ b, B.fit st.base ((samples.map Prod.fst).zip h) cons warm = .ok b ∧
      st' = ⟨b, B.w b, h, st.hist ++ [(h, b)]⟩ := by
  unfold refit at hr
  cases hb : B.fit st.base ((samples.map Prod.fst).zip h) cons warm with
  | error err => rw [hb] at hr; cases hr
  | ok b =>
    rw [hb] at hr
    simp only [Except.ok.injEq] at hr
    exact ⟨b, rfl, hr.symm⟩

theorem iteration_zero {L : LModel X Y H} {B : Base σ X H} {same : H → H → Bool} {samples : List (X × Y)}
    {st st' : LatentSSVM.St σ H} {fl : Bool} (h : LatentSSVM.iteration L B same samples 0 st = .ok (st', fl)) :
    fl = false ∧ refit B samples st st.hs none false = .ok st' := by
  unfold LatentSSVM.iteration at h
  rw [if_pos rfl] at h
  cases hr : refit B samples st st.hs none false with
  | error err => rw [hr] at h; cases h
  | ok st1 =>
    rw [hr] at h
    simp only [Except.ok.injEq, Prod.mk.injEq] at h
    exact ⟨h.2.symm, by rw [h.1]⟩

theorem iteration_succ {L : LModel X Y H} {B : Base σ X H} {same : H → H → Bool} {samples : List (X × Y)} {it : ℕ}
    (hit : it ≠ 0) {st st' : LatentSSVM.St σ H} {fl : Bool}
    (h : LatentSSVM.iteration L B same samples it st = .ok (st', fl)) :
    (fl = true ∧ st' = st ∧
      ∀ p ∈ (samples.map fun s => L.latent s.1 s.2 st.w).zip st.hs, same p.1 p.2 = true) ∨
    (fl = false ∧ (∃ p ∈ (samples.map fun s => L.latent s.1 s.2 st.w).zip st.hs, same p.1 p.2 = false) ∧
      refit B samples st (samples.map fun s => L.latent s.1 s.2 st.w) ((B.constraints st.base).map
        (recomputed L.m samples (samples.map fun s => L.latent s.1 s.2 st.w) st.w)) true = .ok st') := by
  unfold LatentSSVM.iteration at h
  rw [if_neg hit] at h
  have hcomp : LatentSSVM.completions L samples st.w = samples.map fun s => L.latent s.1 s.2 st.w := rfl
  rw [hcomp] at h
  by_cases hall : (((samples.map fun s => L.latent s.1 s.2 st.w).zip st.hs).all fun p => same p.1 p.2) = true
  · rw [if_pos hall] at h
    simp only [Except.ok.injEq, Prod.mk.injEq] at h
    exact .inl ⟨h.2.symm, h.1.symm, List.all_eq_true.mp hall⟩
  · rw [if_neg hall] at h
    refine .inr ?_
    cases hr : refit B samples st (samples.map fun s => L.latent s.1 s.2 st.w)
        ((B.constraints st.base).map (recomputed L.m samples (samples.map fun s => L.latent s.1 s.2 st.w) st.w))
        true with
    | error err => rw [hr] at h; cases h
    | ok st1 =>
      rw [hr] at h
      simp only [Except.ok.injEq, Prod.mk.injEq] at h
      refine ⟨h.2.symm, ?_, by rw [← h.1]⟩
      rw [Bool.not_eq_true, List.all_eq_false] at hall
      obtain ⟨p, hp, hs⟩ := hall
      exact ⟨p, hp, by simpa using hs⟩

theorem histOK_step {L : LModel X Y H} {B : Base σ X H} {same : H → H → Bool} {samples : List (X × Y)} {base : σ}
    {h0 : List H} {st st' : LatentSSVM.St σ H}
    (hI : HistOK L B same samples base h0 st)
    (hch : ∃ p ∈ (samples.map fun s => L.latent s.1 s.2 st.w).zip st.hs, same p.1 p.2 = false)
    (hr : refit B samples st (samples.map fun s => L.latent s.1 s.2 st.w) ((B.constraints st.base).map
      (recomputed L.m samples (samples.map fun s => L.latent s.1 s.2 st.w) st.w)) true = .ok st') :
    HistOK L B same samples base h0 st' := by
  obtain ⟨b, hb, rfl⟩ := refit_ok hr
  obtain ⟨⟨b0, h1, h2⟩, ⟨h3, h4⟩, h5⟩ := hI
  refine ⟨⟨b0, ?_, h2⟩, ⟨by simp, rfl⟩, ?_⟩
  · simp only
    rw [List.head?_append, h1]
    rfl
  · intro i a c ha hc
    simp only at ha hc
    have hlt : i + 1 < (st.hist ++ [((samples.map fun s => L.latent s.1 s.2 st.w), b)]).length :=
      (List.getElem?_eq_some_iff.mp hc).1
    rw [List.length_append, List.length_singleton] at hlt
    rw [List.getElem?_append_left (by omega)] at ha
    by_cases hi : i + 1 < st.hist.length
    · rw [List.getElem?_append_left hi] at hc
      exact h5 i a c ha hc
    · have hi' : i + 1 = st.hist.length := by omega
      rw [hi', List.getElem?_concat_length] at hc
      have hla : a = (st.hs, st.base) := by
        rw [List.getLast?_eq_getElem?, ← hi', Nat.add_sub_cancel, ha] at h3
        exact Option.some.inj h3
      have hc := (Option.some.inj hc).symm
      subst hc hla
      refine ⟨by rw [← h4], hch, by rw [← h4]; exact hb⟩

theorem loop_hist {L : LModel X Y H} {B : Base σ X H} {same : H → H → Bool} {samples : List (X × Y)} {base : σ}
    {h0 : List H} {fuel it : ℕ} (hit : it ≠ 0) {st st' : LatentSSVM.St σ H} {fl : Bool}
    (hI : HistOK L B same samples base h0 st)
    (h : LatentSSVM.loop L B same samples fuel it st = .ok (st', fl)) :
    HistOK L B same samples base h0 st' ∧ st'.hist.length ≤ st.hist.length + fuel ∧
    (fl = false → st'.hist.length = st.hist.length + fuel) ∧
    (fl = true → ∀ p ∈ (samples.map fun s => L.latent s.1 s.2 st'.w).zip st'.hs, same p.1 p.2 = true) := by
  induction fuel generalizing it st with
  | zero =>
    simp only [LatentSSVM.loop, Except.ok.injEq, Prod.mk.injEq] at h
    obtain ⟨rfl, rfl⟩ := h
    exact ⟨hI, le_rfl, fun _ => rfl, fun h => by cases h⟩
  | succ fuel ih =>
    unfold LatentSSVM.loop at h
    cases hi : LatentSSVM.iteration L B same samples it st with
    | error err => rw [hi] at h; cases h
    | ok r =>
      obtain ⟨st1, f1⟩ := r
      rw [hi] at h
      rcases iteration_succ hit hi with ⟨rfl, rfl, hall⟩ | ⟨rfl, hch, hr⟩
      · simp only [Except.ok.injEq, Prod.mk.injEq] at h
        obtain ⟨rfl, rfl⟩ := h
        exact ⟨hI, by omega, fun h => Bool.noConfusion h, fun _ => hall⟩
      · simp only at h
        obtain ⟨i1, i2, i3, i4⟩ := ih (by omega) (histOK_step hI hch hr) h
        obtain ⟨b, -, rfl⟩ := refit_ok hr
        simp only [List.length_append, List.length_singleton] at i2 i3
        exact ⟨i1, by omega, fun h => by have := i3 h; omega, i4⟩

/-- **C57, what `fit` does.** For every base learner and every number `n + 1` of iterations: the base learner is
first fitted to the given completions (or those of `init_latent`); every further call is a warm start with
completions computed from the weights of the call before, some of which have changed; there are at most
`n + 1` calls, fewer only if the loop ends because the last weights do not change any completion. -/
theorem C57_run (L : LModel X Y H) (B : Base σ X H) (same : H → H → Bool) (n : ℕ) (base : σ)
    (samples : List (X × Y)) (hInit : Option (List H)) (st : LatentSSVM.St σ H) (fl : Bool)
    (h : LatentSSVM.fit L B same (n + 1) base samples hInit = .ok (st, fl)) :
    HistOK L B same samples base (hInit.getD (L.initLatent samples)) st ∧ st.hist.length ≤ n + 1 ∧
    (fl = false → st.hist.length = n + 1) ∧
    (fl = true → ∀ p ∈ (samples.map fun s => L.latent s.1 s.2 st.w).zip st.hs, same p.1 p.2 = true) := by
  unfold LatentSSVM.fit LatentSSVM.loop at h
  cases hi : LatentSSVM.iteration L B same samples 0
      ⟨base, fun _ => 0, hInit.getD (L.initLatent samples), []⟩ with
  | error err => rw [hi] at h; cases h
  | ok r =>
    obtain ⟨st1, f1⟩ := r
    rw [hi] at h
    obtain ⟨rfl, hr⟩ := iteration_zero hi
    simp only at h
    obtain ⟨b, hb, rfl⟩ := refit_ok hr
    obtain ⟨i1, i2, i3, i4⟩ := loop_hist (base := base) (h0 := hInit.getD (L.initLatent samples)) (by omega) ⟨⟨b, rfl, hb⟩, ⟨rfl, rfl⟩, by
      intro i a c ha hc
      simp at hc⟩ h
    simp only [List.nil_append, List.length_singleton] at i2 i3
    exact ⟨i1, by omega, fun h => by have := i3 h; omega, i4⟩

/-- **C57, one step.** Let latent completion be exact and the loss depend only on the labels. If a call of the
base learner reaches, for the completions it is given, an objective at most `ε` above that of the weights it
starts from, the latent objective rises by at most `ε`; for an exact base learner, `ε = 0`. -/
theorem C57_step (L : LModel X Y H) (B : Base σ X H) (same : H → H → Bool) (samples : List (X × Y))
    (outputs : X → Set H) (completions : X → Y → Set H) (C : ℚ) (hC : 0 ≤ C)
    (hlab : (problemOf L.m outputs).LabelOnly completions samples)
    (hlat : (problemOf L.m outputs).ExactCompletion completions L.latent samples)
    (a b : List H × σ) (hab : Follows L B same samples a b) (ε : ℚ)
    (hε : ∀ u v, (problemOf L.m outputs).IsObjective C ((samples.map Prod.fst).zip b.1) (B.w a.2) u →
      (problemOf L.m outputs).IsObjective C ((samples.map Prod.fst).zip b.1) (B.w b.2) v → v ≤ u + ε)
    (u v : ℚ) (hu : (problemOf L.m outputs).IsLatentObjective completions C samples (B.w a.2) u)
    (hv : (problemOf L.m outputs).IsLatentObjective completions C samples (B.w b.2) v) : v ≤ u + ε := by
  obtain ⟨hb1, -, -⟩ := hab
  rw [hb1, zip_completed] at hε
  obtain ⟨v', hv', hle⟩ := latentObjective_le hlab hC (f := fun s => L.latent s.1 s.2 (B.w a.2))
    (fun s hs => (hlat s hs _).1) hv
  exact le_trans hle (hε u v' ((latentObjective_iff hlab hlat C _ u).mp hu) hv')

/-- the base learner returns optimal weights, whatever it starts from. -/
def Base.Exact (B : Base σ X H) (P : Problem X H) (C : ℚ) (samples : List (X × Y)) (completions : X → Y → Set H) :
    Prop :=
  ∀ b hs cons warm b', List.Forall₂ (fun s h => h ∈ completions s.1 s.2) samples hs →
    B.fit b ((samples.map Prod.fst).zip hs) cons warm = .ok b' → ∀ w u v,
    P.IsObjective C ((samples.map Prod.fst).zip hs) w u →
    P.IsObjective C ((samples.map Prod.fst).zip hs) (B.w b') v → v ≤ u

theorem forall₂_latent {P : Problem X H} {completions : X → Y → Set H} {lat : X → Y → (ℕ → ℚ) → H}
    {samples : List (X × Y)} (hlat : P.ExactCompletion completions lat samples) (w : ℕ → ℚ) :
    List.Forall₂ (fun s h => h ∈ completions s.1 s.2) samples (samples.map fun s => lat s.1 s.2 w) := by
  rw [List.forall₂_map_right_iff, List.forall₂_same]
  exact fun s hs => (hlat s hs w).1

/-- **C57, descent.** With exact latent completion, a loss that depends only on the labels, and an exact base
learner, the latent objective never increases from one outer iteration to a later one. -/
theorem C57_descent (L : LModel X Y H) (B : Base σ X H) (same : H → H → Bool) (n : ℕ) (base : σ)
    (samples : List (X × Y)) (hInit : Option (List H)) (outputs : X → Set H) (completions : X → Y → Set H)
    (C : ℚ) (hC : 0 ≤ C) (hLA : (problemOf L.m outputs).ExactLossAug (fun x y w => L.m.lossAug x y w true))
    (hlab : (problemOf L.m outputs).LabelOnly completions samples)
    (hlat : (problemOf L.m outputs).ExactCompletion completions L.latent samples)
    (hB : Base.Exact B (problemOf L.m outputs) C samples completions) (st : LatentSSVM.St σ H) (fl : Bool)
    (h : LatentSSVM.fit L B same (n + 1) base samples hInit = .ok (st, fl)) (i j : ℕ) (hij : i ≤ j)
    (a b : List H × σ) (ha : st.hist[i]? = some a) (hb : st.hist[j]? = some b) :
    ∃ u v, (problemOf L.m outputs).IsLatentObjective completions C samples (B.w a.2) u ∧
      (problemOf L.m outputs).IsLatentObjective completions C samples (B.w b.2) v ∧ v ≤ u := by
  have hex : ∀ w, ∃ u, (problemOf L.m outputs).IsLatentObjective completions C samples w u := by
    intro w
    simp only [latentObjective_iff hlab hlat]
    have hl : (problemOf L.m outputs).Labelled (completed samples fun s => L.latent s.1 s.2 w) := by
      intro t ht
      obtain ⟨s, hs, rfl⟩ := List.mem_map.mp ht
      exact (hlab s hs _ (hlat s hs w).1).1
    by_cases hne : completed samples (fun s => L.latent s.1 s.2 w) = []
    · rw [hne]
      exact ⟨_, [], .nil, rfl⟩
    · obtain ⟨obj, -, ho⟩ := C30_objective L.m outputs hLA _ hl hne w C true
      exact ⟨obj, ho⟩
  obtain ⟨u, hu⟩ := hex (B.w a.2)
  obtain ⟨v, hv⟩ := hex (B.w b.2)
  refine ⟨u, v, hu, hv, ?_⟩
  obtain ⟨hI, -⟩ := C57_run L B same n base samples hInit st fl h
  induction j, hij using Nat.le_induction generalizing b v with
  | base =>
    rw [ha] at hb
    have := Option.some.inj hb
    subst this
    rw [latentObjective_iff hlab hlat] at hu hv
    exact le_of_eq (objective_unique hv hu)
  | succ j hij ih =>
    have hlt : j + 1 < st.hist.length := (List.getElem?_eq_some_iff.mp hb).1
    have hc : st.hist[j]? = some st.hist[j] := List.getElem?_eq_getElem (by omega)
    obtain ⟨z, hz⟩ := hex (B.w (st.hist[j]).2)
    have h1 := ih _ hc z hz
    have hfol := hI.chain j _ b hc hb
    have h2 := C57_step L B same samples outputs completions C hC hlab hlat _ b hfol 0 (by
      intro u v hu hv
      obtain ⟨e1, -, e2⟩ := hfol
      rw [add_zero]
      refine hB _ _ _ true _ ?_ e2 _ u v hu hv
      rw [e1]
      exact forall₂_latent hlat _) z v hz hv
    linarith

/-- **C57, fixed point.** If the loop ends because no completion changed, the final completions are those that
the final weights choose, and with an exact base learner the final weights minimise the objective for these
completions; its value is the latent objective of the weights. -/
theorem C57_fixed_point (L : LModel X Y H) (B : Base σ X H) (same : H → H → Bool)
    (hsame : ∀ h h', same h h' = true → h = h') (n : ℕ) (base : σ)
    (samples : List (X × Y)) (hInit : Option (List H)) (outputs : X → Set H) (completions : X → Y → Set H)
    (C : ℚ) (hlab : (problemOf L.m outputs).LabelOnly completions samples)
    (hlat : (problemOf L.m outputs).ExactCompletion completions L.latent samples)
    (hB : Base.Exact B (problemOf L.m outputs) C samples completions)
    (hinit : List.Forall₂ (fun s h => h ∈ completions s.1 s.2) samples (hInit.getD (L.initLatent samples)))
    (st : LatentSSVM.St σ H) (h : LatentSSVM.fit L B same (n + 1) base samples hInit = .ok (st, true)) :
    st.hs = samples.map (fun s => L.latent s.1 s.2 (B.w st.base)) ∧
    ∀ v, (problemOf L.m outputs).IsLatentObjective completions C samples (B.w st.base) v →
      (problemOf L.m outputs).IsObjective C ((samples.map Prod.fst).zip st.hs) (B.w st.base) v ∧
      ∀ w u, (problemOf L.m outputs).IsObjective C ((samples.map Prod.fst).zip st.hs) w u → v ≤ u := by
  obtain ⟨hI, -, -, hall⟩ := C57_run L B same n base samples hInit st true h
  have hall := hall rfl
  obtain ⟨⟨b0, hf1, hf2⟩, ⟨hl1, hl2⟩, hch⟩ := hI
  rw [hl2] at hall
  -- the last call of the base learner
  have hlast : ∃ b cons warm, B.fit b ((samples.map Prod.fst).zip st.hs) cons warm = .ok st.base ∧
      List.Forall₂ (fun s h => h ∈ completions s.1 s.2) samples st.hs := by
    obtain ⟨k, hk⟩ : ∃ k, st.hist.length = k + 1 := by
      cases hL : st.hist with
      | nil => rw [hL] at hl1; cases hl1
      | cons a l => exact ⟨l.length, rfl⟩
    rw [List.getLast?_eq_getElem?, hk, Nat.add_sub_cancel] at hl1
    cases k with
    | zero =>
      rw [List.head?_eq_getElem?, hl1] at hf1
      simp only [Option.some.injEq, Prod.mk.injEq] at hf1
      refine ⟨base, none, false, ?_, ?_⟩
      · rw [hf1.1, hf1.2]; exact hf2
      · rw [hf1.1]; exact hinit
    | succ k =>
      have hc : st.hist[k]? = some st.hist[k] := List.getElem?_eq_getElem (by omega)
      obtain ⟨e1, -, e2⟩ := hch k _ _ hc hl1
      refine ⟨_, _, true, e2, ?_⟩
      simp only at e1
      rw [e1]
      exact forall₂_latent hlat _
  obtain ⟨b, cons, warm, hfit, hmem⟩ := hlast
  have hlen : st.hs.length = samples.length := hmem.length_eq.symm
  have heq : st.hs = samples.map (fun s => L.latent s.1 s.2 (B.w st.base)) := by
    refine List.ext_getElem (by simp [hlen]) fun i hi1 hi2 => ?_
    have hz : i < ((samples.map fun s => L.latent s.1 s.2 (B.w st.base)).zip st.hs).length := by
      rw [List.length_zip]; omega
    have := hsame _ _ (hall _ (List.getElem_mem hz))
    rw [List.getElem_zip] at this
    exact this.symm
  refine ⟨heq, fun v hv => ?_⟩
  have hv' : (problemOf L.m outputs).IsObjective C ((samples.map Prod.fst).zip st.hs) (B.w st.base) v := by
    rw [latentObjective_iff hlab hlat, ← zip_completed, ← heq] at hv
    exact hv
  exact ⟨hv', fun w u hu => hB b st.hs cons warm st.base hmem hfit w u v hu hv'⟩

/-- **C57, constraints.** The constraints that are handed to a `NSlackSSVM` keep their outputs and hold for the
new completions: joint-feature difference and loss are those of the completion against the output. -/
theorem C57_constraints (m : SModel X H) (samples : List (X × Y)) (f : X × Y → H) (w : W)
    (cs : List (List (NCon H))) (i : ℕ) (s : X × Y) (l : List (NCon H)) (hi : samples[i]? = some s)
    (hl : cs[i]? = some l) :
    ∃ l', (recomputed m samples (samples.map f) w cs)[i]? = some l' ∧
      List.Forall₂ (fun c c' => c'.yhat = c.yhat ∧ c'.loss = m.lossOf (f s) c.yhat ∧
        ∀ k, c'.dj k = m.feat s.1 (f s) (f s) k - m.feat s.1 c.yhat (f s) k) l l' := by
  have hlt : i < samples.length := (List.getElem?_eq_some_iff.mp hi).1
  refine ⟨_, by
    unfold recomputed
    rw [List.getElem?_map, List.getElem?_range hlt]
    simp only [Option.map_some, hi, hl, List.getElem?_map]
    rfl, ?_⟩
  rw [List.forall₂_map_right_iff, List.forall₂_same]
  intro c _
  refine ⟨rfl, rfl, fun k => ?_⟩
  change -m.feat s.1 c.yhat (f s) k + m.feat s.1 (f s) (f s) k = _
  ring

/-! ### base learners without warm start -/

/-- `FrankWolfeSSVM` as base learner: `fit(X, Y, constraints=None, initialize=True)`,
`pystruct/learners/frankwolfe_ssvm.py` line 270, has no parameter `warm_start`. -/
def frankWolfeBase (m : SModel X H) (order : ℕ → List ℕ) : Base FrankWolfe.Obj X H where
  fit := fun o data _ warm => if warm then .error .typeError else FrankWolfe.fit m order o data
  w := fun o => o.w.getD fun _ => 0
  constraints := fun _ => none

/-- **C80 violated.** With `FrankWolfeSSVM` as base learner, `fit` raises `TypeError` as soon as a completion
changes: for all data and at least two iterations, if the weights of the first call change a completion. -/
theorem C80_violated_frank_wolfe (L : LModel X Y H) (order : ℕ → List ℕ) (same : H → H → Bool) (n : ℕ)
    (o o1 : FrankWolfe.Obj) (samples : List (X × Y)) (hInit : Option (List H))
    (h1 : FrankWolfe.fit L.m order o ((samples.map Prod.fst).zip (hInit.getD (L.initLatent samples))) = .ok o1)
    (hch : ∃ p ∈ (samples.map fun s => L.latent s.1 s.2 (o1.w.getD fun _ => 0)).zip
      (hInit.getD (L.initLatent samples)), same p.1 p.2 = false) :
    LatentSSVM.fit L (frankWolfeBase L.m order) same (n + 2) o samples hInit = .error .typeError := by
  have hr : refit (frankWolfeBase L.m order) samples ⟨o, fun _ => 0, hInit.getD (L.initLatent samples), []⟩
      (hInit.getD (L.initLatent samples)) none false =
      .ok ⟨o1, o1.w.getD fun _ => 0, hInit.getD (L.initLatent samples), [(hInit.getD (L.initLatent samples), o1)]⟩ := by
    have : (frankWolfeBase L.m order).fit o ((samples.map Prod.fst).zip (hInit.getD (L.initLatent samples))) none
        false = .ok o1 := h1
    unfold refit
    simp only [this]
    rfl
  have hi : LatentSSVM.iteration L (frankWolfeBase L.m order) same samples 0
      ⟨o, fun _ => 0, hInit.getD (L.initLatent samples), []⟩ =
      .ok (⟨o1, o1.w.getD fun _ => 0, hInit.getD (L.initLatent samples), [(hInit.getD (L.initLatent samples), o1)]⟩,
        false) := by
    unfold LatentSSVM.iteration
    rw [if_pos rfl]
    simp only [hr]
  have hi' : LatentSSVM.iteration L (frankWolfeBase L.m order) same samples 1
      ⟨o1, o1.w.getD fun _ => 0, hInit.getD (L.initLatent samples), [(hInit.getD (L.initLatent samples), o1)]⟩ =
      .error .typeError := by
    unfold LatentSSVM.iteration
    rw [if_neg (by decide), if_neg (by
      rw [Bool.not_eq_true, List.all_eq_false]
      obtain ⟨p, hp, hs⟩ := hch
      exact ⟨p, hp, by simpa using hs⟩)]
    rfl
  unfold LatentSSVM.fit LatentSSVM.loop
  rw [hi]
  simp only
  unfold LatentSSVM.loop
  rw [hi']

/-! ### an example -/

/-- One feature; outputs 0 and 1 have the label 0, output 2 has the label 1. -/
def hiddenModel : SModel Unit ℕ where
  dim := 1
  jointFeature := fun _ h _ => if h = 0 then 1 / 2 else if h = 1 then 1 else 0
  rescaleC := false
  jointFeatureR := fun _ _ _ _ => 0
  lossAug := fun _ y w _ => argmaxN (fun h => (if (y = 2) ↔ (h = 2) then 0 else 1) +
    w 0 * (if h = 0 then 1 / 2 else if h = 1 then 1 else 0)) 3
  inference := fun _ w => argmaxN (fun h => w 0 * (if h = 0 then 1 / 2 else if h = 1 then 1 else 0)) 3
  isTuple := fun _ => false
  loss := fun y h => if (y = 2) ↔ (h = 2) then 0 else 1
  continuousLoss := fun _ _ => 0
  maxLoss := fun _ => 1

def hiddenLatent : LModel Unit ℕ ℕ where
  m := hiddenModel
  initLatent := fun samples => samples.map fun _ => 0
  latent := fun _ y w => if y = 0 then argmaxN (fun h => w 0 * (if h = 0 then 1 / 2 else 1)) 2 else 2
  labelFromLatent := fun h => if h = 2 then 1 else 0
  baseLoss := fun y y' => if y = y' then 0 else 1
  maxLoss := fun _ => 1

/-- base learner for one sample and `C = 1`, from a table. -/
def hiddenBase : Base ℚ Unit ℕ where
  fit := fun _ data _ _ => if data = [((), 0)] then .ok (1 / 2) else if data = [((), 1)] then .ok 1
    else .error .valueError
  w := fun q _ => q
  constraints := fun _ => none

/-- the completions of a label. -/
def hiddenCompletions (_ : Unit) (y : ℕ) : Set ℕ := if y = 0 then {h | h < 2} else {2}

theorem hidden_value (o : Unit → Set ℕ) (w : ℕ → ℚ) (h g : ℕ) : (problemOf hiddenModel o).value w () h g =
    w 0 * (if g = 0 then 1 / 2 else if g = 1 then 1 else 0) := by
  unfold Problem.value
  change ∑ k ∈ range 1, _ = _
  rw [sum_range_one]
  rfl

theorem hidden_exact :
    (problemOf hiddenModel fun _ => {h | h < 3}).ExactLossAug (fun x y w => hiddenModel.lossAug x y w true) := by
  rintro ⟨⟩ y w - -
  refine ⟨argmaxN_lt _ (by omega), fun h hh => ?_⟩
  unfold Problem.violation
  rw [hidden_value, hidden_value, hidden_value]
  have := le_argmaxN (fun h => (if (y = 2) ↔ (h = 2) then (0 : ℚ) else 1) +
    w 0 * (if h = 0 then 1 / 2 else if h = 1 then 1 else 0)) (n := 3) (i := h) hh
  exact sub_le_sub_right this _

theorem hidden_labelOnly :
    (problemOf hiddenModel fun _ => {h | h < 3}).LabelOnly hiddenCompletions [((), 0)] := by
  intro s hs h hh
  have : s = ((), 0) := by simpa using hs
  subst this
  have hh : h < 2 := hh
  refine ⟨⟨(by omega : h < 3), ?_⟩, fun h' hh' o => ⟨?_, fun _ => rfl⟩⟩
  · change (if (h = 2) ↔ (h = 2) then (0 : ℚ) else 1) = 0
    simp
  · have hh' : h' < 2 := hh'
    change (if (h = 2) ↔ (o = 2) then (0 : ℚ) else 1) = if (h' = 2) ↔ (o = 2) then 0 else 1
    have e1 : h ≠ 2 := by omega
    have e2 : h' ≠ 2 := by omega
    simp [e1, e2]

theorem hidden_completion :
    (problemOf hiddenModel fun _ => {h | h < 3}).ExactCompletion hiddenCompletions hiddenLatent.latent [((), 0)] := by
  intro s hs w
  have : s = ((), 0) := by simpa using hs
  subst this
  have hlt : hiddenLatent.latent () 0 w < 2 := argmaxN_lt _ (by omega)
  refine ⟨hlt, fun h hh => ?_⟩
  have hh : h < 2 := hh
  rw [hidden_value, hidden_value]
  have := le_argmaxN (fun h => w 0 * (if h = 0 then (1 / 2 : ℚ) else 1)) (n := 2) (i := h) hh
  have key : ∀ g < 2, (if g = 0 then (1 / 2 : ℚ) else if g = 1 then 1 else 0) = if g = 0 then 1 / 2 else 1 := by
    intro g hg
    interval_cases g <;> simp
  rw [key _ hh, key _ hlt]
  exact this

/-- the objective for one completion and `C = 1`. -/
theorem hidden_objective {h : ℕ} (hh : h < 2) {w : ℕ → ℚ} {u : ℚ}
    (hu : (problemOf hiddenModel fun _ => {h | h < 3}).IsObjective 1 [((), h)] w u) :
    w 0 ^ 2 / 2 + (1 - w 0 * (if h = 0 then 1 / 2 else 1)) ≤ u ∧
    u = w 0 ^ 2 / 2 + sampleSlack hiddenModel w ((), h) := by
  obtain ⟨hs, h1, rfl⟩ := hu
  cases h1 with
  | @cons s v l l' hv h2 =>
    cases h2
    have hd : (∑ k ∈ range (problemOf hiddenModel fun _ => {h | h < 3}).dim, w k * w k) = w 0 ^ 2 := by
      change ∑ k ∈ range 1, w k * w k = _
      rw [sum_range_one, sq]
    have hl := (hidden_labelOnly ((), 0) (by simp) h hh).1
    have hsl := (C29_slack hiddenModel (fun _ => {h | h < 3}) true hidden_exact () h w hl.1 hl.2).1
    have hve : v = sampleSlack hiddenModel w ((), h) := hv.unique hsl
    rw [hd, List.sum_singleton, one_mul]
    refine ⟨?_, by rw [hve]⟩
    have h3 := hv.2 ⟨2, (by decide : 2 < 3), rfl⟩
    have h4 : (problemOf hiddenModel fun _ => {h | h < 3}).violation w () h 2 =
        1 - w 0 * (if h = 0 then 1 / 2 else 1) := by
      unfold Problem.violation
      rw [hidden_value, hidden_value]
      change (if (h = 2) ↔ (2 = 2) then (0 : ℚ) else 1) + _ - _ = _
      interval_cases h <;> simp
    simp only at h3
    rw [h4] at h3
    linarith

theorem hidden_base_exact : Base.Exact hiddenBase (problemOf hiddenModel fun _ => {h | h < 3}) 1 [((), 0)]
    hiddenCompletions := by
  intro b hs cons warm b' hmem hfit w u v hu hv
  cases hmem with
  | @cons s h l l' hh h2 =>
    cases h2
    have hh : h < 2 := hh
    change _ = _ at hfit
    have hz : (List.map Prod.fst [((), 0)]).zip [h] = [((), h)] := rfl
    rw [hz] at hfit hu hv
    obtain ⟨a1, -⟩ := hidden_objective hh hu
    obtain ⟨-, a2⟩ := hidden_objective hh hv
    rw [a2]
    interval_cases h
    · have : b' = 1 / 2 := by
        have e : hiddenBase.fit b [((), 0)] cons warm = .ok (1 / 2) := rfl
        rw [e] at hfit
        exact (Except.ok.inj hfit).symm
      subst this
      have hsl : sampleSlack hiddenModel (hiddenBase.w (1 / 2)) ((), 0) = 3 / 4 := by decide +kernel
      have hw : hiddenBase.w (1 / 2) 0 = 1 / 2 := rfl
      rw [hsl, hw]
      simp only [if_pos] at a1
      nlinarith [sq_nonneg (w 0 - 1 / 2)]
    · have : b' = 1 := by
        have e : hiddenBase.fit b [((), 1)] cons warm = .ok 1 := rfl
        rw [e] at hfit
        exact (Except.ok.inj hfit).symm
      subst this
      have hsl : sampleSlack hiddenModel (hiddenBase.w 1) ((), 1) = 0 := by decide +kernel
      have hw : hiddenBase.w 1 0 = 1 := rfl
      rw [hsl, hw]
      simp only [one_ne_zero, if_false] at a1
      nlinarith [sq_nonneg (w 0 - 1)]

/-- The hypotheses of C57 can be met: exact completion and an exact base learner, and a run that changes a
completion once and then stops at a fixed point. -/
example : (LatentSSVM.fit hiddenLatent hiddenBase (fun a b => decide (a = b)) 5 0 [((), 0)] none).toOption.map
    (fun r => (r.1.hist, r.2)) = some ([([0], 1 / 2), ([1], 1)], true) := by decide +kernel

end Verif.Props
