import Verif.Lemmas.Timing
import Verif.Props.C47

/-!
# C138: `timestamps_` holds the total training time, in step with the curves

The documentation of the learners says "Total training time stored before each iteration". The first entry is the
time of the start of the training. `clock 0` is the time at which `fit` starts, `clock 1`, `clock 2`, … are the
readings of the clock that follow. `Spec.totalTimes` is what the documentation promises, `Spec.pause` the time that
passes between two calls of `fit`.
-/

namespace Verif.Props

open Verif.Learner Verif.Timing Verif.Spec Verif.Lemmas

variable {X Y H : Type}

/-- a clock that does not run backwards gives ordered training times after the time that was spent before. -/
theorem C138_ordered {clock : ℕ → ℚ} (h : Monotone clock) (before : ℚ) (n : ℕ) :
    (totalTimes clock before n).Pairwise (· ≤ ·) ∧ ∀ t ∈ totalTimes clock before n, before ≤ t := by
  constructor
  · unfold totalTimes
    rw [List.pairwise_map]
    refine List.pairwise_lt_range.imp fun hab => ?_
    have := h (Nat.succ_le_succ hab.le)
    simp only [Nat.succ_eq_add_one] at this
    linarith
  · intro t ht
    simp only [totalTimes, List.mem_map] at ht
    obtain ⟨i, -, rfl⟩ := ht
    have := h (Nat.zero_le (i + 1))
    linarith

/-- training times that are promised, with a wrong time spent before, are wrong in every entry. -/
theorem totalTimes_shift {clock : ℕ → ℚ} {a b : ℚ} (h : a ≠ b) (n : ℕ) :
    ∀ i < n, (totalTimes clock a n)[i]? ≠ (totalTimes clock b n)[i]? := by
  intro i hi
  simp [totalTimes, hi, h]

/-! ### One-slack learner -/

/-- **One-slack learner**: the training times, one for every entry of the primal objective curve and of the cache
flags, also when training is interrupted or switches the inference method; without interrupt also one for every entry
of the objective curve. -/
theorem C138_one_slack {clock : ℕ → ℚ} {m : SModel X Y} {qp : QP.Solver} {eq : Y → Y → Except PyErr Bool}
    {alt : Option ((X → Y → W → Bool → Y) × (X → W → Y))} {intr : ℕ → Option OneSlack.Phase}
    {o o' : OneSlack.Obj Y} {ts ts' : List ℚ} {samples : List (X × Y)}
    (h : oneFit clock m qp eq alt intr (o, ts) samples .no = .ok (o', ts')) :
    ∃ n a, 2 ≤ n ∧ o'.attrs = some a ∧ ts' = clock 0 :: totalTimes clock 0 n ∧
      a.primalCurve.length = n ∧ a.cachedFlags.length = n ∧
      ((∀ i, intr i = none) → a.objectiveCurve.length = n) := by
  obtain ⟨st, n, a, hs, h1, h2, -, h3, h4, h5, -, h6, -⟩ := one_fit_counts h
  simp only [OneSlack.start, Except.ok.injEq] at hs
  subst hs
  refine ⟨n + 1, a, by omega, h2, ?_, by simpa using h4, by simpa using h5, fun hn => by simpa using h6 hn⟩
  rw [h3, oneStart, push_times, sub_self]
  rfl

/-- **One-slack learner, warm start (partial)**: the new times count the pause since the last training as training.
The promised times (`totalTimes clock took n`) are missing when there is a pause. -/
theorem C138_one_slack_warm_partial {clock : ℕ → ℚ} {m : SModel X Y} {qp : QP.Solver}
    {eq : Y → Y → Except PyErr Bool} {alt : Option ((X → Y → W → Bool → Y) × (X → W → Y))}
    {intr : ℕ → Option OneSlack.Phase} {o o' : OneSlack.Obj Y} {t0 took : ℚ} {r ts' : List ℚ}
    {samples : List (X × Y)} {warm : OneSlack.Warm} (hw : warm ≠ .no)
    (h : oneFit clock m qp eq alt intr (o, t0 :: r ++ [took]) samples warm = .ok (o', ts')) :
    ∃ n a0 a, 2 ≤ n ∧ o.attrs = some a0 ∧ o'.attrs = some a ∧
      ts' = (t0 :: r ++ [took]) ++ totalTimes clock (took + pause t0 took (clock 0)) n ∧
      a.primalCurve.length = a0.primalCurve.length + n ∧ a.cachedFlags.length = a0.cachedFlags.length + n ∧
      ((∀ i, intr i = none) → a.objectiveCurve.length = a0.objectiveCurve.length + n) := by
  obtain ⟨st, n, a, hs, h1, h2, -, h3, h4, h5, -, h6, -⟩ := one_fit_counts h
  have hst : ∃ a0, o.attrs = some a0 ∧ st.primalCurve = a0.primalCurve ∧ st.cachedFlags = a0.cachedFlags ∧
      st.objectiveCurve = a0.objectiveCurve := by
    unfold OneSlack.start at hs
    simp only at hs
    split at hs
    · exact absurd rfl hw
    · rename_i a0 he
      simp only [Except.ok.injEq] at hs
      subst hs
      exact ⟨a0, he, rfl, rfl, rfl⟩
    · rename_i he
      simp only [Except.ok.injEq] at hs
      subst hs
      exact ⟨_, he, rfl, rfl, rfl⟩
    · cases hs
  obtain ⟨a0, e1, e2, e3, e4⟩ := hst
  rw [e2] at h4
  rw [e3] at h5
  rw [e4] at h6
  refine ⟨n + 1, a0, a, by omega, e1, h2, ?_, h4, h5, h6⟩
  have hstart : oneStart clock warm (t0 :: r ++ [took]) = t0 :: (r ++ [took]) := by
    cases warm with
    | no => exact absurd rfl hw
    | soft => rfl
    | yes => rfl
  rw [h3, hstart, push_times, show took + pause t0 took (clock 0) = clock 0 - t0 by unfold pause; ring]
  rfl

/-- With a pause between two calls of `fit`, no time of the second call is the total training time. -/
theorem C138_violated_one_slack_warm {clock : ℕ → ℚ} {m : SModel X Y} {qp : QP.Solver}
    {eq : Y → Y → Except PyErr Bool} {alt : Option ((X → Y → W → Bool → Y) × (X → W → Y))}
    {intr : ℕ → Option OneSlack.Phase} {o o' : OneSlack.Obj Y} {t0 took : ℚ} {r ts' : List ℚ}
    {samples : List (X × Y)} {warm : OneSlack.Warm} (hw : warm ≠ .no) (hp : 0 < pause t0 took (clock 0))
    (h : oneFit clock m qp eq alt intr (o, t0 :: r ++ [took]) samples warm = .ok (o', ts')) :
    ∃ n, 2 ≤ n ∧ ts'.length = r.length + 2 + n ∧
      ∀ i < n, ts'[r.length + 2 + i]? ≠ (totalTimes clock took n)[i]? := by
  obtain ⟨n, -, -, h1, -, -, h2, -⟩ := C138_one_slack_warm_partial hw h
  refine ⟨n, h1, by rw [h2]; simp [totalTimes]; omega, fun i hi => ?_⟩
  rw [h2, List.getElem?_append_right (by simp)]
  have := totalTimes_shift (clock := clock) (a := took + pause t0 took (clock 0)) (b := took) (by linarith [hp.ne']) n i hi
  simpa using this

/-! ### N-slack learner -/

/-- **N-slack learner**: the training times, one for every entry of the two objective curves; an interrupt leaves one
more behind. -/
theorem C138_n_slack {clock : ℕ → ℚ} {m : SModel X Y} {qp : QP.Solver} {eq : Y → Y → Bool}
    {alt : Option ((X → Y → W → Bool → Y) × (X → W → Y))} {intr : ℕ → ℕ → Option OneSlack.Phase}
    {o o' : NSlack.Obj Y} {ts ts' : List ℚ} {samples : List (X × Y)} {out : NSlack.Outcome}
    (h : nFit clock m qp eq alt intr (o, ts) samples none = .ok ((o', ts'), out)) :
    ∃ n a, o'.attrs = some a ∧ ts' = clock 0 :: totalTimes clock 0 (n + if out = .interrupted then 1 else 0) ∧
      a.objectiveCurve.length = n ∧ a.primalCurve.length = n ∧ (out ≠ .interrupted → 2 ≤ n) := by
  obtain ⟨st, n, a, hs, h2, -, h3, h4, h5, -, h6⟩ := n_fit_counts h
  simp only [NSlack.start, Except.ok.injEq] at hs
  subst hs
  refine ⟨n + 1, a, h2, ?_, by simpa using h4, by simpa using h5, fun hn => by have := h6 hn; omega⟩
  rw [h3]
  simp only [Option.isSome_none, Bool.false_eq_true, if_false]
  rw [push_times, sub_self, show n + 1 + (if out = .interrupted then 1 else 0) =
    n + (if out = .interrupted then 1 else 0) + 1 by ring]
  rfl

/-- **N-slack learner that continues with constraints (partial)**: the new times count the pause since the last
training as training. The promised times are missing when there is a pause. -/
theorem C138_n_slack_warm_partial {clock : ℕ → ℚ} {m : SModel X Y} {qp : QP.Solver} {eq : Y → Y → Bool}
    {alt : Option ((X → Y → W → Bool → Y) × (X → W → Y))} {intr : ℕ → ℕ → Option OneSlack.Phase}
    {o o' : NSlack.Obj Y} {t0 took : ℚ} {r ts' : List ℚ} {samples : List (X × Y)}
    {cs : List (List (NSlack.NCon Y))} {out : NSlack.Outcome}
    (h : nFit clock m qp eq alt intr (o, t0 :: r ++ [took]) samples (some cs) = .ok ((o', ts'), out)) :
    ∃ n, ts' = (t0 :: r ++ [took]) ++ totalTimes clock (took + pause t0 took (clock 0)) (n + 1) ∧
      (out ≠ .interrupted → 1 ≤ n) := by
  obtain ⟨st, n, a, -, -, -, h3, -, -, -, h6⟩ := n_fit_counts h
  refine ⟨n + if out = .interrupted then 1 else 0, ?_, fun hn => by have := h6 hn; omega⟩
  rw [h3]
  simp only [Option.isSome_some, if_true]
  have e : t0 :: r ++ [took] = t0 :: (r ++ [took]) := rfl
  rw [e, push_times, show took + pause t0 took (clock 0) = clock 0 - t0 by unfold pause; ring]

/-- With a pause between two calls of `fit`, no time of the second call is the total training time. -/
theorem C138_violated_n_slack_warm {clock : ℕ → ℚ} {m : SModel X Y} {qp : QP.Solver} {eq : Y → Y → Bool}
    {alt : Option ((X → Y → W → Bool → Y) × (X → W → Y))} {intr : ℕ → ℕ → Option OneSlack.Phase}
    {o o' : NSlack.Obj Y} {t0 took : ℚ} {r ts' : List ℚ} {samples : List (X × Y)}
    {cs : List (List (NSlack.NCon Y))} {out : NSlack.Outcome} (hp : 0 < pause t0 took (clock 0))
    (h : nFit clock m qp eq alt intr (o, t0 :: r ++ [took]) samples (some cs) = .ok ((o', ts'), out)) :
    ∃ n, 1 ≤ n ∧ ts'.length = r.length + 2 + n ∧
      ∀ i < n, ts'[r.length + 2 + i]? ≠ (totalTimes clock took n)[i]? := by
  obtain ⟨n, h2, -⟩ := C138_n_slack_warm_partial h
  refine ⟨n + 1, by omega, by rw [h2]; simp [totalTimes]; omega, fun i hi => ?_⟩
  rw [h2, List.getElem?_append_right (by simp)]
  have := totalTimes_shift (clock := clock) (a := took + pause t0 took (clock 0)) (b := took) (by linarith [hp.ne'])
    (n + 1) i hi
  simpa using this

/-! ### Subgradient learners -/

/-- **Subgradient learner**: the training times, one for every entry of the objective curve, that is one for every
pass over the data and one at the end. -/
theorem C138_subgradient {clock : ℕ → ℚ} {m : SModel X Y} {order : ℕ → List (X × Y)} {o o' : Subgradient.Obj}
    {ts ts' : List ℚ} {samples : List (X × Y)} (h : subFit clock m order (o, ts) samples false = .ok (o', ts')) :
    ∃ n, 1 ≤ n ∧ ts' = clock 0 :: totalTimes clock 0 n ∧ o'.curves.objective.length = n ∧
      (o.cfg.breakOnNoConstraints = false → n = o.cfg.maxIter + 1) := by
  obtain ⟨n, h1, -, h2, -, h3⟩ := sub_fit_counts h
  refine ⟨n + 1, by omega, ?_, by simpa using h2, fun hb => by rw [h3 hb]⟩
  rw [h1]
  simp only [subStart, Bool.false_eq_true, if_false]
  rw [push_times, sub_self]
  rfl

/-- **Subgradient learner, warm start (partial)**: the time of the start of the new training is subtracted from the
earlier entries, and the new entries count the pause and the time of day as training. The promised times, and the
earlier entries, are missing. -/
theorem C138_subgradient_warm_partial {clock : ℕ → ℚ} {m : SModel X Y} {order : ℕ → List (X × Y)}
    {o o' : Subgradient.Obj} {t0 took : ℚ} {r ts' : List ℚ} {samples : List (X × Y)}
    (h : subFit clock m order (o, t0 :: r ++ [took]) samples true = .ok (o', ts')) :
    ∃ n, 1 ≤ n ∧ ts' = (t0 :: r ++ [took]).map (· - clock 0) ++
        totalTimes clock (took + pause t0 took (clock 0) + clock 0) n ∧
      o'.curves.objective.length = o.curves.objective.length + n := by
  obtain ⟨n, h1, -, h2, -, -⟩ := sub_fit_counts h
  refine ⟨n + 1, by omega, ?_, by simpa using h2⟩
  rw [h1]
  simp only [subStart, if_true]
  have e : (t0 :: r ++ [took]).map (· - clock 0) = (t0 - clock 0) :: (r ++ [took]).map (· - clock 0) := rfl
  rw [e, push_times]
  congr 2
  unfold pause
  ring

/-- After a warm start every time before is negative, and every new time is more than the time of day too large. -/
theorem C138_violated_subgradient_warm {clock : ℕ → ℚ} {m : SModel X Y} {order : ℕ → List (X × Y)}
    {o o' : Subgradient.Obj} {t0 took : ℚ} {r ts' : List ℚ} {samples : List (X × Y)}
    (h : subFit clock m order (o, t0 :: r ++ [took]) samples true = .ok (o', ts'))
    (hr : ∀ t ∈ t0 :: r ++ [took], t < clock 0) (hp : 0 ≤ pause t0 took (clock 0)) :
    ∃ n, 1 ≤ n ∧ ts'.length = r.length + 2 + n ∧ (∀ t ∈ ts'.take (r.length + 2), t < 0) ∧
      ∀ i < n, ∃ t, ts'[r.length + 2 + i]? = some t ∧ took + (clock (i + 1) - clock 0) + clock 0 ≤ t := by
  obtain ⟨n, h1, h2, -⟩ := C138_subgradient_warm_partial h
  refine ⟨n, h1, by rw [h2]; simp [totalTimes]; omega, ?_, fun i hi => ?_⟩
  · rw [h2, List.take_left' (by simp)]
    intro t ht
    obtain ⟨s, hs, rfl⟩ := List.mem_map.mp ht
    have := hr s hs
    linarith
  · refine ⟨took + pause t0 took (clock 0) + clock 0 + (clock (i + 1) - clock 0), ?_, by linarith⟩
    rw [h2, List.getElem?_append_right (by simp)]
    simp [totalTimes, hi]

/-- **Subgradient learner for latent variables**: the training times, one for every entry of the objective curve; a
last pass that finds no violated constraint can leave one more behind. -/
theorem C138_latent {clock : ℕ → ℚ} {L : SubgradientLatent.SLModel X Y H} {jobs : SubgradientLatent.Jobs} {w0 : W}
    {o o' : Subgradient.Obj} {ts ts' : List ℚ} {samples : List (X × Y)}
    (h : latFit clock L jobs w0 (o, ts) samples false = .ok (o', ts')) :
    ∃ n e, 1 ≤ n ∧ e ≤ 1 ∧ ts' = clock 0 :: totalTimes clock 0 (n + e) ∧ o'.curves.objective.length = n ∧
      (o.cfg.breakOnNoConstraints = false → n = o.cfg.maxIter + 1 ∧ e = 0) := by
  obtain ⟨n, e, h1, -, h2, -, h3, h4⟩ := lat_fit_counts h
  refine ⟨n + 1, e, by omega, h3, ?_, by simpa using h2, fun hb => ⟨by rw [(h4 hb).1], (h4 hb).2⟩⟩
  rw [h1]
  simp only [latStart, Bool.false_eq_true, if_false]
  rw [push_times, sub_self, show n + 1 + e = n + e + 1 by ring]
  rfl

/-- **Subgradient learner for latent variables, warm start**: the new entries are the total training times of all
calls of `fit`; the earlier ones stay. -/
theorem C138_latent_warm {clock : ℕ → ℚ} {L : SubgradientLatent.SLModel X Y H} {jobs : SubgradientLatent.Jobs} {w0 : W}
    {o o' : Subgradient.Obj} {t0 took : ℚ} {r ts' : List ℚ} {samples : List (X × Y)}
    (h : latFit clock L jobs w0 (o, t0 :: r ++ [took]) samples true = .ok (o', ts')) :
    ∃ n e, 1 ≤ n ∧ e ≤ 1 ∧ ts' = (clock 0 - took) :: r ++ [took] ++ totalTimes clock took (n + e) ∧
      o'.curves.objective.length = o.curves.objective.length + n ∧
      (o.cfg.breakOnNoConstraints = false → n = o.cfg.maxIter + 1 ∧ e = 0) := by
  obtain ⟨n, e, h1, -, h2, -, h3, h4⟩ := lat_fit_counts h
  refine ⟨n + 1, e, by omega, h3, ?_, by simpa using h2, fun hb => ⟨by rw [(h4 hb).1], (h4 hb).2⟩⟩
  rw [h1]
  have hs : latStart clock true (t0 :: r ++ [took]) = (clock 0 - took) :: (r ++ [took]) := by
    unfold latStart
    rw [if_pos rfl, List.getLast?_append]
    rfl
  rw [hs, push_times, show n + 1 + e = n + e + 1 by ring, sub_sub_cancel]
  rfl

/-! ### Frank-Wolfe learner -/

/-- **Frank-Wolfe learner**: the training times, one for every entry of the dual and the primal objective curve. -/
theorem C138_frank_wolfe {clock : ℕ → ℚ} {m : SModel X Y} {order : ℕ → List ℕ} {o o' : FrankWolfe.Obj}
    {ts' : List ℚ} {samples : List (X × Y)} (h : fwFit clock m order o samples = .ok (o', ts')) :
    ∃ n, 2 ≤ n ∧ ts' = clock 0 :: totalTimes clock 0 n ∧
      o'.curves.dual.length = n ∧ o'.curves.primal.length = n := by
  obtain ⟨n, h1, h2, -, h3, h4⟩ := fw_fit_counts h
  refine ⟨n + 1, by omega, ?_, h3, h4⟩
  rw [h2, push_times, sub_self]
  rfl

/-! ### Examples -/

/-- A clock that starts at 1000 and advances by 1 between two readings. -/
def exampleClock (k : ℕ) : ℚ := 1000 + k

example : Monotone exampleClock := fun a b h => by unfold exampleClock; exact_mod_cast Nat.add_le_add_left h 1000

/-- A one-slack run with an iteration. -/
example : ∃ o', oneFit exampleClock exampleTable exampleSolver natEq none (fun _ => none) (curveOS, []) [((), 0)] .no =
    .ok (o', [1000, 1, 2]) := by
  obtain ⟨a, h1, h2⟩ := isOkWith_iff (e := oneFit exampleClock exampleTable exampleSolver natEq none (fun _ => none)
    (curveOS, []) [((), 0)] .no) (f := fun r => r.2) (b := [1000, 1, 2]) (by decide +kernel)
  exact ⟨a.1, by rw [h1, ← h2]⟩

/-- It is continued after a pause of 998: the times jump. -/
example : ∃ o1 o2, oneFit (fun k => k) exampleTable exampleSolver natEq none (fun _ => none) (curveOS, []) [((), 0)] .no =
      .ok (o1, [0, 1, 2]) ∧
    oneFit exampleClock exampleTable exampleSolver natEq none (fun _ => none) (o1, 0 :: [1] ++ [2]) [((), 0)] .soft =
      .ok (o2, [0, 1, 2, 1001, 1002]) ∧ pause 0 2 (exampleClock 0) = 998 := by
  have h : isOkWith (oneFit (fun k => k) exampleTable exampleSolver natEq none (fun _ => none) (curveOS, [])
      [((), 0)] .no) (fun r => (r.2, isOkWith (oneFit exampleClock exampleTable exampleSolver natEq none (fun _ => none)
        (r.1, 0 :: [1] ++ [2]) [((), 0)] .soft) (fun r => r.2) [0, 1, 2, 1001, 1002])) ([0, 1, 2], true) = true := by
    decide +kernel
  obtain ⟨a, h1, h2⟩ := isOkWith_iff h
  simp only [Prod.mk.injEq] at h2
  obtain ⟨b, h3, h4⟩ := isOkWith_iff h2.2
  exact ⟨a.1, b.1, by rw [h1, ← h2.1], by rw [h3, ← h4], by decide +kernel⟩

/-- An n-slack run with two iterations. -/
example : ∃ o', nFit exampleClock exampleTable exampleNSolver natBeq none (fun _ _ => none) (curveNS, [])
    [((), 0), ((), 0)] none = .ok ((o', [1000, 1, 2, 3]), .stopped true) := by
  obtain ⟨a, h1, h2⟩ := isOkWith_iff (e := nFit exampleClock exampleTable exampleNSolver natBeq none (fun _ _ => none)
    (curveNS, []) [((), 0), ((), 0)] none) (f := fun r => (r.1.2, r.2)) (b := ([1000, 1, 2, 3], .stopped true))
    (by decide +kernel)
  simp only [Prod.mk.injEq] at h2
  exact ⟨a.1.1, by rw [h1, ← h2.1, ← h2.2]⟩

/-- It is continued from its constraints. -/
example : ∃ o1 cs o2 out, nFit (fun k => k) exampleTable exampleNSolver natBeq none (fun _ _ => none) (curveNS, [])
      [((), 0), ((), 0)] none = .ok ((o1, [0, 1, 2, 3]), .stopped true) ∧
    nFit exampleClock exampleTable exampleNSolver natBeq none (fun _ _ => none) (o1, 0 :: [1, 2] ++ [3])
      [((), 0), ((), 0)] (some cs) = .ok ((o2, [0, 1, 2, 3, 1001, 1002]), out) ∧
    0 < pause 0 3 (exampleClock 0) := by
  have h : isOkWith (nFit (fun k => k) exampleTable exampleNSolver natBeq none (fun _ _ => none) (curveNS, [])
      [((), 0), ((), 0)] none) (fun r => (r.1.2, r.2, isOkWith (nFit exampleClock exampleTable exampleNSolver natBeq none
        (fun _ _ => none) (r.1.1, 0 :: [1, 2] ++ [3]) [((), 0), ((), 0)] (some [[exampleCon 0], [exampleCon 0]])) (fun r => r.1.2)
        [0, 1, 2, 3, 1001, 1002])) ([0, 1, 2, 3], .stopped true, true) = true := by
    decide +kernel
  obtain ⟨a, h1, h2⟩ := isOkWith_iff h
  simp only [Prod.mk.injEq] at h2
  obtain ⟨b, h3, h4⟩ := isOkWith_iff h2.2.2
  exact ⟨a.1.1, _, b.1.1, b.2, by rw [h1, ← h2.1, ← h2.2.1], by rw [h3, ← h4], by decide +kernel⟩

/-- A subgradient learner that is trained with three passes. -/
def timedSub : Subgradient.Obj :=
  ⟨⟨3, 1, 0, some (1 / 2), fun _ => 1, false, none, .none, false, 1, 2⟩, none, 0, none, ⟨[], []⟩⟩

/-- A subgradient run and its continuation. -/
example : ∃ o1 o2, subFit (fun k => k) exampleTable (fun _ => [((), 0), ((), 0)]) (timedSub, []) [((), 0), ((), 0)] false =
      .ok (o1, [0, 1, 2, 3, 4]) ∧
    subFit exampleClock exampleTable (fun _ => [((), 0), ((), 0)]) (o1, 0 :: [1, 2, 3] ++ [4]) [((), 0), ((), 0)] true =
      .ok (o2, [-1000, -999, -998, -997, -996, 2001, 2002, 2003, 2004]) ∧ pause 0 4 (exampleClock 0) = 996 := by
  have h : isOkWith (subFit (fun k => k) exampleTable (fun _ => [((), 0), ((), 0)]) (timedSub, []) [((), 0), ((), 0)]
      false) (fun r => (r.2, isOkWith (subFit exampleClock exampleTable (fun _ => [((), 0), ((), 0)])
        (r.1, 0 :: [1, 2, 3] ++ [4]) [((), 0), ((), 0)] true) (fun r => r.2)
        [-1000, -999, -998, -997, -996, 2001, 2002, 2003, 2004])) ([0, 1, 2, 3, 4], true) = true := by
    decide +kernel
  obtain ⟨a, h1, h2⟩ := isOkWith_iff h
  simp only [Prod.mk.injEq] at h2
  obtain ⟨b, h3, h4⟩ := isOkWith_iff h2.2
  exact ⟨a.1, b.1, by rw [h1, ← h2.1], by rw [h3, ← h4], by decide +kernel⟩

/-- A latent model in which every output is its own completion. -/
def timedLatent : SubgradientLatent.SLModel Unit ℕ ℕ :=
  ⟨⟨exampleTable, fun l => l.map Prod.snd, fun _ y _ => y, id, fun _ _ => 0, fun _ => 1⟩, fun y h => if y = h then 0 else 1⟩

/-- A run of the latent learner and its continuation. -/
example : ∃ o1 o2, latFit (fun k => k) timedLatent .one (fun _ => 0) (timedSub, []) [((), 0), ((), 0)] false =
      .ok (o1, [0, 1, 2, 3, 4]) ∧
    latFit exampleClock timedLatent .one (fun _ => 0) (o1, 0 :: [1, 2, 3] ++ [4]) [((), 0), ((), 0)] true =
      .ok (o2, [996, 1, 2, 3, 4, 5, 6, 7, 8]) := by
  have h : isOkWith (latFit (fun k => k) timedLatent .one (fun _ => 0) (timedSub, []) [((), 0), ((), 0)]
      false) (fun r => (r.2, isOkWith (latFit exampleClock timedLatent .one (fun _ => 0)
        (r.1, 0 :: [1, 2, 3] ++ [4]) [((), 0), ((), 0)] true) (fun r => r.2)
        [996, 1, 2, 3, 4, 5, 6, 7, 8])) ([0, 1, 2, 3, 4], true) = true := by
    decide +kernel
  obtain ⟨a, h1, h2⟩ := isOkWith_iff h
  simp only [Prod.mk.injEq] at h2
  obtain ⟨b, h3, h4⟩ := isOkWith_iff h2.2
  exact ⟨a.1, b.1, by rw [h1, ← h2.1], by rw [h3, ← h4]⟩

/-- Frank-Wolfe runs, per sample and over all samples. -/
example : ∃ o1 o2, fwFit exampleClock (multiClassModel exampleClf) (fun _ => [1, 0]) (exampleFW 2 false true true)
      exampleSamples = .ok (o1, [1000, 1, 2, 3]) ∧
    fwFit exampleClock (multiClassModel exampleClf) (fun _ => [1, 0]) (exampleFW 2 true true false)
      exampleSamples = .ok (o2, [1000, 1, 2, 3]) := by
  obtain ⟨a, h1, h2⟩ := isOkWith_iff (e := fwFit exampleClock (multiClassModel exampleClf) (fun _ => [1, 0])
    (exampleFW 2 false true true) exampleSamples) (f := fun r => r.2) (b := [1000, 1, 2, 3]) (by decide +kernel)
  obtain ⟨b, h3, h4⟩ := isOkWith_iff (e := fwFit exampleClock (multiClassModel exampleClf) (fun _ => [1, 0])
    (exampleFW 2 true true false) exampleSamples) (f := fun r => r.2) (b := [1000, 1, 2, 3]) (by decide +kernel)
  exact ⟨a.1, b.1, by rw [h1, ← h2], by rw [h3, ← h4]⟩

end Verif.Props
