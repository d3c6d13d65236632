import Verif.Model.Interrupt
import Verif.Props.C53

/-!
# C141: interrupting the training of a perceptron
-/

namespace Verif.Props

open Finset Verif.Spec Verif.Learner Verif.Perceptron Verif.Interrupt

variable {X Y : Type}

/-- the loop up to the interrupt is an ordinary loop with fewer iterations; without interrupt it is the ordinary
loop. -/
theorem percLoop_eq (m : SModel X Y) (cfg : Config) (avg : Option ℤ) (samples : List (X × Y)) (ml : ℚ) (stop j : ℕ) :
    ∀ n it (st : St), it ≤ stop →
      ((percLoop m cfg avg samples ml stop j n it st).2 = false →
        (percLoop m cfg avg samples ml stop j n it st).1 = Perceptron.loop m cfg avg samples ml n it st) ∧
      ((percLoop m cfg avg samples ml stop j n it st).2 = true →
        (percLoop m cfg avg samples ml stop j n it st).1 =
          percPass m cfg avg samples stop j (Perceptron.loop m cfg avg samples ml (stop - it) it st) ∧
        (Perceptron.loop m cfg avg samples ml (stop - it) it st).curve.length = st.curve.length + (stop - it)) := by
  intro n
  induction n with
  | zero =>
    intro it st _
    exact ⟨fun _ => rfl, fun h => by cases h⟩
  | succ n ih =>
    intro it st hit
    unfold percLoop
    by_cases h : it = stop
    · subst h
      rw [if_pos rfl, Nat.sub_self]
      exact ⟨fun h => (by cases h), fun _ => ⟨rfl, rfl⟩⟩
    · rw [if_neg h]
      simp only
      have hs : stop - it = (stop - (it + 1)) + 1 := by omega
      rw [hs]
      unfold Perceptron.loop
      simp only
      by_cases hc : curveEntry (pass m cfg avg samples it st).2 ml = some 0
      · rw [if_pos hc, if_pos hc, if_pos hc]
        exact ⟨fun _ => rfl, fun h => by cases h⟩
      · rw [if_neg hc, if_neg hc, if_neg hc]
        obtain ⟨i1, i2⟩ := ih (it + 1) { (pass m cfg avg samples it st).1 with
          curve := (pass m cfg avg samples it st).1.curve ++ [curveEntry (pass m cfg avg samples it st).2 ml] } (by omega)
        refine ⟨i1, fun h => ?_⟩
        obtain ⟨e1, e2⟩ := i2 h
        refine ⟨e1, ?_⟩
        rw [e2]
        simp only [List.length_append, List.length_singleton, pass_curve]
        omega

theorem onlineFold_curve (m : SModel X Y) (avg : Option ℤ) (lr : ℚ) (it : ℕ) (l : List (X × Y)) (p : St × ℚ) :
    (l.foldl (onlineStep m avg lr it) p).1.curve = p.1.curve := by
  induction l generalizing p with
  | nil => rfl
  | cons s l ih =>
    rw [List.foldl_cons, ih]
    unfold onlineStep observe
    simp only
    split
    · rfl
    · split <;> rfl

theorem percPass_curve (m : SModel X Y) (cfg : Config) (avg : Option ℤ) (samples : List (X × Y)) (it j : ℕ) (st : St) :
    (percPass m cfg avg samples it j st).curve = st.curve := by
  unfold percPass
  simp only
  split
  · split <;> rfl
  · rw [onlineFold_curve]; split <;> rfl

/-- the visits of a part of a pass. -/
theorem onlinePart_inv (m : SModel X Y) (cfg : Config) (avg : Option ℤ) (samples : List (X × Y)) (b it : ℕ)
    (hact : ∀ k, avg = some k → ∀ t, samples.length * it ≤ t → t < samples.length * (it + 1) → (k ≤ it ↔ b ≤ t))
    (p : St × ℚ) (h : OnlineInv m cfg.lr samples avg b (samples.length * it) p.1) :
    ∀ j, j ≤ samples.length → OnlineInv m cfg.lr samples avg b (samples.length * it + j)
      ((samples.take j).foldl (onlineStep m avg (cfg.lr it) it) p).1 := by
  intro j
  induction j with
  | zero => intro _; exact h
  | succ j ih =>
    intro hj
    have hj' : j < samples.length := hj
    have hih := ih (by omega)
    rw [← List.take_concat_get' _ _ hj', List.foldl_append, List.foldl_cons, List.foldl_nil]
    generalize (samples.take j).foldl (onlineStep m avg (cfg.lr it) it) p = q at hih
    obtain ⟨r1, r2⟩ := runOf_succ m cfg.lr samples it j samples[j] hj' (List.getElem?_eq_getElem hj')
    obtain ⟨h1, h2, h3⟩ := hih
    have hmul : samples.length * (it + 1) = samples.length * it + samples.length := by ring
    refine ⟨?_, ?_, ?_⟩
    · unfold onlineStep
      simp only [observe_w]
      rw [h1, ← add_assoc, r1]
    · unfold onlineStep
      simp only [observe_visits]
      rw [h2, ← add_assoc, List.range_succ, List.map_append, List.map_singleton, r1, r2, h1]
      rw [Nat.mul_add_div (by omega), Nat.div_eq_of_lt hj', add_zero]
    · intro ha
      cases avg with
      | none => exact absurd rfl ha
      | some k =>
        rw [← add_assoc]
        apply observed_succ
        · exact hact k rfl _ (by omega) (by omega)
        · simp only; rw [h1, r1]
        · exact h3 ha

/-- the first visit that enters the mean when the interrupt comes in epoch `stop`. -/
def interruptedOffset (avg : Option ℤ) (n stop : ℕ) : ℕ := offset avg n (stop + 1)

theorem percPass_online (m : SModel X Y) (cfg : Config) (hb : cfg.batch = false) (avg : Option ℤ)
    (havg : ∀ k, avg = some k → -1 ≤ k) (samples : List (X × Y)) (stop j : ℕ) (hj : j < samples.length) (st : St)
    (h : OnlineInv m cfg.lr samples avg (offset avg samples.length stop) (samples.length * stop) st) :
    OnlineInv m cfg.lr samples avg (interruptedOffset avg samples.length stop) (samples.length * stop + j)
      (percPass m cfg avg samples stop j st) := by
  unfold percPass interruptedOffset
  simp only [hb, Bool.false_eq_true, if_false]
  apply onlinePart_inv m cfg avg samples _ stop ?_ _ ?_ j hj.le
  · intro k hk t ht1 ht2
    have hk1 := havg k hk
    rw [hk]
    unfold offset
    simp only
    by_cases hkm : k = -1
    · rw [if_pos hkm, Nat.add_sub_cancel]
      constructor
      · intro _; exact ht1
      · intro _; omega
    · rw [if_neg hkm]
      constructor
      · intro hle
        have : k.toNat ≤ stop := by omega
        exact (Nat.mul_le_mul_left _ this).trans ht1
      · intro hle
        have : samples.length * k.toNat < samples.length * (stop + 1) := by omega
        have := Nat.lt_of_mul_lt_mul_left this
        omega
  · obtain ⟨h1, h2, h3⟩ := h
    by_cases hk : avg = some (-1)
    · rw [if_pos hk]
      refine ⟨h1, h2, fun _ => ?_⟩
      have : offset avg samples.length (stop + 1) = samples.length * stop := by
        rw [hk]; simp [offset]
      rw [this]
      exact ⟨by simp, fun j => by simp, fun _ _ => rfl⟩
    · rw [if_neg hk]
      refine ⟨h1, h2, fun ha => ?_⟩
      have : offset avg samples.length (stop + 1) = offset avg samples.length stop := by
        cases avg with
        | none => rfl
        | some k =>
          have : k ≠ -1 := fun h => hk (by rw [h])
          simp only [offset, if_neg this]
      rw [this]; exact h3 ha

/-- the same learner with another number of iterations. -/
def percIters (o : Perceptron.Obj) (n : ℕ) : Perceptron.Obj := { o with cfg := { o.cfg with maxIter := n } }

theorem percLoop_cfg (m : SModel X Y) (cfg : Config) (avg : Option ℤ) (samples : List (X × Y)) (ml : ℚ) (k : ℕ) :
    ∀ n it st, Perceptron.loop m { cfg with maxIter := k } avg samples ml n it st =
      Perceptron.loop m cfg avg samples ml n it st := by
  intro n
  induction n with
  | zero => intro it st; rfl
  | succ n ih =>
    intro it st
    unfold Perceptron.loop
    simp only [ih]
    rfl

/-- the parts of an interrupted training. -/
theorem percFit_hit {m : SModel X Y} {stop j : ℕ} {o o' : Perceptron.Obj} {samples : List (X × Y)}
    (h : percFit m stop j o samples = .ok (o', true)) :
    ∃ avg st, normAverage o.average = .ok avg ∧
      st = Perceptron.loop m o.cfg avg samples (samples.map fun s => m.maxLoss s.2).sum stop 0 start ∧
      st.curve.length = stop ∧ o'.lossCurve = st.curve ∧ o'.cfg = o.cfg ∧
      o'.average = (match avg with
        | none => .off
        | some k => .after k) ∧
      o'.w = if avg = none then (percPass m o.cfg avg samples stop j st).w
        else (percPass m o.cfg avg samples stop j st).wbar := by
  unfold percFit at h
  cases hna : normAverage o.average with
  | error err => rw [hna] at h; cases h
  | ok avg =>
    rw [hna] at h
    simp only [Except.ok.injEq, Prod.mk.injEq] at h
    obtain ⟨h1, h2⟩ := h
    obtain ⟨e1, e2⟩ := (percLoop_eq m o.cfg avg samples (samples.map fun s => m.maxLoss s.2).sum stop j o.cfg.maxIter 0
      start (Nat.zero_le _)).2 h2
    rw [Nat.sub_zero] at e1 e2
    refine ⟨avg, _, rfl, rfl, ?_, ?_, ?_, ?_, ?_⟩
    · rw [e2]; simp [start]
    · rw [← h1]; simp only [e1, percPass_curve]
    · rw [← h1]
    · rw [← h1]; cases avg <;> rfl
    · rw [← h1]; simp only [e1]

/-- **C141, what an interrupt comes before.** If training ends before the interrupt, the result is that of `fit`.
Otherwise the loss curve has one entry for every complete epoch, those of a training with that many epochs. -/
theorem C141_curve (m : SModel X Y) (stop j : ℕ) (o o' : Perceptron.Obj) (samples : List (X × Y)) (hit : Bool)
    (h : percFit m stop j o samples = .ok (o', hit)) :
    (hit = false → Perceptron.fit m o samples = .ok o') ∧
    (hit = true → o'.lossCurve.length = stop ∧
      ∃ o1, Perceptron.fit m (percIters o stop) samples = .ok o1 ∧ o'.lossCurve = o1.lossCurve) := by
  refine ⟨?_, ?_⟩
  · intro hh
    subst hh
    unfold percFit at h
    unfold Perceptron.fit
    cases hna : normAverage o.average with
    | error err => rw [hna] at h; cases h
    | ok avg =>
      rw [hna] at h
      simp only [Except.ok.injEq, Prod.mk.injEq] at h
      obtain ⟨h1, h2⟩ := h
      have e1 := (percLoop_eq m o.cfg avg samples (samples.map fun s => m.maxLoss s.2).sum stop j o.cfg.maxIter 0
        start (Nat.zero_le _)).1 h2
      simp only
      rw [← h1]
      simp only [e1]
      rfl
  · intro hh
    subst hh
    obtain ⟨avg, st, hna, hst, hlen, hcurve, -, -, -⟩ := percFit_hit h
    refine ⟨by rw [hcurve, hlen], ?_⟩
    unfold Perceptron.fit
    simp only [percIters, hna]
    refine ⟨_, rfl, ?_⟩
    rw [hcurve, hst]
    simp only [train, percLoop_cfg]

/-- **C141, online.** An interrupt while the prediction for sample `j` of epoch `stop` is computed leaves the weights of
all the visits before it. Without averaging these are the weights of the run after `n * stop + j` visits. With averaging
from epoch `k` it is the mean of the weights after each visit from epoch `k` on, if there was one. With `average=-1` it
is the mean over the visits of the interrupted epoch, if there was one. -/
theorem C141_online_partial (m : SModel X Y) (stop j : ℕ) (o o' : Perceptron.Obj) (samples : List (X × Y))
    (hon : o.cfg.batch = false) (hj : j < samples.length) (h : percFit m stop j o samples = .ok (o', true)) :
    (o.average = .off → o'.w = runOf m o.cfg.lr samples (samples.length * stop + j)) ∧
    (∀ k : ℕ, (o.average = .after k ∨ (o.average = .on ∧ k = 0)) → samples.length * k < samples.length * stop + j → ∀ i,
      o'.w i = (∑ t ∈ Ico (samples.length * k) (samples.length * stop + j), runOf m o.cfg.lr samples (t + 1) i) /
        ((samples.length * stop + j - samples.length * k : ℕ) : ℚ)) ∧
    (o.average = .after (-1) → 0 < j → ∀ i,
      o'.w i = (∑ t ∈ Ico (samples.length * stop) (samples.length * stop + j), runOf m o.cfg.lr samples (t + 1) i) /
        (j : ℚ)) := by
  obtain ⟨avg, st, hna, hst, hlen, -, -, -, hw⟩ := percFit_hit h
  have hge := normAverage_ge hna
  have hloop := onlineLoop_inv m o.cfg hon avg hge samples (samples.map fun s => m.maxLoss s.2).sum stop 0 start rfl
    ⟨rfl, rfl, fun _ => ⟨by simp [start], fun j => by simp [start], fun _ _ => rfl⟩⟩
  rw [← hst, hlen] at hloop
  obtain ⟨i1, -, i3⟩ := percPass_online m o.cfg hon avg hge samples stop j hj st hloop
  generalize percPass m o.cfg avg samples stop j st = q at i1 i3 hw
  have mean : ∀ b : ℕ, b < samples.length * stop + j → avg ≠ none → interruptedOffset avg samples.length stop = b → ∀ i,
      o'.w i = (∑ t ∈ Ico b (samples.length * stop + j), runOf m o.cfg.lr samples (t + 1) i) /
        ((samples.length * stop + j - b : ℕ) : ℚ) := by
    intro b hbt hne hoff i
    obtain ⟨-, h2, -⟩ := i3 hne
    rw [hoff] at h2
    rw [hw, if_neg hne, ← h2 i, mul_div_cancel_left₀]
    have : 0 < samples.length * stop + j - b := by omega
    exact_mod_cast this.ne'
  refine ⟨?_, ?_, ?_⟩
  · intro ha
    rw [ha] at hna
    simp only [normAverage, Except.ok.injEq] at hna
    subst hna
    rw [hw, if_pos rfl]
    exact i1
  · intro k ha hk i
    have : avg = some (k : ℤ) := by
      rcases ha with ha | ⟨ha, hk0⟩
      · rw [ha] at hna
        simp only [normAverage] at hna
        rw [if_neg (by omega)] at hna
        injection hna with hna; exact hna.symm
      · rw [ha] at hna
        simp only [normAverage] at hna
        injection hna with hna; rw [← hna, hk0]; rfl
    subst this
    exact mean _ hk (by simp) (by simp [interruptedOffset, offset]) i
  · intro ha hj0 i
    have : avg = some (-1) := by
      rw [ha] at hna
      simp only [normAverage] at hna
      rw [if_neg (by omega)] at hna
      injection hna with hna; exact hna.symm
    subst this
    rw [mean (samples.length * stop) (by omega) (by simp) (by simp [interruptedOffset, offset]) i, Nat.add_sub_cancel_left]

/-- **C141, batch.** An interrupt during the predictions of epoch `stop` leaves the weights after `stop` epochs, or,
with averaging from epoch `k`, their mean over the epochs from `k` on, if there was one. -/
theorem C141_batch_partial (m : SModel X Y) (stop j : ℕ) (o o' : Perceptron.Obj) (samples : List (X × Y))
    (hba : o.cfg.batch = true) (h : percFit m stop j o samples = .ok (o', true)) :
    (o.average = .off → o'.w = batchOf m o.cfg.lr samples stop) ∧
    (∀ k : ℕ, (o.average = .after k ∨ (o.average = .on ∧ k = 0)) → k < stop → ∀ i,
      o'.w i = (∑ e ∈ Ico k stop, batchOf m o.cfg.lr samples (e + 1) i) / ((stop - k : ℕ) : ℚ)) := by
  obtain ⟨avg, st, hna, hst, hlen, -, -, -, hw⟩ := percFit_hit h
  have hge := normAverage_ge hna
  have hloop := batchLoop_inv m o.cfg hba avg hge samples (samples.map fun s => m.maxLoss s.2).sum stop 0 start rfl
    ⟨rfl, fun _ => ⟨by simp [start], fun j => by simp [start], fun _ _ => rfl⟩⟩
  rw [← hst, hlen] at hloop
  obtain ⟨i1, i3⟩ := hloop
  unfold percPass at hw
  simp only [hba, if_true] at hw
  refine ⟨?_, ?_⟩
  · intro ha
    rw [ha] at hna
    simp only [normAverage, Except.ok.injEq] at hna
    subst hna
    rw [hw, if_pos rfl, if_neg (by simp)]
    exact i1
  · intro k ha hk i
    have : avg = some (k : ℤ) := by
      rcases ha with ha | ⟨ha, hk0⟩
      · rw [ha] at hna
        simp only [normAverage] at hna
        rw [if_neg (by omega)] at hna
        injection hna with hna; exact hna.symm
      · rw [ha] at hna
        simp only [normAverage] at hna
        injection hna with hna; rw [← hna, hk0]; rfl
    subst this
    have hk1 : (some (k : ℤ)) ≠ some (-1) := by
      intro h; injection h with h; omega
    obtain ⟨-, h2, -⟩ := i3 (by simp)
    have hoff : offset (some (k : ℤ)) 1 stop = k := by simp [offset]
    rw [hoff] at h2
    rw [hw, if_neg (by simp), if_neg hk1, ← h2 i, mul_div_cancel_left₀]
    have : 0 < stop - k := by omega
    exact_mod_cast this.ne'

/-- **C141, an interrupt at the start of an epoch** gives the learner that a training with that many epochs gives,
unless `average=-1`. -/
theorem C141_start_of_epoch_partial (m : SModel X Y) (stop : ℕ) (o o' : Perceptron.Obj) (samples : List (X × Y))
    (ha : o.average ≠ .after (-1)) (h : percFit m stop 0 o samples = .ok (o', true)) :
    ∃ o1, Perceptron.fit m (percIters o stop) samples = .ok o1 ∧ o'.w = o1.w ∧ o'.lossCurve = o1.lossCurve ∧
      o'.average = o1.average := by
  obtain ⟨avg, st, hna, hst, hlen, hcurve, -, hav, hw⟩ := percFit_hit h
  have hk : avg ≠ some (-1) := by
    intro he
    subst he
    cases hav : o.average with
    | off => rw [hav] at hna; simp [normAverage] at hna
    | on => rw [hav] at hna; simp [normAverage] at hna
    | after k =>
      rw [hav] at hna
      simp only [normAverage] at hna
      split at hna
      · cases hna
      · injection hna with hna
        injection hna with hna
        exact ha (by rw [hav, hna])
  unfold Perceptron.fit
  simp only [percIters, hna]
  refine ⟨_, rfl, ?_, ?_, by rw [hav]; cases avg <;> rfl⟩
  · rw [hw]
    simp only [train, percLoop_cfg, percPass, if_neg hk, List.take_zero, List.foldl_nil, ite_self, ← hst]
  · rw [hcurve, hst]
    simp only [train, percLoop_cfg]

/-- **C141 does not hold with `average=-1`.** The mean is reset at the start of every epoch. An interrupt during the
first prediction of an epoch, and in batch mode every interrupt, leaves zero weights whatever was learned before. -/
theorem C141_violated_last_epoch (m : SModel X Y) (stop j : ℕ) (o o' : Perceptron.Obj) (samples : List (X × Y))
    (ha : o.average = .after (-1)) (hj : j = 0 ∨ o.cfg.batch = true) (h : percFit m stop j o samples = .ok (o', true)) :
    ∀ i, o'.w i = 0 := by
  obtain ⟨avg, st, hna, hst, hlen, hcurve, -, -, hw⟩ := percFit_hit h
  have : avg = some (-1) := by
    rw [ha] at hna
    simp only [normAverage] at hna
    rw [if_neg (by omega)] at hna
    injection hna with hna; exact hna.symm
  subst this
  intro i
  rw [hw, if_neg (by simp)]
  unfold percPass
  rcases hj with hj | hj
  · subst hj; simp
  · simp [hj]

/-- **C141 does not hold before averaging starts.** An interrupt before the first visit of epoch `k` leaves zero weights
if averaging starts in epoch `k`. -/
theorem C141_violated_before_averaging (m : SModel X Y) (stop j k : ℕ) (o o' : Perceptron.Obj) (samples : List (X × Y))
    (ha : o.average = .after k) (hk : stop < k ∨ stop = k ∧ (j = 0 ∨ o.cfg.batch = true))
    (hj : j < samples.length) (h : percFit m stop j o samples = .ok (o', true)) : ∀ i, o'.w i = 0 := by
  obtain ⟨avg, st, hna, hst, hlen, -, -, -, hw⟩ := percFit_hit h
  have : avg = some (k : ℤ) := by
    rw [ha] at hna
    simp only [normAverage] at hna
    rw [if_neg (by omega)] at hna
    injection hna with hna; exact hna.symm
  subst this
  have hge := normAverage_ge hna
  have hk1 : (some (k : ℤ)) ≠ some (-1) := by
    intro h; injection h with h; omega
  intro i
  rw [hw, if_neg (by simp)]
  by_cases hb : o.cfg.batch = true
  · have hloop := batchLoop_inv m o.cfg hb (some (k : ℤ)) hge samples (samples.map fun s => m.maxLoss s.2).sum stop 0 start
      rfl ⟨rfl, fun _ => ⟨by simp [start], fun j => by simp [start], fun _ _ => rfl⟩⟩
    rw [← hst, hlen] at hloop
    unfold percPass
    simp only [hb, if_true, if_neg hk1]
    refine (hloop.2 (by simp)).2.2 ?_ i
    simp only [offset]
    rw [if_neg (by omega)]
    simp only [Int.toNat_natCast, one_mul]
    omega
  · have hon : o.cfg.batch = false := by simpa using hb
    have hloop := onlineLoop_inv m o.cfg hon (some (k : ℤ)) hge samples (samples.map fun s => m.maxLoss s.2).sum stop 0
      start rfl ⟨rfl, rfl, fun _ => ⟨by simp [start], fun j => by simp [start], fun _ _ => rfl⟩⟩
    rw [← hst, hlen] at hloop
    have hpart := percPass_online m o.cfg hon (some (k : ℤ)) hge samples stop j hj st hloop
    refine (hpart.2.2 (by simp)).2.2 ?_ i
    simp only [interruptedOffset, offset]
    rw [if_neg (by omega)]
    simp only [Int.toNat_natCast]
    rcases hk with hk | ⟨hk, hk' | hk'⟩
    · have : samples.length * (stop + 1) ≤ samples.length * k := Nat.mul_le_mul_left _ hk
      rw [Nat.mul_add, mul_one] at this
      omega
    · rw [hk, hk']; omega
    · exact absurd hk' hb

/-! ### non-vacuity -/

/-- An interrupt in the second epoch of the training of `exampleClf`: the weights of the first epoch without averaging,
zero with `average=-1` at the first prediction, and the weights again at the second prediction. -/
example :
    (percFit (multiClassModel exampleClf) 1 0 (exampleObj .off) exampleSamples).toOption.map
      (fun r => (r.1.lossCurve, (List.range 6).map r.1.w, r.2)) = some ([some (1 / 2)], [0, -2, 0, 0, 0, 2], true) ∧
    (percFit (multiClassModel exampleClf) 1 0 (exampleObj (.after (-1))) exampleSamples).toOption.map
      (fun r => (r.1.lossCurve, (List.range 6).map r.1.w, r.2)) = some ([some (1 / 2)], [0, 0, 0, 0, 0, 0], true) ∧
    (percFit (multiClassModel exampleClf) 1 1 (exampleObj (.after (-1))) exampleSamples).toOption.map
      (fun r => (r.1.lossCurve, (List.range 6).map r.1.w, r.2)) = some ([some (1 / 2)], [0, -2, 0, 0, 0, 2], true) := by
  decide +kernel

end Verif.Props
