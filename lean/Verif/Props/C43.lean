import Verif.Lemmas.NSlackLoop

/-!
# C43, C50, C51, C61 for NSlackSSVM
-/

namespace Verif.Props

open Finset Verif.Spec Verif.Learner Verif.NSlack
open Verif.OneSlack (Phase weightsOf)

variable {X Y : Type}

/-! ### pruning -/

theorem kept_sublist {α : Type} (cfg : NSlack.Config) (la : List ℕ) (l : List α) :
    (kept cfg la l).Sublist l := by
  unfold kept
  induction l generalizing la with
  | nil => simp
  | cons a l ih =>
    cases la with
    | nil => simp
    | cons c la =>
      rw [List.zip_cons_cons, List.filter_cons]
      split_ifs
      · rw [List.map_cons]
        exact (ih la).cons_cons a
      · exact (ih la).cons a

theorem kept_length {α β : Type} (cfg : NSlack.Config) (la : List ℕ) (l : List α) (l' : List β)
    (h : l.length = l'.length) : (kept cfg la l).length = (kept cfg la l').length := by
  unfold kept
  induction l generalizing la l' with
  | nil =>
    have : l' = [] := List.length_eq_zero_iff.mp h.symm
    subst this
    simp
  | cons a l ih =>
    cases l' with
    | nil => simp at h
    | cons b l' =>
      cases la with
      | nil => simp
      | cons c la =>
        have := ih la l' (by simpa using h)
        rw [List.zip_cons_cons, List.zip_cons_cons, List.filter_cons, List.filter_cons]
        split_ifs
        · simpa using this
        · exact this

theorem kept_self_le (cfg : NSlack.Config) (la : List ℕ) : ∀ c ∈ kept cfg la la, c ≤ cfg.inactiveWindow := by
  intro c hc
  unfold kept at hc
  obtain ⟨p, hp, rfl⟩ := List.mem_map.mp hc
  rw [List.mem_filter] at hp
  have h2 := hp.2
  have h1 : p.1 = p.2 := by
    have := hp.1
    obtain ⟨i, hi, rfl⟩ := List.getElem_of_mem this
    simp
  simp only [Bool.not_eq_true', decide_eq_false_iff_not, not_lt] at h2
  omega

theorem kept_mem {α : Type} (cfg : NSlack.Config) (la : List ℕ) (l : List α) (i : ℕ) (hi : i < l.length)
    (hi' : i < la.length) (h : la[i] ≤ cfg.inactiveWindow) : l[i] ∈ kept cfg la l := by
  unfold kept
  refine List.mem_map.mpr ⟨(l[i], la[i]), ?_, rfl⟩
  rw [List.mem_filter]
  constructor
  · have hz : i < (l.zip la).length := by simp; omega
    have : (l.zip la)[i] = (l[i], la[i]) := by simp
    rw [← this]
    exact List.getElem_mem hz
  · simpa using h

theorem prune_sublist {cfg : NSlack.Config} {n : ℕ} {ws ws' : WS Y} {la la' : ℕ → List ℕ} {a : List ℚ}
    (h : NSlack.prune cfg n ws la a = .ok (ws', la')) (i : ℕ) : (ws' i).Sublist (ws i) := by
  unfold NSlack.prune at h
  split_ifs at h
  · simp only [Except.ok.injEq, Prod.mk.injEq] at h
    rw [← h.1]
  · simp only [Except.ok.injEq, Prod.mk.injEq] at h
    rw [← h.1]
    simp only
    split_ifs
    · exact List.Sublist.refl _
    · exact kept_sublist _ _ _

theorem prune_zero {cfg : NSlack.Config} {n : ℕ} {ws ws' : WS Y} {la la' : ℕ → List ℕ} {a : List ℚ}
    (h0 : cfg.inactiveWindow = 0) (h : NSlack.prune cfg n ws la a = .ok (ws', la')) : ws' = ws := by
  unfold NSlack.prune at h
  rw [if_pos h0] at h
  simp only [Except.ok.injEq, Prod.mk.injEq] at h
  exact h.1.symm

/-! ### no duplicates -/

/-- no output occurs twice, up to `eq`. -/
def Distinct (eq : Y → Y → Bool) (l : List (NCon Y)) : Prop :=
  l.Pairwise fun c d => eq d.yhat c.yhat = false

/-- The constraint was found by loss-augmented inference, `m.lossAug` or the one of `alt`, for some weights
that it violates by at least 1e-5; it consists of the output, the joint-feature difference and the positive
loss. -/
def WasViolated (m : SModel X Y) (alt : Option ((X → Y → W → Bool → Y) × (X → W → Y))) (s : X × Y)
    (c : NCon Y) : Prop :=
  ∃ (w : W) (la : X → Y → W → Bool → Y), (la = m.lossAug ∨ ∃ p, alt = some p ∧ la = p.1) ∧
    c.yhat = la s.1 s.2 w true ∧ (∀ k, c.dj k = m.feat s.1 s.2 s.2 k - m.feat s.1 c.yhat s.2 k) ∧
    c.loss = m.lossOf s.2 c.yhat ∧ 0 < c.loss ∧ 1 / 10 ^ 5 ≤ c.loss - dot m.dim w c.dj

/-- the model in use is the original one, possibly with the other inference method. -/
def Switched (m : SModel X Y) (alt : Option ((X → Y → W → Bool → Y) × (X → W → Y))) (m' : SModel X Y)
    (sw : Bool) : Prop :=
  ∃ la inf, m' = { m with lossAug := la, inference := inf } ∧
    (sw = false ∧ la = m.lossAug ∧ inf = m.inference ∨ sw = true ∧ alt = some (la, inf))

theorem checkBad_false {cfg : NSlack.Config} {eq : Y → Y → Bool} {dim : ℕ} {w : W} {yhat : Y} {slack : ℚ}
    {old : List (NCon Y)} (h : NSlack.checkBad cfg eq dim w yhat slack old = .ok false) :
    1 / 10 ^ 5 ≤ slack ∧ ∀ c ∈ old, eq yhat c.yhat = false := by
  unfold NSlack.checkBad at h
  split_ifs at h with h1 h2 h3 h4
  · simp at h
  · simp at h
  · simp at h
  · refine ⟨not_lt.mp h1, fun c hc => ?_⟩
    by_contra hne
    exact h2 (List.any_eq_true.mpr ⟨c, hc, by simpa using hne⟩)
  · refine ⟨not_lt.mp h1, fun c hc => ?_⟩
    by_contra hne
    exact h2 (List.any_eq_true.mpr ⟨c, hc, by simpa using hne⟩)

theorem added_violated {m m' : SModel X Y} {alt : Option ((X → Y → W → Bool → Y) × (X → W → Y))} {sw : Bool}
    (hm : Switched m alt m' sw) {cfg : NSlack.Config} {eq : Y → Y → Bool} {w : W} {l l' : List (NCon Y)}
    {s : X × Y} (h : Added cfg eq m' w l s l') :
    ∃ c, l' = l ++ [c] ∧ WasViolated m alt s c ∧ ∀ d ∈ l, eq c.yhat d.yhat = false := by
  obtain ⟨h1, h2, h3⟩ := h
  obtain ⟨h4, h5⟩ := checkBad_false h2
  obtain ⟨la, inf, rfl, hla⟩ := hm
  refine ⟨_, h3, ⟨w, la, ?_, rfl, ?_, rfl, h1, ?_⟩, h5⟩
  · rcases hla with ⟨-, h, -⟩ | ⟨-, h⟩
    · exact .inl h
    · exact .inr ⟨_, h, rfl⟩
  · intro k
    change -_ + _ = _
    rw [neg_add_eq_sub]
    rfl
  · rcases le_max_iff.mp (le_of_le_of_eq h4 rfl) with h | h
    · exact h
    · norm_num at h

/-- invariant: model and working sets; `D` says whether duplicates are excluded. -/
def Inv43 (m : SModel X Y) (alt : Option ((X → Y → W → Bool → Y) × (X → W → Y))) (eq : Y → Y → Bool)
    (D : Prop) (R : ℕ → X × Y → NCon Y → Prop) (samples : List (X × Y)) (st : NSlack.St X Y) : Prop :=
  Switched m alt st.model st.switched ∧
    ∀ i s, samples[i]? = some s → (D → Distinct eq (st.ws i)) ∧ ∀ c ∈ st.ws i, R i s c

theorem inv43_sublist {m : SModel X Y} {alt : Option ((X → Y → W → Bool → Y) × (X → W → Y))}
    {eq : Y → Y → Bool} {D : Prop} {R : ℕ → X × Y → NCon Y → Prop} {samples : List (X × Y)} {st st' : NSlack.St X Y}
    (h : Inv43 m alt eq D R samples st) (hm : st'.model = st.model) (hs : st'.switched = st.switched)
    (hw : ∀ i, (st'.ws i).Sublist (st.ws i)) : Inv43 m alt eq D R samples st' := by
  obtain ⟨h1, h2⟩ := h
  refine ⟨by rw [hm, hs]; exact h1, fun i s hi => ?_⟩
  obtain ⟨a, b⟩ := h2 i s hi
  exact ⟨fun h => (a h).sublist (hw i), fun c hc => b c ((hw i).subset hc)⟩

theorem solve_sublist {qp : QP.Solver} {cfg : NSlack.Config} {n : ℕ} {st st' : NSlack.St X Y}
    (h : NSlack.solve qp cfg n st = .ok st') :
    st'.model = st.model ∧ st'.switched = st.switched ∧ ∀ i, (st'.ws i).Sublist (st.ws i) := by
  obtain ⟨sol, -, hp, he⟩ := solve_ok h
  refine ⟨by rw [he], by rw [he], prune_sublist hp⟩

theorem inv43_batch {m : SModel X Y} {alt : Option ((X → Y → W → Bool → Y) × (X → W → Y))}
    {eq : Y → Y → Bool} {D : Prop} {R : ℕ → X × Y → NCon Y → Prop} {samples : List (X × Y)}
    (hR : ∀ i s c, samples[i]? = some s → WasViolated m alt s c → R i s c) {qp : QP.Solver} {cfg : NSlack.Config} {n : ℕ} {intr : Option Phase}
    {b : List (ℕ × X × Y)} (hb : GoodBatch samples b) {st st' : NSlack.St X Y} {s s' : ℚ} {k k' : ℕ}
    {fl : Bool} (h0 : Inv43 m alt eq D R samples st)
    (h : runBatch qp eq cfg n intr b (st, s, k) = .ok ((st', s', k'), fl)) :
    Inv43 m alt eq D R samples st' := by
  rcases runBatch_ok h with ⟨-, rfl, -⟩ | ⟨-, ws, new, ha, hc⟩
  · exact h0
  · obtain ⟨a1, a2, -⟩ := addAll_ok hb.1 ha
    have key : Inv43 m alt eq D R samples { st with ws := ws } := by
      obtain ⟨h1, h2⟩ := h0
      refine ⟨h1, fun i t hi => ?_⟩
      obtain ⟨d1, d2⟩ := h2 i t hi
      by_cases hmem : i ∈ b.map Prod.fst
      · obtain ⟨p, hp, rfl⟩ := List.mem_map.mp hmem
        have hpt : p.2 = t := by
          have := hb.2 p hp
          rw [hi] at this
          exact (Option.some.inj this).symm
        rcases a2 p hp with ⟨-, e⟩ | e
        · change (D → Distinct eq (ws p.1)) ∧ ∀ c ∈ ws p.1, R p.1 t c
          simp only at e
          rw [e]
          exact ⟨d1, d2⟩
        · obtain ⟨c, e1, e2, e3⟩ := added_violated h1 e
          change (D → Distinct eq (ws p.1)) ∧ ∀ c ∈ ws p.1, R p.1 t c
          simp only at e1
          rw [e1]
          constructor
          · intro hD
            unfold Distinct
            rw [List.pairwise_append]
            refine ⟨d1 hD, List.pairwise_singleton _ _, ?_⟩
            intro x hx y hy
            rw [List.mem_singleton] at hy
            rw [hy]
            exact e3 x hx
          · intro x hx
            rcases List.mem_append.mp hx with hx | hx
            · exact d2 x hx
            · rw [List.mem_singleton] at hx
              rw [hx, ← hpt]
              exact hR _ _ _ (hb.2 p hp) e2
      · have := a1 i hmem
        simp only at this
        change (D → Distinct eq (ws i)) ∧ ∀ c ∈ ws i, R i t c
        rw [this]
        exact ⟨d1, d2⟩
    rcases hc with ⟨-, rfl, -⟩ | ⟨-, -, rfl, -⟩ | ⟨-, -, hs, -⟩
    · exact key
    · exact key
    · obtain ⟨e1, e2, e3⟩ := solve_sublist hs
      exact inv43_sublist key e1 e2 e3

theorem inv43_iteration {m : SModel X Y} {alt : Option ((X → Y → W → Bool → Y) × (X → W → Y))}
    {eq : Y → Y → Bool} {D : Prop} {R : ℕ → X × Y → NCon Y → Prop} {samples : List (X × Y)}
    (hR : ∀ i s c, samples[i]? = some s → WasViolated m alt s c → R i s c) {qp : QP.Solver} {cfg : NSlack.Config} {it : ℕ} {intr : ℕ → Option Phase}
    {st st' : NSlack.St X Y} {out : Outcome} (h0 : Inv43 m alt eq D R samples st)
    (h : NSlack.iteration qp eq alt cfg samples it intr st = .ok (st', out)) :
    Inv43 m alt eq D R samples st' := by
  refine iteration_induct _ (fun j b hb st s k st' s' k' fl hI hr => inv43_batch hR hb hI hr) ?_ ?_ h0 h
  · intro st obj lc pc hI _
    exact hI
  · intro st la inf hI halt
    obtain ⟨⟨la', inf', hm, -⟩, h2⟩ := hI
    exact ⟨⟨la, inf, by simp only [hm], .inr ⟨rfl, halt⟩⟩, h2⟩

theorem inv43_start {m : SModel X Y} {alt : Option ((X → Y → W → Bool → Y) × (X → W → Y))}
    {eq : Y → Y → Bool} {D : Prop} {R : ℕ → X × Y → NCon Y → Prop} {samples : List (X × Y)} {qp : QP.Solver} {o : NSlack.Obj Y}
    {cons : Option (List (List (NCon Y)))}
    (hc : ∀ cs : List (List (NCon Y)), cons = some cs → ∀ (i : ℕ) (s : X × Y) (l : List (NCon Y)), samples[i]? = some s → cs[i]? = some l →
      (D → Distinct eq l) ∧ ∀ c ∈ l, R i s c)
    {st : NSlack.St X Y} (h : NSlack.start m qp o samples.length cons = .ok st) :
    Inv43 m alt eq D R samples st := by
  rcases start_ok h with ⟨-, rfl⟩ | ⟨cs, a, hcs, -, hlen, -, hsol⟩
  · exact ⟨⟨_, _, rfl, .inl ⟨rfl, rfl, rfl⟩⟩, fun i s _ => ⟨fun _ => List.Pairwise.nil, by simp⟩⟩
  · obtain ⟨e1, e2, e3⟩ := solve_sublist hsol
    refine inv43_sublist (st := ⟨m, false, fun _ => 0, fun i => cs.getD i [], _, _, _, o.lossCurve, none⟩)
      ⟨⟨_, _, rfl, .inl ⟨rfl, rfl, rfl⟩⟩, ?_⟩ e1 e2 e3
    intro i s hi
    have hlt : i < cs.length := by
      have := (List.getElem?_eq_some_iff.mp hi).1
      omega
    have := hc cs hcs i s cs[i] hi (List.getElem?_eq_getElem hlt)
    simpa [List.getD_eq_getElem?_getD, hlt] using this

/-- **C43, no duplicates.** After `fit` no sample holds the same output twice in `constraints_`, wherever the
fit was interrupted; `eq` is the comparison of outputs. Every constraint that is held was given by the user
(`R`), or was violated by at least 1e-5 by the weights for which loss-augmented inference returned its output,
has positive loss, and consists of this output, its joint-feature difference and its loss. -/
theorem C43_no_duplicates (m : SModel X Y) (qp : QP.Solver) (eq : Y → Y → Bool)
    (alt : Option ((X → Y → W → Bool → Y) × (X → W → Y))) (intr : ℕ → ℕ → Option Phase)
    (o o' : NSlack.Obj Y) (samples : List (X × Y)) (cons : Option (List (List (NCon Y)))) (out : Outcome)
    (hc : ∀ cs, cons = some cs → ∀ l ∈ cs, Distinct eq l)
    (h : NSlack.fit m qp eq alt intr o samples cons = .ok (o', out)) :
    ∃ a, o'.attrs = some a ∧ ∀ i s, samples[i]? = some s → Distinct eq (a.constraints i) ∧
      ∀ c ∈ a.constraints i, WasViolated m alt s c ∨ ∃ cs l, cons = some cs ∧ cs[i]? = some l ∧ c ∈ l := by
  obtain ⟨st0, st, obj, primal, hs, hl, -, -, -, rfl⟩ := fit_ok h
  refine ⟨_, rfl, fun i s hi => ?_⟩
  have hI := loop_induct (Inv43 m alt eq True (fun i s c => WasViolated m alt s c ∨
      ∃ cs l, cons = some cs ∧ cs[i]? = some l ∧ c ∈ l) samples)
    (fun it st st' out hI hit => inv43_iteration (fun i s c _ h => .inl h) hI hit)
    (inv43_start (fun cs hcs i s l hi hl => ⟨fun _ => hc cs hcs l (List.mem_of_getElem? hl), fun c hc =>
      .inr ⟨cs, l, hcs, hl, hc⟩⟩) hs) hl
  exact ⟨(hI.2 i s hi).1 trivial, (hI.2 i s hi).2⟩

/-! ### bookkeeping of inactivity -/

/-- one counter per constraint, none above the window. -/
def Counted (cfg : NSlack.Config) (n : ℕ) (ws : WS Y) (la : ℕ → List ℕ) : Prop :=
  ∀ i < n, (la i).length = (ws i).length ∧ ∀ c ∈ la i, c ≤ cfg.inactiveWindow

theorem counted_length {cfg : NSlack.Config} {l : List (NCon Y)} {la : List ℕ} {a : List ℚ}
    (h : (grown l la).length = l.length) (ha : a.length = l.length) :
    (counted cfg l la a).length = l.length := by
  unfold counted
  rw [List.length_zipWith, h, ha, min_self]

theorem grown_length {l : List (NCon Y)} {la : List ℕ} (h : la.length ≤ l.length)
    (h' : l.length ≤ la.length + 1) : (grown l la).length = l.length := by
  unfold grown
  split_ifs
  · simp; omega
  · omega

/-- pruning succeeds if at most one constraint per sample is new, and restores the bookkeeping. -/
theorem prune_counted {cfg : NSlack.Config} (hw : cfg.inactiveWindow ≠ 0) {n : ℕ} {ws : WS Y}
    {la : ℕ → List ℕ} {a : List ℚ} (ha : a.length = offset ws n)
    (hla : ∀ i < n, (la i).length ≤ (ws i).length ∧ (ws i).length ≤ (la i).length + 1) :
    ∃ ws' la', NSlack.prune cfg n ws la a = .ok (ws', la') ∧ Counted cfg n ws' la' := by
  have hg : ∀ i < n, (grown (ws i) (la i)).length = (ws i).length :=
    fun i hi => grown_length (hla i hi).1 (hla i hi).2
  unfold NSlack.prune
  rw [if_neg hw, if_neg]
  · refine ⟨_, _, rfl, fun i hi => ?_⟩
    by_cases he : (ws i).isEmpty = true
    · rw [if_pos he, if_pos he]
      have : ws i = [] := by simpa using he
      have h1 := (hla i hi).1
      rw [this] at h1 ⊢
      have h2 : la i = [] := List.length_eq_zero_iff.mp (by simpa using h1)
      rw [h2]
      simp
    · rw [if_neg he, if_neg he]
      have hl := counted_length (cfg := cfg) (hg i hi) (slice_length ws ha hi)
      exact ⟨kept_length _ _ _ _ hl, kept_self_le _ _⟩
  · simp only [List.any_eq_true, List.mem_range, Bool.and_eq_true, not_exists, not_and]
    intro i hi _
    simpa using hg i hi

/-- the counters after a batch that was not interrupted. -/
theorem counted_batch {qp : QP.Solver} (hqp : QP.Sound qp) {eq : Y → Y → Bool} {cfg : NSlack.Config}
    (hw : cfg.inactiveWindow ≠ 0) {samples : List (X × Y)} {b : List (ℕ × X × Y)}
    (hb : GoodBatch samples b) {st st' : NSlack.St X Y} {s s' : ℚ} {k k' : ℕ} {fl : Bool}
    (h0 : Counted cfg samples.length st.ws st.lastActive)
    (h : runBatch qp eq cfg samples.length none b (st, s, k) = .ok ((st', s', k'), fl)) :
    Counted cfg samples.length st'.ws st'.lastActive := by
  rcases runBatch_ok h with ⟨hs, -⟩ | ⟨-, ws, new, ha, hc⟩
  · cases hs
  · obtain ⟨a1, a2, -, -, a5, -⟩ := addAll_ok hb.1 ha
    rcases hc with ⟨hs, -⟩ | ⟨-, hn, rfl, -⟩ | ⟨-, -, hs, -⟩
    · cases hs
    · have := (a5 hn).1
      simp only at this
      simp only [this]
      exact h0
    · obtain ⟨sol, hq, hp, -⟩ := solve_ok hs
      have hgrow : ∀ i, ws i = st.ws i ∨ ∃ c, ws i = st.ws i ++ [c] := by
        intro i
        by_cases hmem : i ∈ b.map Prod.fst
        · obtain ⟨p, hp, rfl⟩ := List.mem_map.mp hmem
          rcases a2 p hp with ⟨-, e⟩ | ⟨-, -, e⟩
          · exact .inl e
          · exact .inr ⟨_, e⟩
        · exact .inl (a1 i hmem)
      have hlen : sol.x.length = offset ws samples.length := by
        have hf : ∀ eps, qp (qpOf st.model.dim cfg.negativity cfg.C samples.length ws eps) = some sol →
            sol.x.length = offset ws samples.length := fun eps h =>
          ((feasible_qpOf _ _ _ _ _ _ _).mp (hqp _ _ h).1).1
        unfold NSlack.solveQP at hq
        split_ifs at hq
        split at hq
        · rename_i s1 h1
          rw [Except.ok.injEq] at hq
          subst hq
          exact hf 0 h1
        · split at hq
          · rename_i s1 h1
            rw [Except.ok.injEq] at hq
            subst hq
            exact hf _ h1
          · cases hq
      obtain ⟨ws', la', e1, e2⟩ := prune_counted hw (la := st.lastActive) hlen (by
        intro i hi
        have h1 := (h0 i hi).1
        rcases hgrow i with e | ⟨c, e⟩
        · rw [e]; omega
        · rw [e, List.length_append, List.length_singleton]; omega)
      change NSlack.prune cfg samples.length ws st.lastActive sol.x = _ at hp
      rw [e1, Except.ok.injEq, Prod.mk.injEq] at hp
      rw [← hp.1, ← hp.2]
      exact e2

/-- **C43, bookkeeping.** After a `fit` without given constraints that was not interrupted, with a positive
`inactive_window`, `last_active` has one counter for every constraint of `constraints_`, and no counter
exceeds `inactive_window`. -/
theorem C43_bookkeeping (m : SModel X Y) (qp : QP.Solver) (hqp : QP.Sound qp) (eq : Y → Y → Bool)
    (alt : Option ((X → Y → W → Bool → Y) × (X → W → Y))) (o o' : NSlack.Obj Y)
    (hw : o.cfg.inactiveWindow ≠ 0) (samples : List (X × Y)) (out : Outcome)
    (h : NSlack.fit m qp eq alt (fun _ _ => none) o samples none = .ok (o', out)) :
    ∃ a, o'.attrs = some a ∧ ∀ i < samples.length, (a.lastActive i).length = (a.constraints i).length ∧
      ∀ c ∈ a.lastActive i, c ≤ o.cfg.inactiveWindow := by
  obtain ⟨st0, st, obj, primal, hs, hl, -, -, -, rfl⟩ := fit_ok h
  refine ⟨_, rfl, ?_⟩
  refine loop_induct (fun st => Counted o.cfg samples.length st.ws st.lastActive) ?_ ?_ hl
  · intro it st st' out hI hit
    exact iteration_induct (fun st => Counted o.cfg samples.length st.ws st.lastActive)
      (fun j b hb st s k st' s' k' fl hI hr => counted_batch hqp hw hb hI hr)
      (fun st obj lc pc hI _ => hI) (fun st la inf hI _ => hI) hI hit
  · rcases start_ok hs with ⟨-, rfl⟩ | ⟨cs, a, hcs, -⟩
    · intro i hi
      simp
    · cases hcs

/-- **C43, active constraints stay.** If the counters match the constraints and none exceeds the window, then
solving the QP does not remove a constraint of sample `i` whose multiplier in this QP is at least
`inactive_threshold * C`, provided at most one constraint of the sample is new. -/
theorem C43_active_kept (cfg : NSlack.Config) (n : ℕ) (ws ws' : WS Y) (la la' : ℕ → List ℕ) (a : List ℚ)
    (hla : ∀ i < n, (la i).length ≤ (ws i).length ∧ (ws i).length ≤ (la i).length + 1 ∧
      ∀ c ∈ la i, c ≤ cfg.inactiveWindow)
    (ha : a.length = offset ws n) (h : NSlack.prune cfg n ws la a = .ok (ws', la')) (i : ℕ) (hi : i < n)
    (q : ℕ) (hq : q < (ws i).length)
    (hact : cfg.inactiveThreshold * cfg.C ≤ a.getD (offset ws i + q) 0) : (ws i)[q] ∈ ws' i := by
  obtain ⟨h1, h2, h3⟩ := hla i hi
  unfold NSlack.prune at h
  split_ifs at h with hw hany
  · simp only [Except.ok.injEq, Prod.mk.injEq] at h
    rw [← h.1]
    exact List.getElem_mem hq
  · simp only [Except.ok.injEq, Prod.mk.injEq] at h
    rw [← h.1]
    simp only
    have hne : ¬ (ws i).isEmpty = true := by
      intro he
      have : ws i = [] := by simpa using he
      rw [this] at hq
      simp at hq
    rw [if_neg hne]
    have hg := grown_length h1 h2
    have hl := slice_length ws ha hi
    have hcl := counted_length (cfg := cfg) hg hl
    refine kept_mem cfg _ _ q hq (by omega) ?_
    unfold counted
    rw [List.getElem_zipWith]
    have hsl : (slice ws a i)[q]'(by omega) = a.getD (offset ws i + q) 0 := by
      have hlt : offset ws i + q < a.length := by
        have := offset_mono ws (Nat.succ_le_of_lt hi)
        rw [Nat.succ_eq_add_one, offset_succ] at this
        omega
      simp [slice, List.getD_eq_getElem?_getD, hlt]
    rw [hsl, if_neg (not_lt.mpr hact)]
    have hm : (grown (ws i) (la i))[q]'(by omega) ∈ grown (ws i) (la i) := List.getElem_mem _
    unfold grown at hm ⊢
    split_ifs at hm ⊢ with hlt
    · rcases List.mem_append.mp hm with hm | hm
      · exact h3 _ hm
      · rw [List.mem_singleton] at hm
        rw [hm]
        omega
    · exact h3 _ hm

/-! ### termination -/

theorem offset_le_sum {ws : WS Y} {n : ℕ} {B : ℕ → ℕ} (h : ∀ i < n, (ws i).length ≤ B i) :
    offset ws n ≤ ((List.range n).map B).sum := by
  induction n with
  | zero => simp [offset]
  | succ n ih =>
    rw [offset_succ, List.range_succ, List.map_append, List.sum_append]
    have := ih fun i hi => h i (by omega)
    have := h n (by omega)
    simp
    omega

/-- number of constraints of a working set without duplicates. -/
theorem distinct_length {eq : Y → Y → Bool} (hrefl : ∀ y, eq y y = true) {l : List (NCon Y)} {outs : List Y}
    (hd : Distinct eq l) (hm : ∀ c ∈ l, c.yhat ∈ outs) : l.length ≤ outs.length := by
  have hn : (l.map NCon.yhat).Nodup := by
    unfold List.Nodup
    rw [List.pairwise_map]
    refine hd.imp ?_
    intro c d hcd he
    rw [he, hrefl] at hcd
    cases hcd
  have := (List.subperm_of_subset hn (l₂ := outs) (by
    intro y hy
    obtain ⟨c, hc, rfl⟩ := List.mem_map.mp hy
    exact hm c hc)).length_le
  simpa using this

/-- without pruning, batches never remove constraints. -/
theorem batches_grow {qp : QP.Solver} {eq : Y → Y → Bool} {cfg : NSlack.Config} (hw : cfg.inactiveWindow = 0)
    {samples : List (X × Y)} {intr : ℕ → Option Phase} {bs : List (List (ℕ × X × Y))}
    (hbs : ∀ b ∈ bs, GoodBatch samples b) {j : ℕ} {st st' : NSlack.St X Y} {s s' : ℚ} {k k' : ℕ}
    (h : runBatches qp eq cfg samples.length intr bs j (st, s, k) = .ok ((st', s', k'), false)) :
    offset st'.ws samples.length + k = offset st.ws samples.length + k' ∧ st'.switched = st.switched := by
  induction bs generalizing j st s k with
  | nil =>
    simp only [runBatches, Except.ok.injEq, Prod.mk.injEq] at h
    obtain ⟨⟨rfl, rfl, rfl⟩, -⟩ := h
    exact ⟨rfl, rfl⟩
  | cons b bs ih =>
    unfold runBatches at h
    cases hb : runBatch qp eq cfg samples.length (intr j) b (st, s, k) with
    | error err => rw [hb] at h; cases h
    | ok r =>
      obtain ⟨⟨st1, s1, k1⟩, f1⟩ := r
      rw [hb] at h
      cases f1 with
      | true => simp at h
      | false =>
        simp only at h
        obtain ⟨ih1, ih2⟩ := ih (fun b hb => hbs b (by simp [hb])) h
        have hgood := hbs b (by simp)
        have hlt : ∀ p ∈ b, p.1 < samples.length := fun p hp =>
          (List.getElem?_eq_some_iff.mp (hgood.2 p hp)).1
        rcases runBatch_ok hb with ⟨-, -, -, -, hf⟩ | ⟨-, ws, new, ha, hc⟩
        · cases hf
        · obtain ⟨-, -, -, -, a5, a6⟩ := addAll_ok hgood.1 ha
          have h6 := a6 _ hlt
          simp only at h6 a5
          rcases hc with ⟨-, -, -, hf⟩ | ⟨-, hn, hst, hk, -⟩ | ⟨-, hn, hst, hk, -⟩
          · cases hf
          · rw [hst] at ih1 ih2
            simp only at ih1 ih2
            refine ⟨by omega, ih2⟩
          · obtain ⟨sol, -, hp, he⟩ := solve_ok hst
            have hws := prune_zero hw hp
            simp only at hws
            rw [hws] at ih1
            refine ⟨by omega, ?_⟩
            rw [ih2, he]

/-- **C43, termination.** Without pruning (`inactive_window=0`), if loss-augmented inference only ever returns
outputs from a finite list for each sample, and `max_iter` exceeds the total number of these outputs (plus one
if inference methods are switched), then training ends because the stopping criterion is met, not because
`max_iter` is reached. -/
theorem C43_terminates (m : SModel X Y) (qp : QP.Solver) (eq : Y → Y → Bool) (hrefl : ∀ y, eq y y = true)
    (alt : Option ((X → Y → W → Bool → Y) × (X → W → Y))) (intr : ℕ → ℕ → Option Phase)
    (o o' : NSlack.Obj Y) (hw : o.cfg.inactiveWindow = 0) (samples : List (X × Y)) (outs : X × Y → List Y)
    (hla : ∀ s ∈ samples, ∀ w, m.lossAug s.1 s.2 w true ∈ outs s)
    (hla' : ∀ p, alt = some p → ∀ s ∈ samples, ∀ w, p.1 s.1 s.2 w true ∈ outs s) (out : Outcome)
    (hmax : (samples.map fun s => (outs s).length).sum + (if alt = none then 0 else 1) < o.cfg.maxIter)
    (h : NSlack.fit m qp eq alt intr o samples none = .ok (o', out)) : out ≠ .goOn := by
  obtain ⟨st0, st, obj, primal, hs, hl, -, -, -, rfl⟩ := fit_ok h
  set N := (samples.map fun s => (outs s).length).sum with hN
  have hbound : ∀ st : NSlack.St X Y, Inv43 m alt eq True (fun _ s c => WasViolated m alt s c) samples st →
      offset st.ws samples.length ≤ N := by
    intro st hI
    have h1 := offset_le_sum (ws := st.ws) (n := samples.length)
      (B := fun i => ((samples[i]?).map fun s => (outs s).length).getD 0) (by
      intro i hi
      have hgi : samples[i]? = some samples[i] := List.getElem?_eq_getElem hi
      obtain ⟨d1, d2⟩ := hI.2 i samples[i] hgi
      rw [hgi, Option.map_some, Option.getD_some]
      refine distinct_length hrefl (d1 trivial) fun c hc => ?_
      obtain ⟨w, la, hla1, hy, -⟩ := d2 c hc
      rw [hy]
      rcases hla1 with rfl | ⟨p, hp, rfl⟩
      · exact hla _ (List.getElem_mem hi) w
      · exact hla' p hp _ (List.getElem_mem hi) w)
    refine h1.trans (le_of_eq ?_)
    rw [hN]
    congr 1
    apply List.ext_getElem
    · simp
    · intro i h1 h2
      simp at h1
      simp [h1]
  have key : ∀ fuel it (st st' : NSlack.St X Y) out,
      Inv43 m alt eq True (fun _ s c => WasViolated m alt s c) samples st →
      NSlack.loop qp eq alt o.cfg samples intr fuel it st = .ok (st', out) →
      N + (if alt = none ∨ st.switched = true then 0 else 1) < fuel + offset st.ws samples.length →
      out ≠ .goOn := by
    intro fuel
    induction fuel with
    | zero =>
      intro it st st' out hI _ hf
      have := hbound st hI
      omega
    | succ fuel ih =>
      intro it st st' out hI hlp hf
      unfold NSlack.loop at hlp
      cases hi : NSlack.iteration qp eq alt o.cfg samples it (intr it) st with
      | error err => rw [hi] at hlp; cases hlp
      | ok r =>
        obtain ⟨st1, o1⟩ := r
        rw [hi] at hlp
        have hI1 := inv43_iteration (fun _ _ _ _ h => h) hI hi
        cases o1 with
        | goOn =>
          refine ih (it + 1) st1 st' out hI1 hlp ?_
          obtain ⟨bs, hb, st2, s2, k, fl, hr, hc⟩ := iteration_ok hi
          rcases hc with ⟨-, -, hx⟩ | ⟨rfl, obj, lc, -, hc⟩
          · cases hx
          · obtain ⟨g1, g2⟩ := batches_grow hw (batches_good hb) hr
            rcases hc with ⟨hk, -, -, rfl⟩ | ⟨-, ⟨la, inf, halt, hsw, -, rfl⟩ | ⟨-, hx, -⟩⟩
            · simp only
              rw [g2]
              omega
            · simp only
              rw [← g2, if_neg (by rw [halt, hsw]; simp)] at hf
              rw [if_pos (.inr trivial)]
              omega
            · cases hx
        | interrupted =>
          simp only [Except.ok.injEq, Prod.mk.injEq] at hlp
          rw [← hlp.2]
          simp
        | stopped b =>
          simp only [Except.ok.injEq, Prod.mk.injEq] at hlp
          rw [← hlp.2]
          simp
  refine key _ _ _ _ _ (inv43_start (by intro cs hcs; cases hcs) hs) hl ?_
  rcases start_ok hs with ⟨-, rfl⟩ | ⟨cs, a, hcs, -⟩
  · simpa using by omega
  · cases hcs

/-! ### C50, C51, C61 -/

/-- **C50, batches of NSlackSSVM.** Whenever the batches of an iteration are computed they contain every
sample exactly once, in order; none is empty or larger than `batch_size` (than the number of samples, for
`batch_size=-1`), and their sizes differ by at most one. -/
theorem C50_n_slack {α : Type} (data : List α) (b : ℤ) (bs : List (List α))
    (h : NSlack.batches data b = .ok bs) :
    bs.flatten = data ∧ (b = -1 ∨ 0 < b) ∧
    (∀ c ∈ bs, c ≠ [] ∧ (c.length : ℤ) ≤ if b = -1 then (data.length : ℤ) else b) ∧
    ∀ c ∈ bs, ∀ c' ∈ bs, c.length ≤ c'.length + 1 := by
  obtain ⟨h1, -, h3, h4, h5⟩ := batches_ok h
  exact ⟨h1, h3, h4, h5⟩

example : NSlack.batches [0, 1, 2, 3, 4] 2 = .ok [[0, 1], [2, 3], [4]] := by decide +kernel

example : NSlack.batches [0, 1, 2, 3, 4] (-1) = .ok [[0, 1, 2, 3, 4]] := by decide +kernel

example : NSlack.batches [0, 1, 2, 3, 4] 0 = .error .valueError := by decide +kernel

/-- the solution of a QP is feasible. -/
theorem solveQP_feasible {qp : QP.Solver} (hqp : QP.Sound qp) {dim : ℕ} {neg : Option (List ℕ)} {C : ℚ} {n : ℕ}
    {ws : WS Y} {sol : QP.Solution} (h : NSlack.solveQP qp dim neg C n ws = .ok sol) :
    ∃ eps : ℚ, (eps = 0 ∨ eps = 1 / 10 ^ 8) ∧ qp (NSlack.qpOf dim neg C n ws eps) = some sol ∧
      (NSlack.qpOf dim neg C n ws eps).Feasible sol.x ∧
      sol.primalObjective = (NSlack.qpOf dim neg C n ws eps).value sol.x := by
  unfold NSlack.solveQP at h
  split_ifs at h
  split at h
  · rename_i s1 h1
    rw [Except.ok.injEq] at h
    subst h
    exact ⟨0, .inl rfl, h1, hqp _ _ h1⟩
  · split at h
    · rename_i s1 h1
      rw [Except.ok.injEq] at h
      subst h
      exact ⟨_, .inr rfl, h1, hqp _ _ h1⟩
    · cases h

/-- an invariant that every solved QP establishes and that nothing else changes. -/
theorem after_solve {m : SModel X Y} {qp : QP.Solver} {eq : Y → Y → Bool}
    {alt : Option ((X → Y → W → Bool → Y) × (X → W → Y))} {intr : ℕ → ℕ → Option Phase} {o : NSlack.Obj Y}
    {samples : List (X × Y)} {cons : Option (List (List (NCon Y)))} {out : Outcome} (I : W → Prop)
    (hI : ∀ (st st' : NSlack.St X Y), NSlack.solve qp o.cfg samples.length st = .ok st' → I st'.w)
    {st0 st : NSlack.St X Y} (hs : NSlack.start m qp o samples.length cons = .ok st0)
    (hl : NSlack.loop qp eq alt o.cfg samples intr o.cfg.maxIter 0 st0 = .ok (st, out)) :
    st.objective ≠ none → I st.w := by
  refine loop_induct (fun st => st.objective ≠ none → I st.w) ?_ ?_ hl
  · intro it st st' out h0 hit
    refine iteration_induct (fun st => st.objective ≠ none → I st.w) ?_ (fun st obj lc pc h _ => h)
      (fun st la inf h _ => h) h0 hit
    intro j b hb st s k st' s' k' fl h0 hr
    rcases runBatch_ok hr with ⟨-, rfl, -⟩ | ⟨-, ws, new, ha, hc⟩
    · exact h0
    · rcases hc with ⟨-, rfl, -⟩ | ⟨-, -, rfl, -⟩ | ⟨-, -, hs, -⟩
      · exact h0
      · exact h0
      · exact fun _ => hI _ _ hs
  · rcases start_ok hs with ⟨-, rfl⟩ | ⟨cs, a, hcs, -, hlen, -, hsol⟩
    · intro h; exact absurd rfl h
    · exact fun _ => hI _ _ hsol

/-- **C61, n-slack.** After a successful `fit` the weights listed in `negativity_constraint` are at most 0,
whenever the solver returns feasible points. -/
theorem C61_n_slack (m : SModel X Y) (qp : QP.Solver) (hqp : QP.Sound qp) (eq : Y → Y → Bool)
    (alt : Option ((X → Y → W → Bool → Y) × (X → W → Y))) (intr : ℕ → ℕ → Option Phase)
    (o o' : NSlack.Obj Y) (samples : List (X × Y)) (cons : Option (List (List (NCon Y)))) (out : Outcome)
    (ks : List ℕ) (hn : o.cfg.negativity = some ks)
    (h : NSlack.fit m qp eq alt intr o samples cons = .ok (o', out)) :
    ∃ a, o'.attrs = some a ∧ ∀ k ∈ ks, a.w k ≤ 0 := by
  obtain ⟨st0, st, obj, primal, hs, hl, -, -, ho, rfl⟩ := fit_ok h
  refine ⟨_, rfl, ?_⟩
  refine after_solve (fun w => ∀ k ∈ ks, w k ≤ 0) ?_ hs hl (by rw [ho]; simp)
  intro st st' hsol
  obtain ⟨sol, hq, -, he⟩ := solve_ok hsol
  obtain ⟨eps, -, -, hf, -⟩ := solveQP_feasible hqp hq
  have := ((feasible_qpOf _ _ _ _ _ _ _).mp hf).2.2.2
  rw [hn, Option.getD_some] at this
  rw [he]
  exact this

end Verif.Props
