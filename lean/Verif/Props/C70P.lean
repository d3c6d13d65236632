import Verif.Spec.Pruning
import Verif.Props.C67N
import Verif.Props.C70

/-!
# C70 and C72: what holds for given constraints and for pruning in NSlackSSVM
-/

namespace Verif.Props

open Finset Verif.Spec Verif.Learner Verif.NSlack
open Verif.OneSlack (Phase weightsOf)

variable {X Y : Type}

/-! ### C70 -/

/-- **C70, what holds.** Constraints given to a fitted learner are accepted, and `fit` returns wherever it is
interrupted, if there is at least one of them and if pruning is off or each sample has as many of them as the learner
has counters for it, or one more. -/
theorem C70_returns_partial (m : SModel X Y) (qp : QP.Solver) (hqp : QP.Exact qp) (hcomp : QP.Complete qp)
    (eq : Y → Y → Bool) (alt : Option ((X → Y → W → Bool → Y) × (X → W → Y))) (intr : ℕ → ℕ → Option Phase)
    (o : NSlack.Obj Y) (hbr : o.cfg.breakOnBad = false) (hbat : o.cfg.batchSize = -1 ∨ 0 < o.cfg.batchSize)
    (hC : 0 ≤ o.cfg.C) (hneg : ∀ k ∈ o.cfg.negativity.getD [], k < m.dim) (hit : o.cfg.maxIter ≠ 0)
    (samples : List (X × Y)) (a : Attrs Y) (ha : o.attrs = some a) (hn : samples.length ≤ a.n)
    (cs : List (List (NCon Y))) (hlen : cs.length = samples.length) (hsome : ∃ l ∈ cs, l ≠ [])
    (hcnt : o.cfg.inactiveWindow = 0 ∨ ∀ i l, cs[i]? = some l →
      (a.lastActive i).length ≤ l.length ∧ l.length ≤ (a.lastActive i).length + 1) :
    ∃ o' out, NSlack.fit m qp eq alt intr o samples (some cs) = .ok (o', out) := by
  obtain ⟨l0, hl0, hl0'⟩ := hsome
  have hne : samples ≠ [] := by
    rintro rfl
    rw [List.length_nil, List.length_eq_zero_iff] at hlen
    rw [hlen] at hl0
    cases hl0
  have hget : ∀ i (hi : i < cs.length), cs.getD i [] = cs[i] := fun i hi => by
    simp [List.getD_eq_getElem?_getD, hi]
  have hoff : offset (fun i => cs.getD i []) samples.length ≠ 0 := by
    obtain ⟨i, hi, rfl⟩ := List.getElem_of_mem hl0
    unfold offset
    intro h
    rw [List.sum_eq_zero_iff] at h
    have := h (cs.getD i []).length (List.mem_map.mpr ⟨i, List.mem_range.mpr (by omega), rfl⟩)
    rw [hget i hi, List.length_eq_zero_iff] at this
    exact hl0' this
  obtain ⟨sol, hsol⟩ := nsolveQP_total hcomp hneg hC hoff
  have hlenx : sol.x.length = offset (fun i => cs.getD i []) samples.length := by
    obtain ⟨eps, -, -, hf, -⟩ := solveQP_feasible hqp.1 hsol
    exact ((feasible_qpOf _ _ _ _ _ _ _).mp hf).1
  have hp : ∃ ws la, NSlack.prune o.cfg samples.length (fun i => cs.getD i []) a.lastActive sol.x = .ok (ws, la) ∧
      (o.cfg.inactiveWindow = 0 ∨ Counted o.cfg samples.length ws la) := by
    by_cases hw : o.cfg.inactiveWindow = 0
    · refine ⟨fun i => cs.getD i [], a.lastActive, ?_, .inl hw⟩
      unfold NSlack.prune
      rw [if_pos hw]
    · obtain ⟨ws, la, h1, h2⟩ := prune_counted hw (la := a.lastActive) hlenx (fun i hi => by
        have hi' : i < cs.length := by omega
        rw [hget i hi']
        exact hcnt.resolve_left hw i _ (List.getElem?_eq_getElem hi'))
      exact ⟨ws, la, h1, .inr h2⟩
  obtain ⟨ws, la, hp1, hp2⟩ := hp
  have hst : ∃ st, NSlack.start m qp o samples.length (some cs) = .ok st ∧ NReady o.cfg m.dim samples.length st ∧
      st.objective ≠ none := by
    unfold NSlack.start
    simp only
    rw [if_neg (not_not.mpr hlen), hsol, ha]
    simp only
    rw [if_neg (by omega)]
    unfold NSlack.solve
    simp only [hsol, hp1]
    exact ⟨_, rfl, ⟨rfl, hp2⟩, by simp⟩
  obtain ⟨st, h1, h2, h3⟩ := hst
  unfold NSlack.fit
  rw [h1]
  simp only
  rcases nloop_total hqp hcomp eq alt hbr hbat hC hneg hne intr o.cfg.maxIter 0 st h2 with ⟨st', out, e1, e2⟩ | ⟨e1, -⟩
  · rw [e1]
    simp only
    rw [if_neg hit, objectivePrimal_ok _ _ _ _ _ hne]
    simp only
    cases hob : st'.objective with
    | none => exact absurd hob (e2 h3)
    | some v => exact ⟨_, _, rfl⟩
  · exact absurd e1 h3

/-- **C70, continuing a fit.** `fit(X, Y, constraints=learner.constraints_)` after a `fit(X, Y)` that was not
interrupted returns, if a constraint is left. -/
theorem C70_own_partial (m : SModel X Y) (qp : QP.Solver) (hqp : QP.Exact qp) (hcomp : QP.Complete qp)
    (eq : Y → Y → Bool) (alt : Option ((X → Y → W → Bool → Y) × (X → W → Y))) (intr : ℕ → ℕ → Option Phase)
    (o : NSlack.Obj Y) (hbr : o.cfg.breakOnBad = false) (hbat : o.cfg.batchSize = -1 ∨ 0 < o.cfg.batchSize)
    (hC : 0 ≤ o.cfg.C) (hneg : ∀ k ∈ o.cfg.negativity.getD [], k < m.dim)
    (samples : List (X × Y)) (o1 : NSlack.Obj Y) (out1 : Outcome)
    (h : NSlack.fit m qp eq alt (fun _ _ => none) o samples none = .ok (o1, out1)) :
    ∃ a, o1.attrs = some a ∧ ((∃ i < samples.length, a.constraints i ≠ []) →
      ∃ o2 out2, NSlack.fit m qp eq alt intr o1 samples (some ((List.range samples.length).map a.constraints)) =
        .ok (o2, out2)) := by
  obtain ⟨st0, st, obj, primal, -, -, hit, -, -, he⟩ := fit_ok h
  have hattrs : o1.attrs = some ⟨samples.length, st.w, st.ws, st.lastActive, st.objectiveCurve ++ [obj],
      st.primalCurve ++ [primal]⟩ := by rw [he]
  have hcfg : o1.cfg = o.cfg := by rw [he]
  refine ⟨_, hattrs, ?_⟩
  rintro ⟨i, hi, hne⟩
  refine C70_returns_partial m qp hqp hcomp eq alt intr o1 (by rw [hcfg]; exact hbr) (by rw [hcfg]; exact hbat)
    (by rw [hcfg]; exact hC) (by rw [hcfg]; exact hneg) (by rw [hcfg]; exact hit) samples _ hattrs le_rfl _ (by simp)
    ⟨st.ws i, List.mem_map.mpr ⟨i, List.mem_range.mpr hi, rfl⟩, hne⟩ ?_
  by_cases hw : o.cfg.inactiveWindow = 0
  · rw [hcfg]
    exact .inl hw
  · right
    obtain ⟨a, ha, hb⟩ := C43_bookkeeping m qp hqp.1 eq alt o o1 hw samples out1 h
    have haa := Option.some.inj (ha.symm.trans hattrs)
    subst haa
    intro j l hj
    obtain ⟨hjl, rfl⟩ := List.getElem?_eq_some_iff.mp hj
    have hj' : j < samples.length := by simpa using hjl
    have := (hb j hj').1
    simp only [List.getElem_map, List.getElem_range]
    simp only at this
    omega

/-! ### C72 -/

theorem flatMap_slice (ws : WS Y) (a : List ℚ) (n : ℕ) :
    (List.range n).flatMap (slice ws a) = a.take (offset ws n) := by
  induction n with
  | zero => simp [offset]
  | succ n ih =>
    rw [List.range_succ, List.flatMap_append, ih, offset_succ]
    simp only [List.flatMap_cons, List.flatMap_nil, List.append_nil]
    unfold slice
    rw [List.take_add]

/-- the counter of an element after one more program. -/
theorem idle_snoc (thr : ℚ) (l : List ℚ) (x : ℚ) :
    idle thr (l ++ [x]) = if x < thr then idle thr l + 1 else idle thr l := by
  unfold idle
  rw [List.filter_append, List.length_append]
  split_ifs with h <;> simp [h]

theorem zipWith_tracked (cfg : NSlack.Config) (h : List (NCon Y × List ℚ)) (x : List ℚ) :
    List.zipWith (fun c x => if x < cfg.inactiveThreshold * cfg.C then c + 1 else c)
        (h.map fun p => idle (cfg.inactiveThreshold * cfg.C) p.2) x =
      (List.zipWith (fun p x => (p.1, p.2 ++ [x])) h x).map fun p => idle (cfg.inactiveThreshold * cfg.C) p.2 := by
  induction h generalizing x with
  | nil => simp
  | cons p h ih =>
    cases x with
    | nil => simp
    | cons x xs => simp only [List.map_cons, List.zipWith_cons_cons, ih, idle_snoc]

theorem zipWith_fst {β : Type} (h : List (NCon Y × List β)) (x : List β) (hl : x.length = h.length) :
    (List.zipWith (fun p x => (p.1, p.2 ++ [x])) h x).map Prod.fst = h.map Prod.fst := by
  induction h generalizing x with
  | nil => simp
  | cons p h ih =>
    cases x with
    | nil => simp at hl
    | cons x xs =>
      simp only [List.length_cons, Nat.add_right_cancel_iff] at hl
      simp only [List.zipWith_cons_cons, List.map_cons, ih xs hl]

theorem kept_map {β γ : Type} (cfg : NSlack.Config) (g : β → γ) (cnt : β → ℕ) (l : List β) :
    kept cfg (l.map cnt) (l.map g) = (l.filter fun p => decide (cnt p ≤ cfg.inactiveWindow)).map g := by
  unfold kept
  induction l with
  | nil => rfl
  | cons p l ih =>
    simp only [List.map_cons, List.zip_cons_cons, List.filter_cons]
    by_cases h : cnt p ≤ cfg.inactiveWindow
    · have h' : ¬ cfg.inactiveWindow < cnt p := by omega
      simp only [h, h', decide_true, decide_false, Bool.not_false, if_true, List.map_cons, ih]
    · have h' : cfg.inactiveWindow < cnt p := by omega
      simp only [h, h', decide_true, decide_false, Bool.not_true, if_false, ih, Bool.false_eq_true]

/-- the working set and the counters of one sample are those of the machine. -/
def Tracks (cfg : NSlack.Config) (ws : WS Y) (la : ℕ → List ℕ) (h : ℕ → List (NCon Y × List ℚ)) : Prop :=
  ∀ i, ws i = (h i).map Prod.fst ∧ la i = (h i).map fun p => idle (cfg.inactiveThreshold * cfg.C) p.2

/-- pruning does one step of the machine. -/
theorem prune_tracks {cfg : NSlack.Config} (hw : cfg.inactiveWindow ≠ 0) {n : ℕ} {ws ws1 ws' : WS Y}
    {la la' : ℕ → List ℕ} {a : List ℚ} {h : ℕ → List (NCon Y × List ℚ)} (new : ℕ → Option (NCon Y))
    (ht : Tracks cfg ws la h) (hnew : ∀ i, ws1 i = ws i ++ (new i).toList) (hout : ∀ i, n ≤ i → ws1 i = [])
    (ha : a.length = offset ws1 n) (hp : NSlack.prune cfg n ws1 la a = .ok (ws', la')) :
    Tracks cfg ws' la' fun i => afterProgram (cfg.inactiveThreshold * cfg.C) cfg.inactiveWindow
      (h i ++ (new i).toList.map fun c => (c, [])) (slice ws1 a i) := by
  unfold NSlack.prune at hp
  rw [if_neg hw] at hp
  split_ifs at hp with hany
  simp only [Except.ok.injEq, Prod.mk.injEq] at hp
  obtain ⟨rfl, rfl⟩ := hp
  intro i
  simp only
  obtain ⟨h1, h2⟩ := ht i
  have hws : ws1 i = (h i ++ (new i).toList.map fun c => (c, ([] : List ℚ))).map Prod.fst := by
    rw [hnew, h1, List.map_append, List.map_map]
    simp [Function.comp_def]
  by_cases he : (ws1 i).isEmpty = true
  · rw [if_pos he, if_pos he]
    have he' : ws1 i = [] := by simpa using he
    have hh : h i ++ (new i).toList.map (fun c => (c, ([] : List ℚ))) = [] := by
      rw [he'] at hws
      exact (List.map_eq_nil_iff.mp hws.symm)
    have hh0 : h i = [] := (List.append_eq_nil_iff.mp hh).1
    rw [he', hh, h2, hh0]
    simp [afterProgram]
  · rw [if_neg he, if_neg he]
    have hi : i < n := by
      by_contra hc
      rw [hout i (by omega)] at he
      exact he rfl
    have hsl := slice_length ws1 ha hi
    have hla : grown (ws1 i) (la i) =
        (h i ++ (new i).toList.map fun c => (c, ([] : List ℚ))).map
          fun p => idle (cfg.inactiveThreshold * cfg.C) p.2 := by
      unfold grown
      rw [hnew, h1, h2, List.map_append]
      cases new i with
      | none => simp
      | some c => simp [idle]
    have hcnt : counted cfg (ws1 i) (la i) (slice ws1 a i) =
        (List.zipWith (fun p x => (p.1, p.2 ++ [x])) (h i ++ (new i).toList.map fun c => (c, ([] : List ℚ)))
          (slice ws1 a i)).map fun p => idle (cfg.inactiveThreshold * cfg.C) p.2 := by
      unfold counted
      rw [hla]
      exact zipWith_tracked cfg _ _
    have hlen : (slice ws1 a i).length = (h i ++ (new i).toList.map fun c => (c, ([] : List ℚ))).length := by
      rw [hsl, hws, List.length_map]
    have hws2 : ws1 i = (List.zipWith (fun p x => (p.1, p.2 ++ [x]))
        (h i ++ (new i).toList.map fun c => (c, ([] : List ℚ))) (slice ws1 a i)).map Prod.fst := by
      rw [zipWith_fst _ _ hlen]
      exact hws
    rw [hcnt]
    unfold afterProgram
    generalize List.zipWith (fun (p : NCon Y × List ℚ) x => (p.1, p.2 ++ [x]))
      (h i ++ (new i).toList.map fun c => (c, ([] : List ℚ))) (slice ws1 a i) = z at hws2 ⊢
    rw [hws2]
    exact ⟨kept_map cfg Prod.fst (fun p : NCon Y × List ℚ => idle (cfg.inactiveThreshold * cfg.C) p.2) z,
      kept_map cfg (fun p : NCon Y × List ℚ => idle (cfg.inactiveThreshold * cfg.C) p.2)
        (fun p : NCon Y × List ℚ => idle (cfg.inactiveThreshold * cfg.C) p.2) z⟩

/-- **C72, what holds: `inactive_window` bounds the total inactivity.** The working sets after an uninterrupted `fit`
with a positive window are those of the machine that notes down all multipliers of a constraint, and removes it after
the first QP at which its multiplier has been below `inactive_threshold * C` in more than `inactive_window` of the QPs
solved since it was added, whether these were consecutive or not; `last_active` holds the number of such QPs. -/
theorem C72_total_partial (m : SModel X Y) (qp : QP.Solver) (hqp : QP.Sound qp) (eq : Y → Y → Bool)
    (alt : Option ((X → Y → W → Bool → Y) × (X → W → Y))) (o o' : NSlack.Obj Y)
    (hw : o.cfg.inactiveWindow ≠ 0) (samples : List (X × Y)) (out : Outcome)
    (h : NSlack.fit m qp eq alt (fun _ _ => none) o samples none = .ok (o', out)) :
    ∃ a hist, o'.attrs = some a ∧
      Reached (fun ws x => ∃ sol, NSlack.solveQP qp m.dim o.cfg.negativity o.cfg.C samples.length ws = .ok sol ∧
        sol.x = x) (o.cfg.inactiveThreshold * o.cfg.C) o.cfg.inactiveWindow samples.length hist ∧
      ∀ i, a.constraints i = (hist i).map Prod.fst ∧
        a.lastActive i = (hist i).map fun p => idle (o.cfg.inactiveThreshold * o.cfg.C) p.2 := by
  obtain ⟨st0, st, obj, primal, hs, hl, -, -, -, rfl⟩ := fit_ok h
  set R := Reached (α := NCon Y) (fun ws x => ∃ sol, NSlack.solveQP qp m.dim o.cfg.negativity o.cfg.C samples.length ws =
    .ok sol ∧ sol.x = x) (o.cfg.inactiveThreshold * o.cfg.C) o.cfg.inactiveWindow samples.length with hR
  have key : st.model.dim = m.dim ∧ (∀ i, samples.length ≤ i → st.ws i = []) ∧
      ∃ hist, R hist ∧ Tracks o.cfg st.ws st.lastActive hist := by
    refine loop_induct (fun st => st.model.dim = m.dim ∧ (∀ i, samples.length ≤ i → st.ws i = []) ∧
      ∃ hist, R hist ∧ Tracks o.cfg st.ws st.lastActive hist) ?_ ?_ hl
    · intro it st st' out hI hit
      refine iteration_induct (fun st => st.model.dim = m.dim ∧ (∀ i, samples.length ≤ i → st.ws i = []) ∧
        ∃ hist, R hist ∧ Tracks o.cfg st.ws st.lastActive hist) ?_
        (fun st obj lc pc hI _ => hI) (fun st la inf hI _ => hI) hI hit
      intro j b hb st s k st' s' k' fl ⟨hd, hout, hist, hr, ht⟩ hrun
      rcases runBatch_ok hrun with ⟨hs, -⟩ | ⟨-, ws, new, ha, hc⟩
      · cases hs
      · obtain ⟨a1, a2, -, -, a5, -⟩ := addAll_ok hb.1 ha
        rcases hc with ⟨hs, -⟩ | ⟨-, hn, rfl, -⟩ | ⟨-, -, hs, -⟩
        · cases hs
        · have := (a5 hn).1
          simp only at this
          simp only [this]
          exact ⟨hd, hout, hist, hr, ht⟩
        · obtain ⟨sol, hq, hp, he⟩ := solve_ok hs
          have hgrow : ∀ i, ∃ c : Option (NCon Y), ws i = st.ws i ++ c.toList := by
            intro i
            by_cases hmem : i ∈ b.map Prod.fst
            · obtain ⟨p, hp, rfl⟩ := List.mem_map.mp hmem
              rcases a2 p hp with ⟨-, e⟩ | ⟨-, -, e⟩
              · exact ⟨none, by simpa using e⟩
              · exact ⟨some _, by simpa using e⟩
            · exact ⟨none, by simpa using a1 i hmem⟩
          choose nw hnw using hgrow
          have hout1 : ∀ i, samples.length ≤ i → ws i = [] := by
            intro i hi
            have : i ∉ b.map Prod.fst := by
              intro hmem
              obtain ⟨p, hp, rfl⟩ := List.mem_map.mp hmem
              have := (List.getElem?_eq_some_iff.mp (hb.2 p hp)).1
              omega
            exact (a1 i this).trans (hout i hi)
          have hlenx : sol.x.length = offset ws samples.length := by
            obtain ⟨eps, -, -, hf, -⟩ := solveQP_feasible hqp hq
            exact ((feasible_qpOf _ _ _ _ _ _ _).mp hf).1
          have ht' := prune_tracks hw nw ht hnw hout1 hlenx hp
          have hdim : st'.model.dim = m.dim := by rw [he]; exact hd
          have hwseq : (fun i => (hist i).map Prod.fst ++ (nw i).toList) = ws := by
            funext i
            rw [hnw i, (ht i).1]
          refine ⟨hdim, ?_, _, ?_, ht'⟩
          · intro i hi
            rw [(ht' i).1]
            simp only
            have h1 := hout1 i hi
            rw [hnw i, (ht i).1] at h1
            obtain ⟨h2, h3⟩ := List.append_eq_nil_iff.mp h1
            rw [List.map_eq_nil_iff] at h2
            rw [h2, h3]
            simp [afterProgram]
          · refine Reached.program hist nw sol.x (slice ws sol.x) hr ?_ ?_ ?_
            · refine ⟨sol, ?_, rfl⟩
              rw [hwseq]
              change NSlack.solveQP qp st.model.dim o.cfg.negativity o.cfg.C samples.length ws = _ at hq
              rw [hd] at hq
              exact hq
            · rw [flatMap_slice, ← hlenx, List.take_length]
            · intro i hi
              rw [slice_length ws hlenx hi, hnw i, List.length_append, (ht i).1, List.length_map]
    · rcases start_ok hs with ⟨-, rfl⟩ | ⟨cs, a, hcs, -⟩
      · exact ⟨rfl, fun _ _ => rfl, fun _ => [], Reached.start, fun i => ⟨rfl, rfl⟩⟩
      · cases hcs
  obtain ⟨-, -, hist, hr, ht⟩ := key
  exact ⟨_, hist, rfl, hr, ht⟩

/-- The hypotheses of `C72_total_partial` hold for the run of `C72_violated`, in which a constraint is removed. -/
example : QP.Sound (nTable 2 2 1 resetProblems) ∧ (exampleNS 4 2 100 1).cfg.inactiveWindow ≠ 0 ∧
    (NSlack.fit resetTable (nTable 2 2 1 resetProblems) natBeq none (fun _ _ => none)
      (exampleNS 4 2 100 1) [((), 0)] none).toOption.isSome :=
  ⟨(nTable_exact _ _ _ _ (by decide +kernel)).1, by decide, by decide +kernel⟩

/-- A constraint that was idle in two of three programs is removed by the machine for `window = 1`. -/
example : afterProgram 1 1 [((0 : ℕ), [0, 5])] [0] = [] ∧ afterProgram 1 2 [((0 : ℕ), [0, 5])] [0] = [(0, [0, 5, 0])] := by
  decide +kernel

/-- An ideal solver meets the hypotheses of `C70_returns_partial`; the learner and the constraint are those of
`C70_violated_other`, with one constraint instead of two. -/
example : QP.Exact QP.ideal ∧ QP.Complete QP.ideal ∧ fittedNS.cfg.breakOnBad = false ∧ 0 < fittedNS.cfg.batchSize ∧
    0 ≤ fittedNS.cfg.C ∧ fittedNS.cfg.maxIter ≠ 0 ∧
    (∀ (i : ℕ) (l : List (NCon ℕ)), [[wideCon 1]][i]? = some l → (0 : ℕ) ≤ l.length ∧ l.length ≤ 0 + 1) := by
  refine ⟨QP.ideal_exact.1, QP.ideal_exact.2, rfl, by decide, by decide +kernel, by decide, ?_⟩
  intro i l h
  cases i with
  | zero => cases h; decide
  | succ i => simp at h

end Verif.Props
