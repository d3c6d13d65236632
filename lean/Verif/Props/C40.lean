import Verif.Props.C39

/-!
# C40: the stopping rule of OneSlackSSVM
-/

namespace Verif.Props

open Finset Verif.Spec Verif.Learner Verif.OneSlack

variable {X Y : Type}

/-- the working set holds the constraint of the true outputs. -/
def HasTrue (dim : ℕ) (cs : List Con) : Prop := ∃ c ∈ cs, (∀ k < dim, c.1 k = 0) ∧ c.2 = 0

/-- what holds after a completed iteration. -/
def Tight (dim : ℕ) (cn δ : ℚ) (st : St X Y) : Prop :=
  ∀ v, st.objective = some v →
    (∀ c ∈ st.constraints, c.2 - dot dim st.w c.1 ≤ st.lastSlack) ∧ 0 ≤ st.lastSlack ∧
    (HasTrue dim st.constraints → dot dim st.w st.w / 2 + cn * st.lastSlack ≤ v + δ * cn ^ 2)

/-- the first attempt at solving the QP succeeds whenever one of the two does. -/
def FirstAttempt (qp : QP.Solver) (dim : ℕ) (cn : ℚ) : Prop :=
  ∀ cs sol, solveQP qp dim none cn cs = .ok sol → qp (qpOf dim none cn cs 0) = some sol

theorem newLastSlack_ok {dim : ℕ} {w : W} {cs : List Con} {s : ℚ}
    (h : newLastSlack dim w cs = .ok s) :
    (∀ c ∈ cs, c.2 - dot dim w c.1 ≤ s) ∧ 0 ≤ s ∧ (s = 0 ∨ ∃ c ∈ cs, s = c.2 - dot dim w c.1) := by
  unfold newLastSlack at h
  split at h
  · cases h
  · rename_i v hv
    rw [Except.ok.injEq] at h
    subst h
    rw [List.max?_eq_some_iff] at hv
    refine ⟨?_, le_max_right _ _, ?_⟩
    · intro c hc
      refine le_trans ?_ (le_max_left _ _)
      have := hv.2 (-dot dim w c.1 + c.2) (List.mem_map.mpr ⟨c, hc, rfl⟩)
      linarith
    · rcases le_total v 0 with h0 | h0
      · exact .inl (max_eq_right h0)
      · right
        obtain ⟨c, hc, he⟩ := List.mem_map.mp hv.1
        exact ⟨c, hc, by rw [max_eq_left h0, ← he]; ring⟩

theorem mem_con {cs : List Con} {c : Con} (h : c ∈ cs) : ∃ i < cs.length, con cs i = c := by
  obtain ⟨i, hi, rfl⟩ := List.getElem_of_mem h
  exact ⟨i, hi, by simp [con, List.getD_eq_getElem?_getD, hi]⟩

theorem iteration_tight {m : SModel X Y} {qp : QP.Solver}
    (hqp : QP.Exact qp) {eq : Y → Y → Except PyErr Bool}
    {alt : Option ((X → Y → W → Bool → Y) × (X → W → Y))} {cfg : Config} {samples : List (X × Y)}
    (hC : 0 ≤ cfg.C) (hneg : cfg.negativity = none) {gt : W} {δ : ℚ}
    (hδ : δ = 1 / 10 ^ 8 ∨ δ = 0 ∧ FirstAttempt qp m.dim (cfg.C * samples.length))
    {it : ℕ} {intr : Option Phase} (hintr : intr = none) {st st' : St X Y} {b : Bool}
    (hd : st.model.dim = m.dim) (hI : Tight m.dim (cfg.C * samples.length) δ st)
    (h : iteration qp eq alt cfg samples gt it intr st = .ok (st', b)) :
    st'.model.dim = m.dim ∧ Tight m.dim (cfg.C * samples.length) δ st' := by
  rcases iteration_ok h with ⟨rfl, -, -⟩ | ⟨la, inf, ha, hs, -, -, rfl⟩ | ⟨-, f, cd, cache, hfind, hadd⟩
  · exact ⟨hd, hI⟩
  · exact ⟨hd, hI⟩
  · obtain ⟨a1, a2, a3, -, -, a4⟩ := addConstraint_ok hadd
    simp only at a1 a4
    refine ⟨a1 ▸ hd, ?_⟩
    rcases a4 with ⟨h0, -⟩ | ⟨-, sol, c1, c2, c3, c4, c5⟩
    · rw [hintr] at h0; cases h0
    · rcases c5 with ⟨h0, -⟩ | ⟨-, -, -, -, d1⟩
      · rw [hintr] at h0; cases h0
      · rw [hd, hneg] at c1
        rw [hd] at d1
        obtain ⟨n1, n2, n3⟩ := newLastSlack_ok d1
        intro v hv
        rw [c4, Option.some.injEq] at hv
        refine ⟨n1, n2, ?_⟩
        intro ht
        set cs := st.constraints ++ [(f.dj, f.loss)] with hcs
        have hcn : 0 ≤ cfg.C * (samples.length : ℚ) := mul_nonneg hC (Nat.cast_nonneg _)
        obtain ⟨eps, e0, e1, e2⟩ : ∃ eps : ℚ, 0 ≤ eps ∧ eps ≤ δ ∧
            qp (qpOf m.dim none (cfg.C * samples.length) cs eps) = some sol := by
          rcases hδ with rfl | ⟨rfl, hf⟩
          · obtain ⟨eps, e0, e1, e2, -⟩ := solveQP_eps c1
            exact ⟨eps, e0, e1, e2⟩
          · exact ⟨0, le_rfl, le_rfl, hf _ _ c1⟩
        obtain ⟨hfe, hval⟩ := hqp.1 _ _ e2
        have hlen := ((feasible_qpOf _ _ _ _ _ _).mp hfe).1
        obtain ⟨-, -, psub, -, -⟩ := prune_facts cfg _ _ _ hlen c2
        have hall : ∀ c ∈ cs, dot m.dim st'.w st'.w / 2 +
            cfg.C * samples.length * (c.2 - dot m.dim st'.w c.1) ≤
              v + δ * (cfg.C * samples.length) ^ 2 := by
          intro c hc
          obtain ⟨i, hi, rfl⟩ := mem_con hc
          have := optimal_slack m.dim (cfg.C * samples.length) hcn cs eps e0 sol.x hfe
            (fun x' hx' => by rw [← hval]; exact hqp.2 _ _ e2 x' hx') i hi
          rw [← hval, hv, ← c3] at this
          have h2 : eps * (cfg.C * samples.length) ^ 2 ≤ δ * (cfg.C * samples.length) ^ 2 :=
            mul_le_mul_of_nonneg_right e1 (sq_nonneg _)
          linarith
        rcases n3 with h0 | ⟨c, hc, h0⟩
        · obtain ⟨c, hc, hz, hl⟩ := ht
          have h2 := hall c (psub.mem hc)
          have h3 : dot m.dim st'.w c.1 = 0 := by
            unfold dot
            exact sum_eq_zero fun k hk => by rw [hz k (mem_range.mp hk), mul_zero]
          rw [h3, hl, sub_zero] at h2
          rw [h0]
          exact h2
        · rw [h0]
          exact hall c (psub.mem hc)

/-- the mean violation that `_find_new_constraint` computes. -/
theorem findNew_violation {m : SModel X Y} {outputs : X → Set Y} {cfg : Config} {st : St X Y}
    {samples : List (X × Y)} (hne : samples ≠ [])
    (hLA : (problemOf m outputs).ExactLossAug fun x y w => st.model.lossAug x y w true)
    (hm : st.model = { m with lossAug := st.model.lossAug, inference := st.model.inference })
    (hl : (problemOf m outputs).Labelled samples) (htol : 0 ≤ cfg.tol)
    (hls : ∀ c ∈ st.constraints, c.2 - dot m.dim st.w c.1 ≤ st.lastSlack) (hls0 : 0 ≤ st.lastSlack)
    (h : findNew cfg st (jointFeatureGt m samples) samples = .ok none) :
    (samples.map (sampleSlack st.model st.w)).sum ≤ samples.length * (st.lastSlack + cfg.tol) := by
  have hd : st.model.dim = m.dim := by rw [hm]
  have hf : ∀ x yh y, st.model.feat x yh y = m.feat x yh y := by intro x yh y; rw [hm]; rfl
  have hlo : ∀ y yh, st.model.lossOf y yh = m.lossOf y yh := by intro y yh; rw [hm]; rfl
  have hP : problemOf st.model outputs = problemOf m outputs := by rw [hm]; rfl
  unfold findNew at h
  simp only at h
  split at h
  · cases h
  · rename_i hb
    rw [hd] at hb
    have := checkBad_true htol rfl hls hls0 hb
    have hn : (0 : ℚ) < samples.length := by
      have := List.length_pos_of_ne_nil hne
      exact_mod_cast this
    have key : (samples.map (sampleSlack st.model st.w)).sum =
        samples.length * ((((samples.map fun s => (s, st.model.lossAug s.1 s.2 st.w true)).map
          fun p => st.model.lossOf p.1.2 p.2).sum / samples.length) -
        dot m.dim st.w fun k => (jointFeatureGt m samples k -
          ((samples.map fun s => (s, st.model.lossAug s.1 s.2 st.w true)).map
            fun p => st.model.feat p.1.1 p.2 p.1.2 k).sum) / samples.length) := by
      rw [List.map_map, mul_sub, mul_div_cancel₀ _ hn.ne']
      have e1 : (samples.length : ℚ) * dot m.dim st.w (fun k => (jointFeatureGt m samples k -
          ((samples.map fun s => (s, st.model.lossAug s.1 s.2 st.w true)).map
            fun p => st.model.feat p.1.1 p.2 p.1.2 k).sum) / samples.length) =
          (samples.map fun s => dot m.dim st.w fun k =>
            m.feat s.1 s.2 s.2 k - m.feat s.1 (st.model.lossAug s.1 s.2 st.w true) s.2 k).sum := by
        unfold dot
        rw [mul_sum, ← list_sum_finset]
        refine sum_congr rfl fun k _ => ?_
        simp only
        rw [list_sum_mul_left, list_sum_sub, List.map_map]
        unfold jointFeatureGt
        simp only [Function.comp_def, hf]
        field_simp
      rw [e1, ← list_sum_sub]
      congr 1
      refine List.map_congr_left fun s hs => ?_
      obtain ⟨hy, h0⟩ := hl s hs
      obtain ⟨hh, -, -, hv, hvl, -, -⟩ := C29_slack st.model outputs true (by rw [hP]; exact hLA) s.1 s.2 st.w hy
        (by rw [hlo]; exact h0)
      change (findConstraint st.model s.1 s.2 st.w none true true).slack = _
      have e2 : (findConstraint st.model s.1 s.2 st.w none true true).yhat =
          st.model.lossAug s.1 s.2 st.w true := rfl
      rw [hv, hP, e2]
      unfold Problem.violation Problem.value
      change m.lossOf s.2 _ + _ - _ = st.model.lossOf s.2 _ - _
      rw [hlo, dot_sub_right]
      unfold dot
      change _ + ∑ k ∈ range m.dim, st.w k * m.feat s.1 _ s.2 k -
        ∑ k ∈ range m.dim, st.w k * m.feat s.1 s.2 s.2 k = _
      ring
    rw [key]
    exact mul_le_mul_of_nonneg_left this hn.le
  · cases h

/-- number of values in `objective_curve_` when the loop starts. -/
def startLen (o : Obj Y) : Warm → ℕ
  | .no => 0
  | _ => (o.attrs.map fun a => a.objectiveCurve.length).getD 0

theorem start_len {m : SModel X Y} {o : Obj Y} {warm : Warm} {st : St X Y} (h : start m o warm = .ok st) :
    st.objectiveCurve.length = startLen o warm := by
  unfold start at h
  simp only at h
  split at h
  · rw [Except.ok.injEq] at h; subst h; rfl
  · rename_i a ha
    rw [Except.ok.injEq] at h; subst h
    simp [startLen, ha]
  · rename_i ha
    rw [Except.ok.injEq] at h; subst h
    simp [startLen, ha]
  · cases h

/-- **C40 for reused caches.** Near-optimality as in `C40_partial`, where the warm start may be soft: then only the cache has
to be sound for the data, and the values in the old curves may belong to other data. -/
theorem C40_reused_partial (m : SModel X Y) (outputs : X → Set Y) (qp : QP.Solver)
    (hqp : QP.Exact qp) (eq : Y → Y → Except PyErr Bool)
    (alt : Option ((X → Y → W → Bool → Y) × (X → W → Y))) (o o' : Obj Y)
    (samples : List (X × Y)) (hC : 0 < o.cfg.C) (htol : 0 ≤ o.cfg.tol) (hneg : o.cfg.negativity = none)
    (hl : (problemOf m outputs).Labelled samples)
    (hla : ∀ s ∈ samples, ∀ w, m.lossAug s.1 s.2 w true ∈ outputs s.1)
    (hLA : alt = none → (problemOf m outputs).ExactLossAug fun x y w => m.lossAug x y w true)
    (hLA' : ∀ p, alt = some p → (problemOf m outputs).ExactLossAug fun x y w => p.1 x y w true)
    (hcr : o.cfg.inferenceCache = 0 ∨ m.rescaleC = false) (warm : Warm)
    (hw : warm = .no ∨ ∀ a, o.attrs = some a →
      Reusable m outputs (fun x _ ŷ => ŷ ∈ outputs x) samples warm a)
    (δ : ℚ) (hδ : δ = 1 / 10 ^ 8 ∨ δ = 0 ∧ FirstAttempt qp m.dim (o.cfg.C * samples.length))
    (h : OneSlack.fit m qp eq alt (fun _ => none) o samples warm = .ok o') :
    ∃ a cs ds d ps p, o'.attrs = some a ∧ a.constraints = some cs ∧ a.objectiveCurve = ds ++ [d] ∧
      a.primalCurve = ps ++ [p] ∧ (problemOf m outputs).LowerBound o.cfg.C samples d ∧
      (a.objectiveCurve.length + (if alt = none then 0 else 1) ≤ startLen o warm + o.cfg.maxIter →
        (problemOf m outputs).IsObjective o.cfg.C samples a.w p ∧
        (HasTrue m.dim cs →
          p ≤ d + o.cfg.C * samples.length * o.cfg.tol + δ * (o.cfg.C * samples.length) ^ 2 ∧
          ∀ w' obj, (problemOf m outputs).IsObjective o.cfg.C samples w' obj →
            p ≤ obj + o.cfg.C * samples.length * o.cfg.tol + δ * (o.cfg.C * samples.length) ^ 2)) := by
  have hne : samples ≠ [] := by
    intro h0
    unfold OneSlack.fit at h
    subst h0
    split at h
    · cases h
    · split at h
      · cases h
      · simp [objectivePrimal] at h
  unfold OneSlack.fit at h
  cases hs : start m o warm with
  | error err => rw [hs] at h; cases h
  | ok st =>
    rw [hs] at h
    simp only at h
    obtain ⟨hI, hsw0, hon⟩ := start_inv (alt := alt) (R := fun x _ ŷ => ŷ ∈ outputs x) hl hla hw hs
    cases hlp : loop qp eq alt o.cfg samples (jointFeatureGt m samples) (fun _ => none) o.cfg.maxIter 0 st with
    | error err => rw [hlp] at h; cases h
    | ok st' =>
      rw [hlp] at h
      simp only at h
      have hI' : Inv m outputs (fun x _ ŷ => ŷ ∈ outputs x) o.cfg.C alt samples (oldCurve o warm) st' :=
        loop_induct _ (fun it s s' b hi hit => iteration_inv hqp.1 hC hne (fun s _ ŷ h => h)
          (fun p hp s hs w => (hLA' p hp s.1 s.2 w (hl s hs).1 (hl s hs).2).1) hcr hi hit) _ _ _ _ hI hlp
      have hT : st'.model.dim = m.dim ∧ Tight m.dim (o.cfg.C * samples.length) δ st' :=
        loop_induct (I := fun s => s.model.dim = m.dim ∧ Tight m.dim (o.cfg.C * samples.length) δ s)
          (fun it s s' b hi hit => iteration_tight hqp hC.le hneg hδ rfl hi.1 hi.2 hit) _ _ _ _
          ⟨by obtain ⟨_, _, hm, _⟩ := hI.model; rw [hm], fun v hv => by rw [hon] at hv; cases hv⟩ hlp
      have hshare : st'.objective ≠ none → st'.shared = true := by
        refine loop_induct (I := fun s => s.objective ≠ none → s.shared = true) ?_ _ _ _ _
          (fun h => absurd hon h) hlp
        intro it s s' b hi hit
        rcases iteration_ok hit with ⟨rfl, -, -⟩ | ⟨la, inf, ha, hs, -, -, rfl⟩ | ⟨-, f, cd, cache, hfind, hadd⟩
        · exact hi
        · exact hi
        · obtain ⟨-, -, -, -, -, a4⟩ := addConstraint_ok hadd
          rcases a4 with ⟨-, -, -, -, -, -, b3, b4, -⟩ | ⟨-, sol, -, -, -, -, c5⟩
          · rw [b3, b4]; exact hi
          · rcases c5 with ⟨d0, -⟩ | ⟨-, -, -, d2, -⟩
            · cases d0
            · exact fun _ => d2
      cases hp : objectivePrimal st'.model st'.w samples o.cfg.C false with
      | error err => rw [hp] at h; cases h
      | ok primal =>
        rw [hp] at h
        simp only at h
        cases hob : st'.objective with
        | none => rw [hob] at h; cases h
        | some obj =>
          rw [hob] at h
          simp only [Except.ok.injEq] at h
          subst h
          have hsh := hshare (by rw [hob]; simp)
          refine ⟨_, st'.constraints, st'.objectiveCurve, obj, st'.primalCurve, primal, rfl, ?_, rfl, rfl, ?_, ?_⟩
          · rw [hsh]; rfl
          · exact hI'.objective obj hob
          · intro hlen
            obtain ⟨la, inf, hm, -, hm1, hm2⟩ := hI'.model
            have hstop : findNew o.cfg st' (jointFeatureGt m samples) samples = .ok none ∧
                (st'.switched = true ∨ alt = none) := by
              rcases loop_end (fun _ => rfl) _ _ _ _ hlp with h1 | h1
              · exact h1
              · exfalso
                rw [start_len hs, hsw0] at h1
                simp only [List.length_append, List.length_singleton] at hlen
                have : st'.switched = true → alt ≠ none := by
                  refine loop_induct (I := fun s => s.switched = true → alt ≠ none) ?_ _ _ _ _
                    (fun h => by rw [hsw0] at h; cases h) hlp
                  intro it s s' b hi hit
                  rcases iteration_ok hit with ⟨rfl, -, -⟩ | ⟨la, inf, ha, hs, -, -, rfl⟩ | ⟨-, f, cd, cache, hfind, hadd⟩
                  · exact hi
                  · intro _ h; rw [ha] at h; cases h
                  · rw [(addConstraint_ok hadd).2.1]; exact hi
                by_cases hsw : st'.switched = true
                · rw [if_neg (this hsw)] at hlen
                  simp [hsw] at h1
                  omega
                · simp [hsw] at h1
                  omega
            have hla' : st'.model.lossAug = la := by rw [hm]
            have hexact : (problemOf m outputs).ExactLossAug fun x y w => st'.model.lossAug x y w true := by
              rw [hla']
              cases halt : alt with
              | none => rw [hm1 halt]; exact hLA halt
              | some p =>
                rw [hm2 p halt (hstop.2.resolve_right (by rw [halt]; simp))]
                exact hLA' p halt
            have hm' : st'.model =
                { m with lossAug := st'.model.lossAug, inference := st'.model.inference } := by rw [hm]
            have hP : problemOf st'.model outputs = problemOf m outputs := by rw [hm]; rfl
            obtain ⟨p0, hp0, hobj⟩ := C30_objective st'.model outputs (by rw [hP]; exact hexact) samples
              (by rw [hP]; exact hl) hne st'.w o.cfg.C false
            rw [hp, Except.ok.injEq] at hp0
            subst hp0
            rw [hP] at hobj
            refine ⟨hobj, ?_⟩
            intro htrue
            obtain ⟨t1, t2, t3⟩ := hT.2 obj hob
            have hviol := findNew_violation hne hexact hm' hl htol t1 t2 hstop.1
            rw [objectivePrimal_ok _ _ _ _ _ hne, Except.ok.injEq] at hp
            have hmain : primal ≤ obj + o.cfg.C * samples.length * o.cfg.tol +
                δ * (o.cfg.C * samples.length) ^ 2 := by
              have h1 := t3 htrue
              have h2 := mul_le_mul_of_nonneg_right hviol hC.le
              have h3 : ∑ k ∈ range st'.model.dim, st'.w k ^ 2 = dot m.dim st'.w st'.w := by
                rw [hT.1]
                unfold dot
                exact sum_congr rfl fun k _ => by ring
              rw [h3] at hp
              linarith
            refine ⟨hmain, ?_⟩
            intro w' obj' ho'
            have := hI'.objective obj hob w' obj' ho'
            linarith

/-- **C40, near-optimality.** Let a `fit` without interruptions succeed that ends before `max_iter`
iterations, i.e. because no new constraint is found, with an exact QP solver and exact loss-augmented
inference (after switching, if there is a method to switch to). If pruning has not removed the constraint of
the true outputs, the last primal value is the regularised risk of the learned weights, and exceeds the last
dual value — hence the risk of every weight vector — by at most `C n tol`, plus `1e-8 (C n)²` if the solver
sometimes only succeeds on the regularised QP.
`C40_violated_pruning` shows that the hypothesis on pruning is needed. -/
theorem C40_partial (m : SModel X Y) (outputs : X → Set Y) (qp : QP.Solver)
    (hqp : QP.Exact qp) (eq : Y → Y → Except PyErr Bool)
    (alt : Option ((X → Y → W → Bool → Y) × (X → W → Y))) (o o' : Obj Y)
    (samples : List (X × Y)) (hC : 0 < o.cfg.C) (htol : 0 ≤ o.cfg.tol) (hneg : o.cfg.negativity = none)
    (hl : (problemOf m outputs).Labelled samples)
    (hla : ∀ s ∈ samples, ∀ w, m.lossAug s.1 s.2 w true ∈ outputs s.1)
    (hLA : alt = none → (problemOf m outputs).ExactLossAug fun x y w => m.lossAug x y w true)
    (hLA' : ∀ p, alt = some p → (problemOf m outputs).ExactLossAug fun x y w => p.1 x y w true)
    (hcr : o.cfg.inferenceCache = 0 ∨ m.rescaleC = false) (warm : Warm)
    (hw : warm = .no ∨ ∀ a, o.attrs = some a →
      Sound m outputs (fun x _ ŷ => ŷ ∈ outputs x) o.cfg.C samples a)
    (δ : ℚ) (hδ : δ = 1 / 10 ^ 8 ∨ δ = 0 ∧ FirstAttempt qp m.dim (o.cfg.C * samples.length))
    (h : OneSlack.fit m qp eq alt (fun _ => none) o samples warm = .ok o') :
    ∃ a cs ds d ps p, o'.attrs = some a ∧ a.constraints = some cs ∧ a.objectiveCurve = ds ++ [d] ∧
      a.primalCurve = ps ++ [p] ∧ (problemOf m outputs).LowerBound o.cfg.C samples d ∧
      (a.objectiveCurve.length + (if alt = none then 0 else 1) ≤ startLen o warm + o.cfg.maxIter →
        (problemOf m outputs).IsObjective o.cfg.C samples a.w p ∧
        (HasTrue m.dim cs →
          p ≤ d + o.cfg.C * samples.length * o.cfg.tol + δ * (o.cfg.C * samples.length) ^ 2 ∧
          ∀ w' obj, (problemOf m outputs).IsObjective o.cfg.C samples w' obj →
            p ≤ obj + o.cfg.C * samples.length * o.cfg.tol + δ * (o.cfg.C * samples.length) ^ 2)) := by
  exact C40_reused_partial m outputs qp hqp eq alt o o' samples hC htol hneg hl hla hLA hLA' hcr warm
    (hw.imp id fun hw a ha => ⟨fun _ => (hw a ha).constraints, (hw a ha).cache⟩) δ hδ h

/-- With `inactive_window=0`, unless constraints are taken over, the constraint of the true outputs stays in the working
set. -/
theorem C40_reused_no_pruning (m : SModel X Y) (qp : QP.Solver) (hqp : QP.Sound qp)
    (eq : Y → Y → Except PyErr Bool)
    (alt : Option ((X → Y → W → Bool → Y) × (X → W → Y))) (intr : ℕ → Option Phase)
    (hint : ∀ it, intr it ≠ some .after) (o o' : Obj Y)
    (samples : List (X × Y)) (hwin : o.cfg.inactiveWindow = 0)
    (warm : Warm) (hwarm : warm ≠ .yes)
    (h : OneSlack.fit m qp eq alt intr o samples warm = .ok o') :
    ∃ a cs, o'.attrs = some a ∧ a.constraints = some cs ∧ HasTrue m.dim cs := by
  unfold OneSlack.fit at h
  cases hs : start m o warm with
  | error err => rw [hs] at h; cases h
  | ok st =>
    rw [hs] at h
    simp only at h
    cases hlp : loop qp eq alt o.cfg samples (jointFeatureGt m samples) intr o.cfg.maxIter 0 st with
    | error err => rw [hlp] at h; cases h
    | ok st' =>
      rw [hlp] at h
      simp only at h
      have hI : HasTrue m.dim st.constraints ∧ (st.objective ≠ none → st.shared = true) := by
        unfold start at hs
        simp only at hs
        split at hs
        · cases hs
          exact ⟨⟨_, List.mem_singleton.mpr rfl, fun _ _ => rfl, rfl⟩, fun h => absurd rfl h⟩
        · cases hs
          exact ⟨⟨_, List.mem_singleton.mpr rfl, fun _ _ => rfl, rfl⟩, fun h => absurd rfl h⟩
        · exact absurd rfl hwarm
        · cases hs
      have hI' : HasTrue m.dim st'.constraints ∧ (st'.objective ≠ none → st'.shared = true) := by
        refine loop_induct (I := fun s => HasTrue m.dim s.constraints ∧ (s.objective ≠ none → s.shared = true))
          ?_ _ _ _ _ hI hlp
        intro it s s' b hi hit
        rcases iteration_ok hit with ⟨rfl, -, -⟩ | ⟨la, inf, ha, hs, -, -, rfl⟩ | ⟨-, f, cd, cache, hfind, hadd⟩
        · exact hi
        · exact hi
        · obtain ⟨-, -, -, -, -, a4⟩ := addConstraint_ok hadd
          simp only at a4
          have hi' : HasTrue m.dim (s.constraints ++ [(f.dj, f.loss)]) := by
            obtain ⟨⟨c, hc, h1⟩, -⟩ := hi
            exact ⟨c, List.mem_append_left _ hc, h1⟩
          rcases a4 with ⟨-, -, -, b0, -, -, b1, b2, -⟩ | ⟨-, sol, c1, c2, -, -, c5⟩
          · rw [b0, b1, b2]; exact ⟨hi', hi.2⟩
          · obtain ⟨eps, -, -, e2, -⟩ := solveQP_eps c1
            have hlen := ((feasible_qpOf _ _ _ _ _ _).mp (hqp _ _ e2).1).1
            obtain ⟨-, -, -, p1, -⟩ := prune_facts o.cfg _ _ _ hlen c2
            rw [p1 hwin]
            refine ⟨hi', fun _ => ?_⟩
            rcases c5 with ⟨d0, -⟩ | ⟨-, -, -, d2, -⟩
            · exact absurd d0 (hint it)
            · exact d2
      cases hp : objectivePrimal st'.model st'.w samples o.cfg.C false with
      | error err => rw [hp] at h; cases h
      | ok primal =>
        rw [hp] at h
        simp only at h
        cases hob : st'.objective with
        | none => rw [hob] at h; cases h
        | some obj =>
          rw [hob] at h
          simp only [Except.ok.injEq] at h
          subst h
          refine ⟨_, _, rfl, ?_, hI'.1⟩
          rw [if_pos (hI'.2 (by rw [hob]; simp))]

/-- **C40 without pruning.** With `inactive_window=0`, and without a warm start, the constraint of the true
outputs stays in the working set, so `C40_partial` applies without a hypothesis on pruning. -/
theorem C40_no_pruning (m : SModel X Y) (qp : QP.Solver) (hqp : QP.Sound qp)
    (eq : Y → Y → Except PyErr Bool)
    (alt : Option ((X → Y → W → Bool → Y) × (X → W → Y))) (intr : ℕ → Option Phase)
    (hint : ∀ it, intr it ≠ some .after) (o o' : Obj Y)
    (samples : List (X × Y)) (hwin : o.cfg.inactiveWindow = 0)
    (h : OneSlack.fit m qp eq alt intr o samples .no = .ok o') :
    ∃ a cs, o'.attrs = some a ∧ a.constraints = some cs ∧ HasTrue m.dim cs := by
  exact C40_reused_no_pruning m qp hqp eq alt intr hint o o' samples hwin .no (by simp) h

/-! ### examples -/

/-- A structured model given by tables: one input, outputs `0, …, n-1`, joint feature `-ψ y`, loss `ℓ ŷ` for
every wrong output `ŷ`, decoding by enumeration. It serves as an example of a user-defined model. -/
def tableModel (dim n : ℕ) (ψ : ℕ → ℕ → ℚ) (ℓ : ℕ → ℚ) : SModel Unit ℕ where
  dim := dim
  jointFeature := fun _ y k => -ψ y k
  rescaleC := false
  jointFeatureR := fun _ y _ k => -ψ y k
  lossAug := fun _ y w _ => argmaxN (fun ŷ => (if y = ŷ then 0 else ℓ ŷ) - dot dim w (ψ ŷ)) n
  inference := fun _ w => argmaxN (fun ŷ => -dot dim w (ψ ŷ)) n
  isTuple := fun _ => false
  loss := fun y ŷ => if y = ŷ then 0 else ℓ ŷ
  continuousLoss := fun _ _ => 0
  maxLoss := fun _ => 1

theorem tableModel_exact (dim n : ℕ) (ψ : ℕ → ℕ → ℚ) (ℓ : ℕ → ℚ) (relaxed : Bool) :
    (problemOf (tableModel dim n ψ ℓ) (fun _ => {y | y < n})).ExactLossAug
      (fun x y w => (tableModel dim n ψ ℓ).lossAug x y w relaxed) := by
  intro x y w hy _
  have hy' : y < n := hy
  refine ⟨argmaxN_lt _ (by omega), ?_⟩
  intro ŷ hŷ
  have hv : ∀ z, (problemOf (tableModel dim n ψ ℓ) (fun _ => {y | y < n})).violation w x y z =
      ((if y = z then 0 else ℓ z) - dot dim w (ψ z)) + dot dim w (ψ y) := by
    intro z
    unfold Problem.violation Problem.value
    change (if y = z then 0 else ℓ z) + ∑ k ∈ range dim, w k * -ψ z k - ∑ k ∈ range dim, w k * -ψ y k = _
    simp only [mul_neg, sum_neg_distrib]
    unfold dot
    ring
  rw [hv, hv]
  have := le_argmaxN (fun ŷ => (if y = ŷ then 0 else ℓ ŷ) - dot dim w (ψ ŷ)) (n := n) (i := ŷ) hŷ
  change _ ≤ ((if y = argmaxN _ n then 0 else ℓ (argmaxN _ n)) - dot dim w (ψ (argmaxN _ n))) + _
  linarith

/-- optimality conditions of the QP, for examples of exact solvers. -/
theorem kkt (dim : ℕ) (cn : ℚ) (cs : List Con) (x : List ℚ)
    (hf : (qpOf dim none cn cs 0).Feasible x) (M : ℚ)
    (hM : ∀ i < cs.length, (con cs i).2 - dot dim (weightsOf cs x) (con cs i).1 ≤ M)
    (hc : ∑ i ∈ range cs.length, x.getD i 0 * ((con cs i).2 - dot dim (weightsOf cs x) (con cs i).1) = M * cn)
    (x' : List ℚ) (hf' : (qpOf dim none cn cs 0).Feasible x') :
    (qpOf dim none cn cs 0).value x ≤ (qpOf dim none cn cs 0).value x' := by
  obtain ⟨h1, h2, h3, -⟩ := (feasible_qpOf _ _ _ _ _ _).mp hf
  obtain ⟨h1', h2', h3', -⟩ := (feasible_qpOf _ _ _ _ _ _).mp hf'
  rw [value_qpOf _ _ _ _ _ _ h1, value_qpOf _ _ _ _ _ _ h1']
  set w := weightsOf cs x with hw
  set w' := weightsOf cs x' with hw'
  have hsq : 0 ≤ dot dim (fun k => w' k - w k) (fun k => w' k - w k) := dot_self_nonneg _ _
  rw [dot_sub_left, dot_sub_right, dot_sub_right, dot_comm dim w w'] at hsq
  have e1 : dot dim w' w = ∑ i ∈ range cs.length, x'.getD i 0 * dot dim (con cs i).1 w :=
    dot_weightsOf dim cs x' h1' w
  have e2 : dot dim w w = ∑ i ∈ range cs.length, x.getD i 0 * dot dim (con cs i).1 w :=
    dot_weightsOf dim cs x h1 w
  have e3 : ∑ i ∈ range cs.length, x'.getD i 0 * ((con cs i).2 - dot dim w (con cs i).1) ≤ M * cn := by
    rw [← h3', mul_sum]
    refine sum_le_sum fun i hi => ?_
    have hi' := mem_range.mp hi
    rw [mul_comm M]
    exact mul_le_mul_of_nonneg_left (hM i hi') (h2' i hi')
  have e4 : ∀ y : List ℚ, ∑ i ∈ range cs.length, y.getD i 0 * ((con cs i).2 - dot dim w (con cs i).1) =
      ∑ i ∈ range cs.length, y.getD i 0 * (con cs i).2 -
        ∑ i ∈ range cs.length, y.getD i 0 * dot dim (con cs i).1 w := by
    intro y
    rw [← sum_sub_distrib]
    exact sum_congr rfl fun i _ => by rw [dot_comm dim w]; ring
  rw [e4] at e3 hc
  simp only [zero_mul, add_zero]
  linarith

/-- A solver that knows the optima of finitely many problems; each entry has the constraints, the optimum,
and the largest slack. -/
def tableSolver (dim : ℕ) (cn : ℚ) (tab : List (List Con × List ℚ × ℚ)) : QP.Solver := fun p =>
  (tab.find? fun e => decide (p = qpOf dim none cn e.1 0)).map fun e => ⟨e.2.1, (qpOf dim none cn e.1 0).value e.2.1⟩

theorem tableSolver_exact (dim : ℕ) (cn : ℚ) (tab : List (List Con × List ℚ × ℚ))
    (h : ∀ e ∈ tab, e.2.1.length = e.1.length ∧ (∀ i < e.1.length, 0 ≤ e.2.1.getD i 0) ∧
      ∑ i ∈ range e.1.length, e.2.1.getD i 0 = cn ∧
      (∀ i < e.1.length, (con e.1 i).2 - dot dim (weightsOf e.1 e.2.1) (con e.1 i).1 ≤ e.2.2) ∧
      ∑ i ∈ range e.1.length, e.2.1.getD i 0 *
        ((con e.1 i).2 - dot dim (weightsOf e.1 e.2.1) (con e.1 i).1) = e.2.2 * cn) :
    QP.Exact (tableSolver dim cn tab) := by
  have key : ∀ p s, tableSolver dim cn tab p = some s → ∃ e ∈ tab, p = qpOf dim none cn e.1 0 ∧
      s = ⟨e.2.1, (qpOf dim none cn e.1 0).value e.2.1⟩ := by
    intro p s hs
    unfold tableSolver at hs
    cases hf : tab.find? fun e => decide (p = qpOf dim none cn e.1 0) with
    | none => rw [hf] at hs; cases hs
    | some e =>
      rw [hf] at hs
      simp only [Option.map_some, Option.some.injEq] at hs
      have h2 := List.find?_some hf
      exact ⟨e, List.mem_of_find?_eq_some hf, by simpa using h2, hs.symm⟩
  have feas : ∀ e ∈ tab, (qpOf dim none cn e.1 0).Feasible e.2.1 := by
    intro e he
    obtain ⟨h1, h2, h3, -, -⟩ := h e he
    exact (feasible_qpOf _ _ _ _ _ _).mpr ⟨h1, h2, h3, by simp⟩
  refine ⟨?_, ?_⟩
  · intro p s hs
    obtain ⟨e, he, rfl, rfl⟩ := key p s hs
    exact ⟨feas e he, rfl⟩
  · intro p s hs x hx
    obtain ⟨e, he, rfl, rfl⟩ := key p s hs
    obtain ⟨-, -, -, h4, h5⟩ := h e he
    exact kkt dim cn e.1 e.2.1 (feas e he) e.2.2 h4 h5 x hx

/-- a vector with two entries. -/
def vec2 (a b : ℚ) : W := fun k => if k = 0 then a else if k = 1 then b else 0

/-- Two outputs, one feature. -/
def exampleTable : SModel Unit ℕ :=
  tableModel 1 2 (fun y => if y = 1 then vec2 2 0 else vec2 0 0) (fun _ => 1)

/-- A fresh learner; `window` is `inactive_window`. -/
def exampleOS (maxIter : ℕ) (C : ℚ) (cache window : ℕ) : Obj ℕ :=
  ⟨⟨maxIter, C, false, none, false, 0, 1 / 1000, cache, 1 / 10 ^ 5, window, .auto⟩, none, []⟩

/-- equality of discrete outputs. -/
def natEq (a b : ℕ) : Except PyErr Bool := .ok (decide (a = b))

/-- solver for the first iteration of the example. -/
def exampleSolver : QP.Solver := tableSolver 1 1 [([(vec2 0 0, 0), (vec2 2 0, 1)], [3 / 4, 1 / 4], 0)]

theorem exampleSolver_exact : QP.Exact exampleSolver :=
  tableSolver_exact _ _ _ (by decide +kernel)

/-- The hypotheses of C39 and C40 can be met: with an exact solver and exact inference, the learner adds one
constraint and then stops, with dual value and primal value 1/8 and the constraint of the true output in the
working set. -/
theorem example_fit : (OneSlack.fit exampleTable exampleSolver natEq none (fun _ => none) (exampleOS 10 1 0 50)
    [((), 0)] .no).toOption.bind (fun o => o.attrs.map fun a =>
      (a.w 0, a.constraints.map (·.map fun c => (c.1 0, c.2)), a.objectiveCurve, a.primalCurve)) =
    some (1 / 2, some [(0, 0), (2, 1)], [1 / 8, 1 / 8], [1, 1 / 8]) := by decide +kernel

example : (problemOf exampleTable (fun _ => {y | y < 2})).Labelled [((), 0)] := by
  intro s hs
  rw [List.mem_singleton] at hs
  subst hs
  exact ⟨(by decide : 0 < 2), by decide +kernel⟩

/-- Four outputs, two features. -/
def prunedTable : SModel Unit ℕ :=
  tableModel 2 4 (fun y => if y = 1 then vec2 0 4 else if y = 2 then vec2 2 5 else if y = 3 then vec2 (-2) 1
    else vec2 0 0) (fun y => if y = 1 then 7 else if y = 2 then 8 else 2)

/-- solver for the three problems that occur. -/
def prunedSolver : QP.Solver := tableSolver 2 (1 / 2)
  [([(vec2 0 0, 0), (vec2 2 5, 8)], [13 / 58, 8 / 29], 0),
   ([(vec2 0 0, 0), (vec2 2 5, 8), (vec2 (-2) 1, 2)], [0, 1 / 4, 1 / 4], 1 / 2),
   ([(vec2 2 5, 8), (vec2 (-2) 1, 2), (vec2 0 4, 7)], [0, 1 / 13, 11 / 26], -(1 / 13))]

/-- **C40 is violated when the constraint of the true outputs is pruned.** With exact QP solver and exact
inference, `C = 1/2`, `tol = 1e-3`, `inactive_threshold = 1e-5`, `inactive_window = 1`, training stops after
three iterations because no constraint is found; the risk of the learned weights is `533/338`, but there are
weights with risk `197/128`, which is less by more than `C n tol`. -/
theorem C40_violated_pruning :
    QP.Exact prunedSolver ∧
    (problemOf prunedTable (fun _ => {y | y < 4})).ExactLossAug (fun x y w => prunedTable.lossAug x y w true) ∧
    (problemOf prunedTable (fun _ => {y | y < 4})).Labelled [((), 0)] ∧
    ∃ o a, OneSlack.fit prunedTable prunedSolver natEq none (fun _ => none) (exampleOS 10 (1 / 2) 0 1)
        [((), 0)] .no = .ok o ∧ o.attrs = some a ∧ a.objectiveCurve.length = 4 ∧
      (problemOf prunedTable (fun _ => {y | y < 4})).IsObjective (1 / 2) [((), 0)] a.w (533 / 338) ∧
      (problemOf prunedTable (fun _ => {y | y < 4})).IsObjective (1 / 2) [((), 0)] (vec2 (-(1 / 8)) (7 / 4))
        (197 / 128) ∧
      (197 : ℚ) / 128 + 1 / 2 * 1 * (1 / 1000) < 533 / 338 := by
  have hl : (problemOf prunedTable (fun _ => {y | y < 4})).Labelled [((), 0)] := by
    intro s hs
    rw [List.mem_singleton] at hs
    subst hs
    exact ⟨(by decide : 0 < 4), by decide +kernel⟩
  have hLA := tableModel_exact 2 4 (fun y => if y = 1 then vec2 0 4 else if y = 2 then vec2 2 5 else
    if y = 3 then vec2 (-2) 1 else vec2 0 0) (fun y => if y = 1 then 7 else if y = 2 then 8 else 2) true
  refine ⟨tableSolver_exact _ _ _ (by decide +kernel), hLA, hl, ?_⟩
  have key : (do
      let o ← OneSlack.fit prunedTable prunedSolver natEq none (fun _ => none) (exampleOS 10 (1 / 2) 0 1)
        [((), 0)] .no
      match o.attrs with
      | none => .error .valueError
      | some a =>
        let p ← objectivePrimal prunedTable a.w [((), 0)] (1 / 2) false
        pure (p, a.objectiveCurve.length)) = .ok (533 / 338, 4) := by decide +kernel
  obtain ⟨o, ho, h1⟩ := bind_eq_ok.mp key
  cases ha : o.attrs with
  | none => rw [ha] at h1; cases h1
  | some a =>
    rw [ha] at h1
    obtain ⟨p, hp, h2⟩ := bind_eq_ok.mp h1
    simp only [pure, Except.pure, Except.ok.injEq, Prod.mk.injEq] at h2
    obtain ⟨rfl, h3⟩ := h2
    refine ⟨o, a, ho, ha, h3, ?_, ?_, by norm_num⟩
    · obtain ⟨obj, hob, hiso⟩ := C30_objective prunedTable (fun _ => {y | y < 4}) hLA [((), 0)] hl (by simp)
        a.w (1 / 2) false
      rw [hp, Except.ok.injEq] at hob
      rw [hob]
      exact hiso
    · obtain ⟨obj, hob, hiso⟩ := C30_objective prunedTable (fun _ => {y | y < 4}) hLA [((), 0)] hl (by simp)
        (vec2 (-(1 / 8)) (7 / 4)) (1 / 2) false
      have : objectivePrimal prunedTable (vec2 (-(1 / 8)) (7 / 4)) [((), 0)] (1 / 2) false = .ok (197 / 128) := by
        decide +kernel
      rw [this, Except.ok.injEq] at hob
      rw [hob]
      exact hiso

end Verif.Props
