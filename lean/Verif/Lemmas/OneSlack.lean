import Verif.Lemmas.QP
import Verif.Lemmas.Duality
import Verif.Spec.CuttingPlane
import Verif.Props.C29

/-!
# Lemmas about the one-slack learner
-/

namespace Verif.OneSlack

open Finset Verif.Spec Verif.Learner Verif.Props

variable {X Y : Type}

/-! ### averaged constraints are dual points -/

theorem dualPoint_congr {P : Problem X Y} {C : ℚ} {samples : List (X × Y)} {w w' : W} {b b' : ℚ}
    (h : P.DualPoint C samples w b) (hw : ∀ k < P.dim, w' k = w k) (hb : b' = b) :
    P.DualPoint C samples w' b' := by
  obtain ⟨bs, h1, h2, h3⟩ := h
  exact ⟨bs, h1, fun k hk => by rw [hw k hk, h2 k hk], by rw [hb, h3]⟩

theorem mean_dualPoint (P : Problem X Y) (C : ℚ) (R : X → Y → Y → Prop) (samples : List (X × Y))
    (hR : ∀ s ∈ samples, ∀ ŷ, R s.1 s.2 ŷ → ŷ ∈ P.outputs s.1) (hne : samples ≠ []) {a : W} {b : ℚ}
    (h : P.IsMean R samples a b) :
    P.DualPoint C samples (fun k => C * samples.length * a k) (samples.length * b) := by
  obtain ⟨outs, h1, h2, h3⟩ := h
  have hn : (samples.length : ℚ) ≠ 0 := by
    have := List.length_pos_iff.mpr hne
    positivity
  refine ⟨(samples.zip outs).map fun p =>
    (fun k => P.feat p.1.1 p.1.2 p.1.2 k - P.feat p.1.1 p.2 p.1.2 k, P.loss p.1.2 p.2), ?_, ?_, ?_⟩
  · clear h2 h3 hn hne
    induction h1 with
    | nil => exact List.Forall₂.nil
    | cons hab _ ih =>
      refine List.Forall₂.cons ?_ (ih fun s hs => hR s (List.mem_cons_of_mem _ hs))
      exact mix_single P (hR _ (by simp) _ hab)
  · intro k hk
    simp only [h2 k hk, List.map_map, Function.comp_def]
    field_simp
  · rw [h3, List.map_map]
    simp only [Function.comp_def]
    field_simp

theorem combine_dualPoints (P : Problem X Y) (C : ℚ) (samples : List (X × Y))
    (n : ℕ) (lam : ℕ → ℚ) (ws : ℕ → W) (bs : ℕ → ℚ) (h0 : ∀ i < n, 0 ≤ lam i)
    (hd : ∀ i < n, P.DualPoint C samples (ws i) (bs i)) (hpos : 0 < ∑ i ∈ range n, lam i) :
    P.DualPoint C samples (fun k => (∑ i ∈ range n, lam i * ws i k) / ∑ i ∈ range n, lam i)
      ((∑ i ∈ range n, lam i * bs i) / ∑ i ∈ range n, lam i) := by
  induction n with
  | zero => simp at hpos
  | succ n ih =>
    have hn := h0 n (by omega)
    have hrest : 0 ≤ ∑ i ∈ range n, lam i :=
      sum_nonneg fun i hi => h0 i (by have := mem_range.mp hi; omega)
    simp only [sum_range_succ] at hpos ⊢
    by_cases hz : ∑ i ∈ range n, lam i = 0
    · have hall : ∀ i ∈ range n, lam i = 0 :=
        (sum_eq_zero_iff_of_nonneg fun i hi => h0 i (by have := mem_range.mp hi; omega)).mp hz
      have hln : lam n ≠ 0 := by rw [hz, zero_add] at hpos; exact hpos.ne'
      refine dualPoint_congr (hd n (by omega)) (fun k _ => ?_) ?_
      · rw [hz, sum_eq_zero (fun i hi => by rw [hall i hi, zero_mul])]
        field_simp
        ring
      · rw [hz, sum_eq_zero (fun i hi => by rw [hall i hi, zero_mul])]
        field_simp
        ring
    · have hrp : 0 < ∑ i ∈ range n, lam i := lt_of_le_of_ne hrest (Ne.symm hz)
      have h1 := ih (fun i hi => h0 i (by omega)) (fun i hi => hd i (by omega)) hrp
      have h2 := hd n (by omega)
      have hγ : lam n / (∑ i ∈ range n, lam i + lam n) ≤ 1 := by
        rw [div_le_one hpos]; linarith
      refine dualPoint_congr (dualPoint_convex h1 h2 (div_nonneg hn hpos.le) hγ) (fun k _ => ?_) ?_
      · field_simp
        ring
      · field_simp
        ring

/-- the value of every feasible point of the QP over averaged constraints is a lower bound. -/
theorem qp_lower_bound (P : Problem X Y) (C : ℚ) (hC : 0 < C) (R : X → Y → Y → Prop)
    (samples : List (X × Y)) (hR : ∀ s ∈ samples, ∀ ŷ, R s.1 s.2 ŷ → ŷ ∈ P.outputs s.1)
    (hne : samples ≠ []) (neg : Option (List ℕ)) (cs : List Con)
    (hcs : ∀ c ∈ cs, P.IsMean R samples c.1 c.2) (eps : ℚ) (heps : 0 ≤ eps) (x : List ℚ)
    (hx : (qpOf P.dim neg (C * samples.length) cs eps).Feasible x) :
    P.LowerBound C samples (-(qpOf P.dim neg (C * samples.length) cs eps).value x) := by
  obtain ⟨hl, hpos, hsum, -⟩ := (feasible_qpOf _ _ _ _ _ _).mp hx
  have hn : (0 : ℚ) < samples.length := by exact_mod_cast List.length_pos_iff.mpr hne
  have hcn : 0 < C * samples.length := by positivity
  intro w' obj ho
  have hd := combine_dualPoints P C samples cs.length (fun i => x.getD i 0)
    (fun i k => C * samples.length * (con cs i).1 k) (fun i => samples.length * (con cs i).2) hpos
    (fun i hi => mean_dualPoint P C R samples hR hne (hcs _ (by
      unfold con; rw [List.getD_eq_getElem _ _ hi]; exact List.getElem_mem hi)))
    (by rw [hsum]; exact hcn)
  have hd' : P.DualPoint C samples (weightsOf cs x)
      ((∑ i ∈ range cs.length, x.getD i 0 * (con cs i).2) / C) := by
    refine dualPoint_congr hd (fun k _ => ?_) ?_
    · rw [hsum, weightsOf_eq cs x hl, Finset.sum_div]
      refine sum_congr rfl fun i _ => ?_
      field_simp
    · rw [hsum, Finset.sum_div, Finset.sum_div]
      refine sum_congr rfl fun i _ => ?_
      field_simp
  have := weak_duality P hC.le hd' ho
  unfold Problem.dualValue at this
  rw [value_qpOf _ _ _ _ _ _ hl]
  have e : C * ((∑ i ∈ range cs.length, x.getD i 0 * (con cs i).2) / C) =
      ∑ i ∈ range cs.length, x.getD i 0 * (con cs i).2 := by field_simp
  rw [e] at this
  have h2 : 0 ≤ eps * ∑ i ∈ range cs.length, x.getD i 0 ^ 2 :=
    mul_nonneg heps (sum_nonneg fun i _ => sq_nonneg _)
  have h3 : ∑ k ∈ range P.dim, weightsOf cs x k * weightsOf cs x k =
    dot P.dim (weightsOf cs x) (weightsOf cs x) := rfl
  rw [h3] at this
  linarith

/-! ### pruning -/

theorem le_listMax {l : List ℚ} {a : ℚ} (h : a ∈ l) : a ≤ listMax l := by
  unfold listMax
  obtain ⟨m, hm⟩ : ∃ m, l.max? = some m := by
    cases hl : l.max? with
    | none => rw [List.max?_eq_none_iff] at hl; rw [hl] at h; simp at h
    | some m => exact ⟨m, rfl⟩
  rw [hm, Option.getD_some]
  exact (List.max?_eq_some_iff.mp hm).2 a h

theorem listMax_mem {l : List ℚ} (h : l ≠ []) : listMax l ∈ l := by
  unfold listMax
  cases hl : l.max? with
  | none => rw [List.max?_eq_none_iff] at hl; exact absurd hl h
  | some m => exact (List.max?_eq_some_iff.mp hl).1

theorem masked_map {α : Type} (l : List α) (keep : List Bool) (h : l.length = keep.length) :
    (((l.zip keep).filter (·.2)).map (·.1)).Sublist l := by
  have h1 : ((l.zip keep).map Prod.fst).Sublist l := by
    rw [List.map_fst_zip (by omega)]
  refine List.Sublist.trans ?_ h1
  exact (List.filter_sublist).map _

theorem masked_length {α β : Type} (l : List α) (l' : List β) (keep : List Bool)
    (h : l.length = l'.length) :
    (((l.zip keep).filter (·.2)).map (·.1)).length = (((l'.zip keep).filter (·.2)).map (·.1)).length := by
  induction l generalizing l' keep with
  | nil =>
    have : l' = [] := List.length_eq_zero_iff.mp h.symm
    subst this
    simp
  | cons a l ih =>
    cases l' with
    | nil => simp at h
    | cons b l' =>
      cases keep with
      | nil => simp
      | cons k keep =>
        have := ih l' keep (by simpa using h)
        simp only [List.zip_cons_cons, List.filter_cons]
        cases k
        · simpa using this
        · simpa using this

theorem masked_mem {α : Type} (l : List α) (keep : List Bool) (i : ℕ) (hi : i < l.length)
    (hk : keep[i]? = some true) : l[i] ∈ ((l.zip keep).filter (·.2)).map (·.1) := by
  obtain ⟨hi', hk'⟩ := List.getElem?_eq_some_iff.mp hk
  refine List.mem_map.mpr ⟨(l[i], true), ?_, rfl⟩
  rw [List.mem_filter]
  refine ⟨?_, rfl⟩
  have hz : i < (l.zip keep).length := by simp; omega
  have : (l.zip keep)[i] = (l[i], true) := by simp [hk']
  rw [← this]
  exact List.getElem_mem hz

/-- pruning keeps the two lists aligned and removes entries only. -/
theorem prune_facts (cfg : Config) (cs : List Con) (alphas : List (List ℚ)) (a : List ℚ)
    (ha : a.length = cs.length) {cs' : List Con} {al' : List (List ℚ)}
    (h : prune cfg cs alphas a = .ok (cs', al')) :
    alphas.length + 1 = cs.length ∧ al'.length = cs'.length ∧ cs'.Sublist cs ∧
    (cfg.inactiveWindow = 0 → cs' = cs) ∧
    (cfg.inactiveThreshold ≤ 1 → (∀ x ∈ a, 0 ≤ x) → cs' ≠ []) := by
  unfold prune at h
  simp only at h
  split_ifs at h with h1 h2 h3
  · have hl : alphas.length + 1 = cs.length := by simpa using h1
    simp only [Except.ok.injEq, Prod.mk.injEq] at h
    obtain ⟨rfl, rfl⟩ := h
    refine ⟨hl, ?_, List.Sublist.refl _, fun _ => rfl, fun _ _ h0 => ?_⟩
    · simp [ha]; omega
    · rw [h0] at hl; simp at hl
  · have hl : alphas.length + 1 = cs.length := by simpa using h1
    simp only [Except.ok.injEq, Prod.mk.injEq] at h
    set al := List.zipWith (fun l x => l ++ [x]) (alphas ++ [[]]) a with hal
    have hall : al.length = cs.length := by rw [hal]; simp [ha]; omega
    set mx := al.map fun l => listMax (lastN cfg.inactiveWindow l) with hmx
    set keep := mx.map fun x => !decide (x < cfg.inactiveThreshold * listMax mx.tail) with hkeep
    have hkl : keep.length = cs.length := by rw [hkeep, hmx]; simp [hall]
    obtain ⟨rfl, rfl⟩ := h
    refine ⟨hl, masked_length al cs keep hall, masked_map cs keep hkl.symm, fun h0 => absurd h0 h2, ?_⟩
    intro hthr hpos
    -- the strongest constraint stays
    have htail : mx.tail ≠ [] := by simpa using h3
    have hmem := List.mem_of_mem_tail (listMax_mem htail)
    obtain ⟨i, hi, hmi⟩ := List.getElem_of_mem hmem
    have hnn : 0 ≤ listMax mx.tail := by
      rw [← hmi]
      have hi' : i < al.length := by rw [hmx] at hi; simpa using hi
      have : mx[i] = listMax (lastN cfg.inactiveWindow al[i]) := by simp [hmx]
      rw [this]
      have hia : i < a.length := by omega
      have hai : al[i] = (alphas ++ [[]])[i]'(by simp; omega) ++ [a[i]] := by simp [hal]
      refine le_trans (hpos a[i] (List.getElem_mem hia)) (le_listMax ?_)
      rw [hai]
      unfold lastN
      rw [List.drop_append_of_le_length (by simp; omega)]
      simp
    have hk : keep[i]? = some true := by
      rw [hkeep, List.getElem?_map, List.getElem?_eq_getElem hi, hmi]
      simp only [Option.map_some, Option.some.injEq, Bool.not_eq_true', decide_eq_false_iff_not, not_lt]
      calc cfg.inactiveThreshold * listMax mx.tail ≤ 1 * listMax mx.tail :=
            mul_le_mul_of_nonneg_right hthr hnn
        _ = _ := one_mul _
    have hi2 : i < cs.length := by
      have : mx.length = cs.length := by rw [hmx]; simp [hall]
      omega
    have := masked_mem cs keep i hi2 hk
    exact List.ne_nil_of_mem this

/-! ### structure of an iteration -/

theorem checkBad_true {cfg : Config} {dim : ℕ} {w : W} {ls v : ℚ} {dj : W} {loss : ℚ} {old : List Con}
    {brk : Bool} (htol : 0 ≤ cfg.tol) (hv : v = loss - dot dim w dj)
    (hls : ∀ c ∈ old, c.2 - dot dim w c.1 ≤ ls) (hls0 : 0 ≤ ls)
    (h : checkBad cfg dim w ls v dj loss old brk = .ok true) : v ≤ ls + cfg.tol := by
  unfold checkBad at h
  simp only at h
  split_ifs at h with h1 h2 h3 h4 h5
  · linarith
  · obtain ⟨c, hc, he⟩ := List.any_eq_true.mp h3
    simp only [Bool.and_eq_true, decide_eq_true_eq] at he
    have h6 := hls c hc
    have : dot dim w c.1 = dot dim w dj := by
      unfold dot
      exact sum_congr rfl fun k hk => by rw [he.1 k (mem_range.mp hk)]
    rw [this, ← he.2, ← hv] at h6
    linarith
  · obtain ⟨c, hc, he⟩ := List.any_eq_true.mp h5
    simp only [decide_eq_true_eq] at he
    have h6 := hls c hc
    have h7 : max (c.2 - dot dim w c.1) 0 ≤ ls := max_le h6 hls0
    have h8 : (0 : ℚ) ≤ 1 / 10 ^ 5 := by norm_num
    linarith
  · simp at h
  · simp at h

/-- what adding a constraint does. -/
theorem addConstraint_ok {qp : QP.Solver} {cfg : Config} {samples : List (X × Y)} {it : ℕ}
    {intr : Option Phase} {st st' : St X Y} {f : Found Y} {cached b : Bool}
    (h : addConstraint qp cfg samples it intr st f cached = .ok (st', b)) :
    st'.model = st.model ∧ st'.switched = st.switched ∧ st'.cache = st.cache ∧
    st'.primalCurve = st.primalCurve ++ [cfg.C * samples.length *
      max (-dot st.model.dim st.w f.dj + f.loss) 0 + (∑ k ∈ range st.model.dim, st.w k ^ 2) / 2] ∧
    st'.cachedFlags = st.cachedFlags ++ [cached] ∧
    (intr = some .qp ∧ b = false ∧ st'.w = st.w ∧ st'.constraints = st.constraints ++ [(f.dj, f.loss)] ∧
        st'.alphas = st.alphas ∧ st'.objectiveCurve = st.objectiveCurve ∧ st'.objective = st.objective ∧
        st'.shared = st.shared ∧ st'.lastSlack = st.lastSlack ∨
      intr ≠ some .qp ∧ ∃ sol,
        solveQP qp st.model.dim cfg.negativity (cfg.C * samples.length)
          (st.constraints ++ [(f.dj, f.loss)]) = .ok sol ∧
        prune cfg (st.constraints ++ [(f.dj, f.loss)]) st.alphas sol.x = .ok (st'.constraints, st'.alphas) ∧
        st'.w = weightsOf (st.constraints ++ [(f.dj, f.loss)]) sol.x ∧
        st'.objective = some (-sol.primalObjective) ∧
        (intr = some .after ∧ b = false ∧ st'.objectiveCurve = st.objectiveCurve ∧ st'.shared = st.shared ∨
         intr ≠ some .after ∧ b = true ∧
           st'.objectiveCurve = st.objectiveCurve ++ [-sol.primalObjective] ∧ st'.shared = true ∧
           newLastSlack st.model.dim st'.w st'.constraints = .ok st'.lastSlack)) := by
  unfold addConstraint at h
  simp only at h
  by_cases h1 : intr = some .qp
  · rw [if_pos h1] at h
    simp only [Except.ok.injEq, Prod.mk.injEq] at h
    obtain ⟨rfl, rfl⟩ := h
    exact ⟨rfl, rfl, rfl, rfl, rfl, .inl ⟨h1, rfl, rfl, rfl, rfl, rfl, rfl, rfl, rfl⟩⟩
  · rw [if_neg h1] at h
    cases hs : solveQP qp st.model.dim cfg.negativity (cfg.C * samples.length)
        (st.constraints ++ [(f.dj, f.loss)]) with
    | error err => rw [hs] at h; cases h
    | ok sol =>
      rw [hs] at h
      simp only at h
      cases hp : prune cfg (st.constraints ++ [(f.dj, f.loss)]) st.alphas sol.x with
      | error err => rw [hp] at h; cases h
      | ok r =>
        obtain ⟨cs', al'⟩ := r
        rw [hp] at h
        simp only at h
        split_ifs at h with h2
        · simp only [Except.ok.injEq, Prod.mk.injEq] at h
          obtain ⟨rfl, rfl⟩ := h
          exact ⟨rfl, rfl, rfl, rfl, rfl, .inr ⟨h1, sol, rfl, hp, rfl, rfl,
            .inl ⟨h2, rfl, rfl, rfl⟩⟩⟩
        · cases hn : newLastSlack st.model.dim (weightsOf (st.constraints ++ [(f.dj, f.loss)]) sol.x) cs' with
          | error err => rw [hn] at h; cases h
          | ok s =>
            rw [hn] at h
            simp only [Except.ok.injEq, Prod.mk.injEq] at h
            obtain ⟨rfl, rfl⟩ := h
            exact ⟨rfl, rfl, rfl, rfl, rfl, .inr ⟨h1, sol, rfl, hp, rfl, rfl,
              .inr ⟨h2, rfl, rfl, rfl, hn⟩⟩⟩

/-- what an iteration does. -/
theorem iteration_ok {qp : QP.Solver} {eq : Y → Y → Except PyErr Bool}
    {alt : Option ((X → Y → W → Bool → Y) × (X → W → Y))} {cfg : Config} {samples : List (X × Y)}
    {gt : W} {it : ℕ} {intr : Option Phase} {st st' : St X Y} {b : Bool}
    (h : iteration qp eq alt cfg samples gt it intr st = .ok (st', b)) :
    (st' = st ∧ b = false ∧ (intr = some .search ∨
      findNew cfg st gt samples = .ok none ∧ (st.switched = true ∨ alt = none))) ∨
    (∃ la inf, alt = some (la, inf) ∧ st.switched = false ∧ b = true ∧ intr ≠ some .search ∧
      st' = { st with model := { st.model with lossAug := la, inference := inf }, switched := true }) ∨
    (intr ≠ some .search ∧ ∃ f cached cache,
      (fromCache cfg st gt samples.length = .ok (some f) ∧ cached = true ∧ cache = st.cache ∨
        findNew cfg st gt samples = .ok (some f) ∧ cached = false ∧
        updateCache st.model eq cfg st.cache samples f.yhat = .ok cache) ∧
      addConstraint qp cfg samples it intr { st with cache := cache } f cached = .ok (st', b)) := by
  unfold iteration at h
  split_ifs at h with h1
  · simp only [Except.ok.injEq, Prod.mk.injEq] at h
    obtain ⟨rfl, rfl⟩ := h
    exact .inl ⟨rfl, rfl, .inl h1⟩
  · cases hc : fromCache cfg st gt samples.length with
    | error err => rw [hc] at h; cases h
    | ok r =>
      rw [hc] at h
      cases r with
      | some f => exact .inr (.inr ⟨h1, f, true, st.cache, .inl ⟨rfl, rfl, rfl⟩, h⟩)
      | none =>
        simp only at h
        cases hf : findNew cfg st gt samples with
        | error err => rw [hf] at h; cases h
        | ok r =>
          rw [hf] at h
          cases r with
          | some f =>
            simp only at h
            cases hu : updateCache st.model eq cfg st.cache samples f.yhat with
            | error err => rw [hu] at h; cases h
            | ok cache =>
              rw [hu] at h
              exact .inr (.inr ⟨h1, f, false, cache, .inr ⟨rfl, rfl, hu⟩, h⟩)
          | none =>
            simp only at h
            cases hs : st.switched with
            | true =>
              rw [hs] at h
              simp only [Except.ok.injEq, Prod.mk.injEq] at h
              obtain ⟨rfl, rfl⟩ := h
              exact .inl ⟨rfl, rfl, .inr ⟨rfl, .inl rfl⟩⟩
            | false =>
              rw [hs] at h
              cases alt with
              | none =>
                simp only [Except.ok.injEq, Prod.mk.injEq] at h
                obtain ⟨rfl, rfl⟩ := h
                exact .inl ⟨rfl, rfl, .inr ⟨rfl, .inr rfl⟩⟩
              | some p =>
                obtain ⟨la, inf⟩ := p
                simp only [Except.ok.injEq, Prod.mk.injEq] at h
                obtain ⟨rfl, rfl⟩ := h
                exact .inr (.inl ⟨la, inf, rfl, rfl, rfl, h1, rfl⟩)

/-- induction over the loop. -/
theorem loop_induct {qp : QP.Solver} {eq : Y → Y → Except PyErr Bool}
    {alt : Option ((X → Y → W → Bool → Y) × (X → W → Y))} {cfg : Config} {samples : List (X × Y)}
    {gt : W} {intr : ℕ → Option Phase} (I : St X Y → Prop)
    (hstep : ∀ it st st' b, I st → iteration qp eq alt cfg samples gt it (intr it) st = .ok (st', b) → I st')
    (fuel : ℕ) : ∀ it st st', I st → loop qp eq alt cfg samples gt intr fuel it st = .ok st' → I st' := by
  induction fuel with
  | zero =>
    intro it st st' hI h
    unfold loop at h
    rw [Except.ok.injEq] at h
    exact h ▸ hI
  | succ n ih =>
    intro it st st' hI h
    unfold loop at h
    cases hi : iteration qp eq alt cfg samples gt it (intr it) st with
    | error err => rw [hi] at h; cases h
    | ok r =>
      obtain ⟨st1, b⟩ := r
      rw [hi] at h
      have h1 := hstep it st st1 b hI hi
      cases b with
      | false =>
        simp only [Except.ok.injEq] at h
        exact h ▸ h1
      | true => exact ih _ _ _ h1 h

/-- how the loop ends: by running out of iterations, or with an iteration that stops. -/
theorem loop_end {qp : QP.Solver} {eq : Y → Y → Except PyErr Bool}
    {alt : Option ((X → Y → W → Bool → Y) × (X → W → Y))} {cfg : Config} {samples : List (X × Y)}
    {gt : W} {intr : ℕ → Option Phase} (hintr : ∀ it, intr it = none) (fuel : ℕ) :
    ∀ it st st', loop qp eq alt cfg samples gt intr fuel it st = .ok st' →
      (findNew cfg st' gt samples = .ok none ∧ (st'.switched = true ∨ alt = none)) ∨
      st'.objectiveCurve.length + (if st'.switched = true ∧ st.switched = false then 1 else 0) =
        st.objectiveCurve.length + fuel := by
  induction fuel with
  | zero =>
    intro it st st' h
    unfold loop at h
    rw [Except.ok.injEq] at h
    subst h
    right
    cases st.switched <;> simp
  | succ n ih =>
    intro it st st' h
    unfold loop at h
    cases hi : iteration qp eq alt cfg samples gt it (intr it) st with
    | error err => rw [hi] at h; cases h
    | ok r =>
      obtain ⟨st1, b⟩ := r
      rw [hi] at h
      rcases iteration_ok hi with ⟨rfl, rfl, h2⟩ | ⟨la, inf, ha, hs, rfl, -, rfl⟩ | ⟨-, f, cd, cache, -, hadd⟩
      · simp only [Except.ok.injEq] at h
        subst h
        rcases h2 with h2 | h2
        · rw [hintr it] at h2; cases h2
        · exact .inl h2
      · simp only at h
        rcases ih _ _ _ h with h3 | h3
        · exact .inl h3
        · right
          have hsw : st'.switched = true := by
            refine loop_induct (I := fun s => s.switched = true) ?_ n _ _ _ rfl h
            intro it s s' b hI hit
            rcases iteration_ok hit with ⟨rfl, -, -⟩ | ⟨_, _, _, _, _, _, rfl⟩ | ⟨-, _, _, _, -, hadd⟩
            · exact hI
            · rfl
            · exact (addConstraint_ok hadd).2.1.trans hI
          simp only [hsw, hs] at h3 ⊢
          simp at h3 ⊢
          omega
      · obtain ⟨-, hs, -, -, -, h5⟩ := addConstraint_ok hadd
        rcases h5 with ⟨h5, -⟩ | ⟨-, sol, -, -, -, -, h5⟩
        · rw [hintr it] at h5; cases h5
        · rcases h5 with ⟨h5, -⟩ | ⟨-, rfl, hoc, -⟩
          · rw [hintr it] at h5; cases h5
          · simp only at h
            rcases ih _ _ _ h with h3 | h3
            · exact .inl h3
            · right
              rw [hoc, hs] at h3
              simp at h3 ⊢
              omega

end Verif.OneSlack
