import Verif.Props.C80P
import Verif.Props.C110
import Verif.Props.C93G

/-!
# C121: soft warm starts of `OneSlackSSVM`, and `LatentSSVM` on top of it
-/

namespace Verif.Props

open Finset Verif.Spec Verif.Learner Verif.LatentSSVM

variable {X Y H σ : Type}

/-! ### a soft warm start without cache is a fresh start -/

section Soft

open Verif.OneSlack

/-- the state with longer curves. -/
def longerCurves (a : Attrs Y) (st : OneSlack.St X Y) : OneSlack.St X Y :=
  { st with
    objectiveCurve := a.objectiveCurve ++ st.objectiveCurve
    primalCurve := a.primalCurve ++ st.primalCurve
    cachedFlags := a.cachedFlags ++ st.cachedFlags }

theorem addConstraint_shifted (a : Attrs Y) (qp : QP.Solver) (cfg : Config) (samples : List (X × Y)) (it : ℕ)
    (intr : Option Phase) (st : OneSlack.St X Y) (f : Found Y) (cached : Bool) :
    addConstraint qp cfg samples it intr (longerCurves a st) f cached =
      (addConstraint qp cfg samples it intr st f cached).map fun r => (longerCurves a r.1, r.2) := by
  unfold addConstraint
  simp only [longerCurves]
  by_cases h1 : intr = some .qp
  · rw [if_pos h1, if_pos h1]
    simp only [Except.map, List.append_assoc]
  · rw [if_neg h1, if_neg h1]
    cases solveQP qp st.model.dim cfg.negativity (cfg.C * samples.length) (st.constraints ++ [(f.dj, f.loss)]) with
    | error e => rfl
    | ok sol =>
      simp only
      cases prune cfg (st.constraints ++ [(f.dj, f.loss)]) st.alphas sol.x with
      | error e => rfl
      | ok r =>
        simp only
        by_cases h2 : intr = some .after
        · rw [if_pos h2, if_pos h2]
          simp only [Except.map, List.append_assoc]
        · rw [if_neg h2, if_neg h2]
          cases newLastSlack st.model.dim (weightsOf (st.constraints ++ [(f.dj, f.loss)]) sol.x) r.1 with
          | error e => rfl
          | ok s => simp only [Except.map, List.append_assoc]

theorem oneslack_cache_kept {qp : QP.Solver} {eq : Y → Y → Except PyErr Bool}
    {alt : Option ((X → Y → W → Bool → Y) × (X → W → Y))} {cfg : Config} (hc : cfg.inferenceCache = 0)
    {samples : List (X × Y)} {gt : W} {it : ℕ} {intr : Option Phase} {st st' : OneSlack.St X Y} {b : Bool}
    (hI : st.cache = none) (h : OneSlack.iteration qp eq alt cfg samples gt it intr st = .ok (st', b)) :
    st'.cache = none := by
  rcases OneSlack.iteration_ok h with ⟨rfl, -, -⟩ | ⟨la, inf, -, -, -, -, rfl⟩ | ⟨-, f, cd, cache, hfind, hadd⟩
  · exact hI
  · exact hI
  · rw [(OneSlack.addConstraint_ok hadd).2.2.1]
    rcases hfind with ⟨-, -, rfl⟩ | ⟨-, -, hu⟩
    · exact hI
    · unfold OneSlack.updateCache at hu
      rw [if_pos hc] at hu
      cases hu
      exact hI

theorem iteration_shifted (a : Attrs Y) (qp : QP.Solver) (eq : Y → Y → Except PyErr Bool)
    (alt : Option ((X → Y → W → Bool → Y) × (X → W → Y))) (cfg : Config) (hc : cfg.inferenceCache = 0)
    (samples : List (X × Y)) (gt : W) (it : ℕ) (intr : Option Phase) (st : OneSlack.St X Y) (hI : st.cache = none) :
    OneSlack.iteration qp eq alt cfg samples gt it intr (longerCurves a st) =
      (OneSlack.iteration qp eq alt cfg samples gt it intr st).map fun r => (longerCurves a r.1, r.2) := by
  unfold OneSlack.iteration
  by_cases h1 : intr = some .search
  · rw [if_pos h1, if_pos h1]
    rfl
  · rw [if_neg h1, if_neg h1]
    have e1 : fromCache cfg (longerCurves a st) gt samples.length = .ok none := by
      unfold fromCache
      have : (longerCurves a st).cache = none := hI
      rw [this]
    have e2 : fromCache cfg st gt samples.length = .ok none := by
      unfold fromCache
      rw [hI]
    have e3 : findNew cfg (longerCurves a st) gt samples = findNew cfg st gt samples := rfl
    rw [e1, e2, e3]
    simp only
    cases findNew cfg st gt samples with
    | error e => rfl
    | ok r =>
      cases r with
      | none =>
        simp only
        have e4 : (longerCurves a st).switched = st.switched := rfl
        rw [e4]
        cases st.switched <;> cases alt <;> rfl
      | some f =>
        simp only
        have e5 : ∀ (m : SModel X Y) (c : Option (List (List (Cached Y)))),
            updateCache m eq cfg c samples f.yhat = .ok c := by
          intro m c
          unfold updateCache
          rw [if_pos hc]
        rw [e5, e5]
        simp only
        exact addConstraint_shifted a qp cfg samples it intr st f false

theorem loop_shifted (a : Attrs Y) (qp : QP.Solver) (eq : Y → Y → Except PyErr Bool)
    (alt : Option ((X → Y → W → Bool → Y) × (X → W → Y))) (cfg : Config) (hc : cfg.inferenceCache = 0)
    (samples : List (X × Y)) (gt : W) (intr : ℕ → Option Phase) (fuel it : ℕ) (st : OneSlack.St X Y) (hI : st.cache = none) :
    OneSlack.loop qp eq alt cfg samples gt intr fuel it (longerCurves a st) =
      (OneSlack.loop qp eq alt cfg samples gt intr fuel it st).map (longerCurves a) := by
  induction fuel generalizing it st with
  | zero => rfl
  | succ fuel ih =>
    unfold OneSlack.loop
    rw [iteration_shifted a qp eq alt cfg hc samples gt it (intr it) st hI]
    cases hi : OneSlack.iteration qp eq alt cfg samples gt it (intr it) st with
    | error e => rfl
    | ok r =>
      obtain ⟨st', b⟩ := r
      cases b with
      | false => rfl
      | true => exact ih (it + 1) st' (oneslack_cache_kept hc hI hi)

/-- a learner whose curves continue those of `a`. -/
def continued (a : Attrs Y) (o : OneSlack.Obj Y) : OneSlack.Obj Y :=
  { o with attrs := o.attrs.map fun b => { b with
      objectiveCurve := a.objectiveCurve ++ b.objectiveCurve
      primalCurve := a.primalCurve ++ b.primalCurve
      cachedFlags := a.cachedFlags ++ b.cachedFlags } }

/-- **C121, soft warm starts.** Without an inference cache, `fit(X, Y, warm_start='soft')` of a fitted learner on any data
does what a fresh `fit(X, Y)` does - the same weights, constraints, dual variables, the same exception - except that the
curves are appended to the old ones: nothing else is taken over from the previous data. -/
theorem C121_soft (m : SModel X Y) (qp : QP.Solver) (eq : Y → Y → Except PyErr Bool)
    (alt : Option ((X → Y → W → Bool → Y) × (X → W → Y))) (intr : ℕ → Option Phase) (o : OneSlack.Obj Y)
    (hc : o.cfg.inferenceCache = 0) (a : Attrs Y) (ha : o.attrs = some a) (hac : a.cache = none)
    (samples : List (X × Y)) :
    OneSlack.fit m qp eq alt intr o samples .soft =
      (OneSlack.fit m qp eq alt intr o samples .no).map (continued a) := by
  have e1 : OneSlack.start m o .soft = (OneSlack.start m o .no).map (longerCurves a) := by
    unfold OneSlack.start
    simp only [ha, Except.map, longerCurves, List.append_nil, hac]
  unfold OneSlack.fit
  rw [e1]
  cases hs : OneSlack.start m o .no with
  | error e => rfl
  | ok st =>
    have hI : st.cache = none := by
      unfold OneSlack.start at hs
      cases hs
      rfl
    simp only [Except.map]
    rw [loop_shifted a qp eq alt o.cfg hc samples _ intr o.cfg.maxIter 0 st hI]
    cases OneSlack.loop qp eq alt o.cfg samples (OneSlack.jointFeatureGt m samples) intr o.cfg.maxIter 0 st with
    | error e => rfl
    | ok st' =>
      simp only [Except.map, longerCurves]
      split
      · rfl
      · split
        · rfl
        · simp only [continued, Option.map_some, List.append_assoc]

end Soft

/-! ### LatentSSVM with a base learner that is exact up to a tolerance -/

/-- The latent objective of `w` is at most `ε` above every objective for the completions `hs`. -/
def LatentNear (P : Problem X H) (completions : X → Y → Set H) (C ε : ℚ) (samples : List (X × Y)) (hs : List H)
    (w : ℕ → ℚ) : Prop :=
  ∃ v, P.IsLatentObjective completions C samples w v ∧
    ∀ w' u, P.IsObjective C ((samples.map Prod.fst).zip hs) w' u → v ≤ u + ε

/-- On completed data, the base learner in a state with `I` returns, again with `I`; the latent objective of its weights is
at most `ε` above the optimum for these data, and `Good` holds. -/
def Base.Trains (m : SModel X H) (B : Base σ X H) (P : Problem X H) (C ε : ℚ) (samples : List (X × Y))
    (completions : X → Y → Set H) (I : Bool → σ → Prop) (Good : List H → σ → Prop) : Prop :=
  ∀ b hs warm, I warm b → List.Forall₂ (fun s h => h ∈ completions s.1 s.2) samples hs →
    ∃ b', B.fit b ((samples.map Prod.fst).zip hs)
        (if warm then (B.constraints b).map (recomputed m samples hs (B.w b)) else none) warm = .ok b' ∧ I true b' ∧
      LatentNear P completions C ε samples hs (B.w b') ∧ Good hs b'

/-- What `LatentSSVM.fit` achieves with a tolerance `ε`: it returns; the latent objective of the weights of every call of the
base learner is at most `ε` above the optimum for the completions of this call; from one call to the next the latent
objective rises by at most `ε`; and if the loop ends because no completion changed, the final completions are - compared
with `same` - those that the final weights choose. -/
structure LatentDescent (L : LModel X Y H) (B : Base σ X H) (same : H → H → Bool) (P : Problem X H) (C ε : ℚ) (samples : List (X × Y))
    (completions : X → Y → Set H) (n : ℕ) (st : LatentSSVM.St σ H) (fl : Bool) : Prop where
  calls : st.hist ≠ [] ∧ st.hist.length ≤ n ∧ (fl = false → st.hist.length = n)
  near : ∀ a ∈ st.hist, LatentNear P completions C ε samples a.1 (B.w a.2)
  step : ∀ (i j : ℕ) (a b : List H × σ), i ≤ j → st.hist[i]? = some a → st.hist[j]? = some b →
    ∃ u v, P.IsLatentObjective completions C samples (B.w a.2) u ∧ P.IsLatentObjective completions C samples (B.w b.2) v ∧
      v ≤ u + (j - i : ℕ) * ε
  last : st.hist.getLast? = some (st.hs, st.base) ∧ st.w = B.w st.base
  fixed : fl = true → List.Forall₂ (fun s h => same (L.latent s.1 s.2 st.w) h = true) samples st.hs

theorem latent_exists {P : Problem X H} {completions : X → Y → Set H} {samples : List (X × Y)}
    {lat : X → Y → (ℕ → ℚ) → H} {la : X → H → (ℕ → ℚ) → H} (hLA : P.ExactLossAug la)
    (hlab : P.LabelOnly completions samples) {w : ℕ → ℚ} (hlat : P.ExactCompletionAt completions lat samples w) (C : ℚ) :
    ∃ u, P.IsLatentObjective completions C samples w u := by
  simp only [latentObjective_iff_at hlab hlat]
  have hl : P.Labelled (completed samples fun s => lat s.1 s.2 w) := by
    intro t ht
    obtain ⟨s, hs, rfl⟩ := List.mem_map.mp ht
    exact (hlab s hs _ (hlat s hs).1).1
  refine ⟨_, (completed samples fun s => lat s.1 s.2 w).map fun t => P.violation w t.1 t.2 (la t.1 t.2 w), ?_, rfl⟩
  rw [List.forall₂_map_right_iff, List.forall₂_same]
  intro t ht
  obtain ⟨h1, h2⟩ := hLA t.1 t.2 w (hl t ht).1 (hl t ht).2
  refine ⟨⟨_, h1, rfl⟩, ?_⟩
  rintro v ⟨o, ho, rfl⟩
  exact h2 o ho

theorem forall₂_latent_at {P : Problem X H} {completions : X → Y → Set H} {lat : X → Y → (ℕ → ℚ) → H}
    {samples : List (X × Y)} {w : ℕ → ℚ} (hlat : P.ExactCompletionAt completions lat samples w) :
    List.Forall₂ (fun s h => h ∈ completions s.1 s.2) samples (samples.map fun s => lat s.1 s.2 w) := by
  rw [List.forall₂_map_right_iff, List.forall₂_same]
  exact fun s hs => (hlat s hs).1

/-- **C121, LatentSSVM with a nearly exact base learner.** Labels need to be completed exactly only for the weights that
the base learner returns. -/
theorem C121_latent (L : LModel X Y H) (B : Base σ X H) (same : H → H → Bool) (n : ℕ) (base : σ)
    (samples : List (X × Y)) (hInit : Option (List H)) (outputs : X → Set H) (completions : X → Y → Set H)
    (C ε : ℚ) (hLA : (problemOf L.m outputs).ExactLossAug (fun x y w => L.m.lossAug x y w true))
    (hlab : (problemOf L.m outputs).LabelOnly completions samples)
    (good : (ℕ → ℚ) → Prop)
    (hlat : ∀ w, good w → (problemOf L.m outputs).ExactCompletionAt completions L.latent samples w)
    (hinit : List.Forall₂ (fun s h => h ∈ completions s.1 s.2) samples (hInit.getD (L.initLatent samples)))
    (I : Bool → σ → Prop) (Good : List H → σ → Prop) (hI : I false base)
    (hgood : ∀ hs b, Good hs b → good (B.w b))
    (hB : Base.Trains L.m B (problemOf L.m outputs) C ε samples completions I Good) :
    ∃ st fl, LatentSSVM.fit L B same (n + 1) base samples hInit = .ok (st, fl) ∧
      LatentDescent L B same (problemOf L.m outputs) C ε samples completions (n + 1) st fl ∧ ∀ a ∈ st.hist, Good a.1 a.2 := by
  have hret : ∃ r, LatentSSVM.fit L B same (n + 1) base samples hInit = .ok r := by
    rcases latent_fit_total (L := L) (B := B) (same := same) (samples := samples) (fun b => I true b ∧ good (B.w b)) (fun _ => False) base hInit
      (by
        obtain ⟨b, h1, h2, -, h4⟩ := hB base _ false hI hinit
        exact .inl ⟨b, h1, h2, hgood _ _ h4⟩)
      (by
        intro b hb
        obtain ⟨b', h1, h2, -, h4⟩ := hB b (LatentSSVM.completions L samples (B.w b)) true hb.1
          (forall₂_latent_at (hlat _ hb.2))
        exact .inl ⟨b', h1, h2, hgood _ _ h4⟩) (n + 1) with h | ⟨e, -, h⟩
    · exact h
    · exact h.elim
  obtain ⟨⟨st, fl⟩, hfit⟩ := hret
  refine ⟨st, fl, hfit, ?_⟩
  obtain ⟨⟨⟨b0, hf1, hf2⟩, ⟨hl1, hl2⟩, hch⟩, hle, hfalse, htrue⟩ := C57_run L B same n base samples hInit st fl hfit
  -- every call
  have hall : ∀ (i : ℕ) (a : List H × σ), st.hist[i]? = some a → I true a.2 ∧
      List.Forall₂ (fun s h => h ∈ completions s.1 s.2) samples a.1 ∧
      LatentNear (problemOf L.m outputs) completions C ε samples a.1 (B.w a.2) ∧ Good a.1 a.2 := by
    intro i
    induction i with
    | zero =>
      intro a ha
      rw [List.head?_eq_getElem?, ha] at hf1
      cases hf1
      obtain ⟨b', h1, h2, h3, h4⟩ := hB base _ false hI hinit
      rw [if_neg (by simp), hf2] at h1
      cases h1
      exact ⟨h2, hinit, h3, h4⟩
    | succ i ih =>
      intro a ha
      have hlt : i + 1 < st.hist.length := (List.getElem?_eq_some_iff.mp ha).1
      have hc : st.hist[i]? = some st.hist[i] := List.getElem?_eq_getElem (by omega)
      obtain ⟨e1, -, e2⟩ := hch i _ a hc ha
      have hmem : List.Forall₂ (fun s h => h ∈ completions s.1 s.2) samples a.1 := by
        rw [e1]
        exact forall₂_latent_at (hlat _ (hgood _ _ (ih _ hc).2.2.2))
      obtain ⟨b', h1, h2, h3, h4⟩ := hB _ a.1 true (ih _ hc).1 hmem
      rw [if_pos rfl, e2] at h1
      cases h1
      exact ⟨h2, hmem, h3, h4⟩
  have hex : ∀ (i : ℕ) (a : List H × σ), st.hist[i]? = some a →
      ∃ u, (problemOf L.m outputs).IsLatentObjective completions C samples (B.w a.2) u := fun i a ha =>
    latent_exists hLA hlab (hlat _ (hgood _ _ (hall i a ha).2.2.2)) C
  have hne : st.hist ≠ [] := by
    intro h0
    rw [h0] at hl1
    cases hl1
  have hget : ∀ a ∈ st.hist, ∃ i : ℕ, st.hist[i]? = some a := fun a ha => by
    obtain ⟨i, hi, rfl⟩ := List.getElem_of_mem ha
    exact ⟨i, List.getElem?_eq_getElem hi⟩
  refine ⟨⟨⟨hne, hle, hfalse⟩, ?_, ?_, ⟨hl1, hl2⟩, ?_⟩, ?_⟩
  · intro a ha
    obtain ⟨i, hi⟩ := hget a ha
    exact (hall i _ hi).2.2.1
  · intro i j a b hij ha hb
    obtain ⟨u, hu⟩ := hex i a ha
    obtain ⟨v, hv⟩ := hex j b hb
    refine ⟨u, v, hu, hv, ?_⟩
    induction j, hij using Nat.le_induction generalizing b v with
    | base =>
      rw [ha] at hb
      cases hb
      rw [latentObjective_iff_at hlab (hlat _ (hgood _ _ (hall _ _ ha).2.2.2))] at hu hv
      rw [objective_unique hv hu]
      simp
    | succ j hij ih =>
      have hlt : j + 1 < st.hist.length := (List.getElem?_eq_some_iff.mp hb).1
      have hc : st.hist[j]? = some st.hist[j] := List.getElem?_eq_getElem (by omega)
      obtain ⟨z, hz⟩ := hex j _ hc
      have h1 := ih _ hc z hz
      obtain ⟨p, hp, hmin⟩ := (hall (j + 1) b hb).2.2.1
      have h2 : v ≤ z + ε := by
        rw [latentObjective_iff_at hlab (hlat _ (hgood _ _ (hall _ _ hb).2.2.2))] at hv hp
        rw [latentObjective_iff_at hlab (hlat _ (hgood _ _ (hall _ _ hc).2.2.2))] at hz
        rw [objective_unique hv hp]
        refine hmin (B.w (st.hist[j]).2) z ?_
        rw [(hch j _ b hc hb).1, zip_completed]
        exact hz
      have h3 : ((j + 1 - i : ℕ) : ℚ) = (j - i : ℕ) + 1 := by
        rw [Nat.sub_add_comm hij]
        push_cast
        ring
      rw [h3]
      linarith
  · intro hfl
    have hall' := htrue hfl
    obtain ⟨i, hi⟩ := hget _ (List.mem_of_getLast? hl1)
    have hlen : st.hs.length = samples.length := (hall i _ hi).2.1.length_eq.symm
    refine List.forall₂_iff_get.mpr ⟨hlen.symm, fun i hi1 hi2 => ?_⟩
    have hz : i < ((samples.map fun s => L.latent s.1 s.2 st.w).zip st.hs).length := by
      rw [List.length_zip, List.length_map]; omega
    have := hall' _ (List.getElem_mem hz)
    rw [List.getElem_zip, List.getElem_map] at this
    exact this
  · intro a ha
    obtain ⟨i, hi⟩ := hget a ha
    exact (hall i _ hi).2.2.2

/-- weights that are nearly optimal for completed data are so for the latent objective. -/
theorem latentNear_of_near {P : Problem X H} {completions : X → Y → Set H} {samples : List (X × Y)}
    {lat : X → Y → (ℕ → ℚ) → H} {la : X → H → (ℕ → ℚ) → H} (hLA : P.ExactLossAug la)
    (hlab : P.LabelOnly completions samples) {w : ℕ → ℚ} (hlat : P.ExactCompletionAt completions lat samples w) {C ε : ℚ}
    (hC : 0 ≤ C) {hs : List H} (hmem : List.Forall₂ (fun s h => h ∈ completions s.1 s.2) samples hs)
    (h : P.NearOptimal C ((samples.map Prod.fst).zip hs) ε w) :
    LatentNear P completions C ε samples hs w := by
  obtain ⟨v, hv⟩ := latent_exists hLA hlab hlat C
  obtain ⟨p, hp, hmin⟩ := h
  refine ⟨v, hv, fun w' u hu => le_trans ?_ (hmin w' u hu)⟩
  obtain ⟨ls, h1, rfl⟩ := hv
  obtain ⟨ps, h2, rfl⟩ := hp
  have : ls.sum ≤ ps.sum := by
    clear hmin hu
    induction hmem generalizing ls ps with
    | nil =>
      cases h1
      cases h2
      exact le_rfl
    | @cons s h samples hs hh _ ih =>
      cases h1 with
      | cons a1 b1 =>
        rw [List.map_cons, List.zip_cons_cons] at h2
        cases h2 with
        | cons a2 b2 =>
          rw [List.sum_cons, List.sum_cons]
          exact add_le_add (a1.2 ⟨h, hh, a2⟩) (ih (fun t ht => hlab t (by simp [ht])) (fun t ht => hlat t (by simp [ht]))
            _ b1 _ b2)
  have := mul_le_mul_of_nonneg_left this hC
  linarith

/-- nearly optimal weights are short. -/
theorem normNear_of_near {P : Problem X H} {C ε : ℚ} (hC : 0 ≤ C) {data : List (X × H)} (hl : P.Labelled data) {w : ℕ → ℚ}
    (h : P.NearOptimal C data ε w) : P.NormNear C data ε w := by
  obtain ⟨p, ⟨ps, hp, rfl⟩, hmin⟩ := h
  intro w' u hu
  have h1 := hmin w' u hu
  have h2 : 0 ≤ ps.sum := by
    clear * - hp hl
    induction hp with
    | nil => simp
    | @cons s l data ls h _ ih =>
      rw [List.sum_cons]
      have h3 := h.2 ⟨s.2, (hl s (by simp)).1, rfl⟩
      have h4 : P.violation w s.1 s.2 s.2 = 0 := by
        unfold Problem.violation
        rw [(hl s (by simp)).2]
        ring
      rw [h4] at h3
      exact add_nonneg h3 (ih fun t ht => hl t (by simp [ht]))
  have h3 := mul_nonneg hC h2
  linarith

/-! ### OneSlackSSVM as base learner -/

/-- **C121, LatentSSVM with OneSlackSSVM.** With an exact QP solver, `inactive_window=0`, no inference cache and enough
iterations for its tolerance, training problems with hidden variables are solved up to `C n tol` in every outer iteration. -/
theorem C121_one_slack (L : LModel X Y H) (qp : QP.Solver) (hqp : QP.Exact qp) (hcomp : QP.Complete qp)
    (eq : H → H → Except PyErr Bool) (same : H → H → Bool) (n : ℕ)
    (samples : List (X × Y)) (hInit : Option (List H)) (outputs : X → Set H) (completions : X → Y → Set H)
    (hlab : (problemOf L.m outputs).LabelOnly completions samples)
    (good : (ℕ → ℚ) → Prop)
    (hlat : ∀ w, good w → (problemOf L.m outputs).ExactCompletionAt completions L.latent samples w)
    (hinit : List.Forall₂ (fun s h => h ∈ completions s.1 s.2) samples (hInit.getD (L.initLatent samples)))
    (R S : ℚ) (htrain : ∀ hs, List.Forall₂ (fun s h => h ∈ completions s.1 s.2) samples hs →
      Trainable L.m outputs ((samples.map Prod.fst).zip hs) R S)
    (o : OneSlack.Obj H)
    (hgood : ∀ hs, List.Forall₂ (fun s h => h ∈ completions s.1 s.2) samples hs → ∀ w,
      (problemOf L.m outputs).NormNear o.cfg.C ((samples.map Prod.fst).zip hs) (o.cfg.C * samples.length * o.cfg.tol) w → good w)
    (hcache : o.cfg.inferenceCache = 0) (hC : 0 < o.cfg.C) (htol : 0 < o.cfg.tol)
    (htol1 : o.cfg.tol ≤ 1) (hneg : o.cfg.negativity = none) (hthr : o.cfg.inactiveThreshold ≤ 1)
    (hbr : o.cfg.breakOnBad = false) (hwin : o.cfg.inactiveWindow = 0) (hmi : o.cfg.maxIter ≠ 0) (μ : ℚ) (hμ : 0 ≤ μ)
    (hμ1 : 2 * μ ≤ o.cfg.C * samples.length * o.cfg.tol) (hμ2 : 2 * R * μ ≤ o.cfg.tol ^ 2)
    (hmax : o.cfg.C * S < ((o.cfg.maxIter : ℚ) - 1) * μ) :
    ∃ st fl, LatentSSVM.fit L (oneSlackBase L.m qp eq) same (n + 1) o samples hInit = .ok (st, fl) ∧
      LatentDescent L (oneSlackBase L.m qp eq) same (problemOf L.m outputs) o.cfg.C (o.cfg.C * samples.length * o.cfg.tol)
        samples completions (n + 1) st fl ∧
      ∀ a ∈ st.hist, (problemOf L.m outputs).NearOptimal o.cfg.C ((samples.map Prod.fst).zip a.1)
        (o.cfg.C * samples.length * o.cfg.tol) ((oneSlackBase (X := X) L.m qp eq).w a.2) := by
  have hLA := (htrain _ hinit).exact_lossAug
  suffices hsuf : ∃ st fl, LatentSSVM.fit L (oneSlackBase L.m qp eq) same (n + 1) o samples hInit = .ok (st, fl) ∧
      LatentDescent L (oneSlackBase L.m qp eq) same (problemOf L.m outputs) o.cfg.C (o.cfg.C * samples.length * o.cfg.tol)
        samples completions (n + 1) st fl ∧
      ∀ a ∈ st.hist, (problemOf L.m outputs).NearOptimal o.cfg.C ((samples.map Prod.fst).zip a.1)
        (o.cfg.C * samples.length * o.cfg.tol) ((oneSlackBase (X := X) L.m qp eq).w a.2) ∧
        good ((oneSlackBase (X := X) L.m qp eq).w a.2) by
    obtain ⟨st, fl, h1, h2, h3⟩ := hsuf
    exact ⟨st, fl, h1, h2, fun a ha => (h3 a ha).1⟩
  refine C121_latent L _ same n o samples hInit outputs completions _ _ hLA hlab good hlat hinit
    (fun warm b => b.cfg = o.cfg ∧ (warm = true → ∃ a, b.attrs = some a ∧ a.cache = none))
    (fun hs b => (problemOf L.m outputs).NearOptimal o.cfg.C ((samples.map Prod.fst).zip hs)
        (o.cfg.C * samples.length * o.cfg.tol) ((oneSlackBase (X := X) L.m qp eq).w b) ∧
        good ((oneSlackBase (X := X) L.m qp eq).w b)) ⟨rfl, by simp⟩ (fun _ _ h => h.2) ?_
  intro b hs warm hI hmem
  suffices hsuf : ∃ b', (oneSlackBase L.m qp eq).fit b ((samples.map Prod.fst).zip hs)
        (if warm then ((oneSlackBase (X := X) L.m qp eq).constraints b).map
          (recomputed L.m samples hs ((oneSlackBase (X := X) L.m qp eq).w b)) else none) warm = .ok b' ∧
        (b'.cfg = o.cfg ∧ (true = true → ∃ a, b'.attrs = some a ∧ a.cache = none)) ∧
        (problemOf L.m outputs).NearOptimal o.cfg.C ((samples.map Prod.fst).zip hs)
          (o.cfg.C * samples.length * o.cfg.tol) ((oneSlackBase (X := X) L.m qp eq).w b') by
    obtain ⟨b', h1, h2, h3⟩ := hsuf
    have hg := hgood hs hmem _ (normNear_of_near hC.le (htrain hs hmem).labelled h3)
    exact ⟨b', h1, h2, latentNear_of_near hLA hlab (hlat _ hg) hC.le hmem h3, h3, hg⟩
  obtain ⟨hcfg, hw⟩ := hI
  have hlen : ((samples.map Prod.fst).zip hs).length = samples.length := by
    rw [List.length_zip, List.length_map, hmem.length_eq, min_self]
  have ht := C110_oneslack L.m outputs _ R S (htrain hs hmem)
  generalize (samples.map Prod.fst).zip hs = data at ht hlen ⊢
  obtain ⟨b', a, hfit, ha, hnear⟩ := ht qp hqp hcomp eq b (by rw [hcfg]; exact .inl hcache) (by rw [hcfg]; exact hC)
    (by rw [hcfg]; exact htol) (by rw [hcfg]; exact htol1) (by rw [hcfg]; exact hneg) (by rw [hcfg]; exact hthr)
    (by rw [hcfg]; exact hbr) (by rw [hcfg]; exact hwin) (by rw [hcfg]; exact hmi) μ hμ
    (by rw [hcfg, hlen]; exact hμ1) (by rw [hcfg]; exact hμ2) (by rw [hcfg]; exact hmax)
  rw [hcfg, hlen] at hnear
  obtain ⟨c1, c2⟩ := cache_none (by rw [hcfg]; exact hcache) (.inl rfl) hfit
  cases warm with
  | false =>
    refine ⟨b', hfit, ⟨c1.trans hcfg, fun _ => ⟨a, ha, c2 a ha⟩⟩, ?_⟩
    change (problemOf L.m outputs).NearOptimal _ _ _ ((b'.attrs.map OneSlack.Attrs.w).getD fun _ => 0)
    rw [ha]
    exact hnear
  | true =>
    obtain ⟨a0, ha0, hac0⟩ := hw rfl
    have hsoft := C121_soft L.m qp eq none (fun _ => none) b (by rw [hcfg]; exact hcache) a0 ha0 hac0 data
    rw [hfit] at hsoft
    refine ⟨continued a0 b', hsoft, ⟨c1.trans hcfg, fun _ => ?_⟩, ?_⟩
    · refine ⟨{ a with
          objectiveCurve := a0.objectiveCurve ++ a.objectiveCurve
          primalCurve := a0.primalCurve ++ a.primalCurve
          cachedFlags := a0.cachedFlags ++ a.cachedFlags }, by unfold continued; rw [ha]; rfl, c2 a ha⟩
    · change (problemOf L.m outputs).NearOptimal _ _ _ (((continued a0 b').attrs.map OneSlack.Attrs.w).getD fun _ => 0)
      unfold continued
      rw [ha]
      exact hnear

/-! ### NSlackSSVM as base learner -/

theorem recomputed_holds {m : SModel X H} {outputs : X → Set H} {samples : List (X × Y)} {hs : List H} {w : W} {ws : NSlack.WS H}
    (hl : hs.length = samples.length) (hws : ∀ i s, samples[i]? = some s → ∀ c ∈ ws i, c.yhat ∈ outputs s.1) :
    GivenHold m outputs ((samples.map Prod.fst).zip hs)
      (some (recomputed m samples hs w ((List.range samples.length).map ws))) := by
  intro cs hcs
  cases hcs
  have hlen : ((samples.map Prod.fst).zip hs).length = samples.length := by rw [List.length_zip, hl]; simp
  refine List.forall₂_iff_get.mpr ⟨by rw [hlen, recomputed_length], fun i h1 h2 => ?_⟩
  have hi : i < samples.length := by rw [hlen] at h1; exact h1
  have e1 : ((List.range samples.length).map ws)[i]? = some (ws i) := by
    rw [List.getElem?_map, List.getElem?_range hi]
    rfl
  have e2 : hs[i]? = some (hs[i]'(by omega)) := List.getElem?_eq_getElem _
  have e3 : samples[i]? = some samples[i] := List.getElem?_eq_getElem hi
  intro c hc
  rw [List.get_eq_getElem] at hc ⊢
  unfold recomputed at hc
  rw [List.getElem_map, List.getElem_range] at hc
  simp only [e1, e2, e3] at hc
  obtain ⟨c0, hc0, rfl⟩ := List.mem_map.mp hc
  rw [List.getElem_zip, List.getElem_map]
  refine ⟨hws i _ e3 c0 hc0, fun k _ => ?_, rfl⟩
  unfold findConstraint problemOf
  simp only [if_true]
  ring

/-- **C121, LatentSSVM with NSlackSSVM.** With an exact QP solver, `inactive_window=0` and enough iterations for its
tolerance, if the outputs without loss are the completions of the label: every outer iteration lowers the latent objective
up to `2 C n δ` - although `NSlackSSVM` ignores outputs without loss and thus need not solve the completed problems. -/
theorem C121_n_slack (L : LModel X Y H) (qp : QP.Solver) (hqp : QP.Exact qp) (hcomp : QP.Complete qp)
    (eq : H → H → Bool) (same : H → H → Bool) (n : ℕ)
    (samples : List (X × Y)) (hInit : Option (List H)) (outputs : X → Set H) (completions : X → Y → Set H)
    (hlab : (problemOf L.m outputs).LabelOnly completions samples)
    (good : (ℕ → ℚ) → Prop)
    (hlat : ∀ w, good w → (problemOf L.m outputs).ExactCompletionAt completions L.latent samples w)
    (hzero : ∀ s ∈ samples, ∀ h ∈ completions s.1 s.2, ∀ z ∈ outputs s.1, (problemOf L.m outputs).loss h z ≤ 0 →
      z ∈ completions s.1 s.2)
    (hinit : List.Forall₂ (fun s h => h ∈ completions s.1 s.2) samples (hInit.getD (L.initLatent samples)))
    (R S : ℚ) (htrain : ∀ hs, List.Forall₂ (fun s h => h ∈ completions s.1 s.2) samples hs →
      Trainable L.m outputs ((samples.map Prod.fst).zip hs) R S)
    (heq : ∀ hs, List.Forall₂ (fun s h => h ∈ completions s.1 s.2) samples hs →
      EqSound L.m outputs eq ((samples.map Prod.fst).zip hs))
    (hbig : ∃ s ∈ samples, ∀ h ∈ completions s.1 s.2, ∃ ŷ ∈ outputs s.1, 1 / 10 ^ 5 ≤ (problemOf L.m outputs).loss h ŷ)
    (o : NSlack.Obj H) (hC : 0 < o.cfg.C) (htol : 0 < o.cfg.tol) (hneg : o.cfg.negativity = none)
    (hbr : o.cfg.breakOnBad = false) (hbat : o.cfg.batchSize = -1 ∨ 0 < o.cfg.batchSize) (hwin : o.cfg.inactiveWindow = 0)
    (hmi : o.cfg.maxIter ≠ 0) (δ : ℚ) (hδ : 1 / 10 ^ 5 ≤ δ) (h1 : 2 * o.cfg.tol ≤ o.cfg.C * δ)
    (h2 : 2 * R * o.cfg.tol ≤ δ ^ 2) (hmax : o.cfg.C * S < ((o.cfg.maxIter : ℚ) - 2) * o.cfg.tol)
    (hgood : ∀ hs, List.Forall₂ (fun s h => h ∈ completions s.1 s.2) samples hs → ∀ w,
      (problemOf L.m outputs).NormNear o.cfg.C ((samples.map Prod.fst).zip hs) (2 * o.cfg.C * samples.length * δ) w → good w) :
    ∃ st fl, LatentSSVM.fit L (nSlackBase L.m qp eq) same (n + 1) o samples hInit = .ok (st, fl) ∧
      LatentDescent L (nSlackBase L.m qp eq) same (problemOf L.m outputs) o.cfg.C (2 * o.cfg.C * samples.length * δ)
        samples completions (n + 1) st fl := by
  have hLA := (htrain _ hinit).exact_lossAug
  have hδ0 : 0 ≤ δ := le_trans (by norm_num) hδ
  have hsne : samples ≠ [] := by
    intro h0
    have := (htrain _ hinit).ne
    rw [h0] at this
    exact this rfl
  have hnegk : ∀ k ∈ o.cfg.negativity.getD [], k < L.m.dim := by rw [hneg]; simp
  -- one call
  have hcall : ∀ (b b' : NSlack.Obj H) (hs : List H) (cons), b.cfg = o.cfg →
      List.Forall₂ (fun s h => h ∈ completions s.1 s.2) samples hs →
      GivenHold L.m outputs ((samples.map Prod.fst).zip hs) cons →
      nSlackFit L.m qp eq b ((samples.map Prod.fst).zip hs) cons = .ok b' →
      (∀ a, b'.attrs = some a → ∀ i s, samples[i]? = some s → ∀ c ∈ a.constraints i, c.yhat ∈ outputs s.1) ∧
      LatentNear (problemOf L.m outputs) completions o.cfg.C (2 * o.cfg.C * samples.length * δ) samples hs
        ((nSlackBase (X := X) L.m qp eq).w b') ∧ good ((nSlackBase (X := X) L.m qp eq).w b') := by
    intro b b' hs cons hcfg hmem hcons hfit
    have ht := htrain hs hmem
    have hhs : hs.length = samples.length := hmem.length_eq.symm
    have hlen : ((samples.map Prod.fst).zip hs).length = samples.length := by rw [List.length_zip, hhs]; simp
    have hgetz : ∀ (i : ℕ) (hi : i < samples.length), ((samples.map Prod.fst).zip hs)[i]? =
        some (samples[i].1, hs[i]'(by omega)) := by
      intro i hi
      rw [List.getElem?_eq_getElem (by omega), List.getElem_zip, List.getElem_map]
    obtain ⟨B, hB, hBle⟩ := ht.zero hC.le
    have hmaxB := lt_of_le_of_lt hBle hmax
    unfold nSlackFit at hfit
    split at hfit
    · cases hfit
    rename_i r hr
    obtain ⟨b1, out⟩ := r
    simp only [Except.ok.injEq] at hfit
    subst hfit
    obtain ⟨-, a, ds, d, ha, -, hd, hhold, ξ, hle, hset⟩ := C93_given L.m outputs qp hqp eq b b1 _ (heq hs hmem)
      (by rw [hcfg]; exact hC) (by rw [hcfg]; exact hneg) (by rw [hcfg]; exact hwin) ht.labelled hLA
      (complete_nfirst hcomp _ (by rw [hcfg]; exact hC.le) _) cons hcons R δ ht.range hδ (by rw [hcfg]; exact htol)
      (by rw [hcfg]; exact h1) (by rw [hcfg]; exact h2) _ _ (by rw [hcfg]; exact hB) (by rw [hcfg]; exact hmaxB) out hr
    rw [hcfg, hlen] at hle
    rw [hcfg] at hd
    refine ⟨?_, ?_⟩
    · intro a' ha' i s hi c hc
      rw [ha] at ha'
      cases ha'
      obtain ⟨hlt, rfl⟩ := List.getElem?_eq_some_iff.mp hi
      exact (hhold i _ (hgetz i hlt) c hc).1
    · change LatentNear _ _ _ _ _ _ ((b1.attrs.map NSlack.Attrs.w).getD fun _ => 0) ∧
        good ((b1.attrs.map NSlack.Attrs.w).getD fun _ => 0)
      rw [ha]
      change LatentNear _ _ _ _ _ _ a.w ∧ good a.w
      have hg : good a.w := by
        refine hgood hs hmem _ fun w' u hu => ?_
        have hlow := hd w' u hu
        have hsum : -(samples.length * (2 * δ)) ≤ ∑ i ∈ range samples.length, ξ i := by
          have e2 : -(samples.length * (2 * δ)) = ∑ i ∈ range samples.length, (-(2 * δ)) := by
            rw [sum_const, card_range, nsmul_eq_mul]
            ring
          rw [e2]
          refine sum_le_sum fun i hi => ?_
          have hi' := mem_range.mp hi
          have hi3 : i < hs.length := by omega
          rcases hset i _ (hgetz i hi') with h | ⟨h0, -⟩
          · have hin : samples[i] ∈ samples := List.getElem_mem hi'
            have hmi := (List.forall₂_iff_get.mp hmem).2 i hi' hi3
            simp only [List.get_eq_getElem] at hmi
            have h1 := (hlab _ hin _ hmi).1
            have h2 := h _ h1.1
            have h4 : (problemOf L.m outputs).violation a.w samples[i].1 (hs[i]'hi3) (hs[i]'hi3) = 0 := by
              unfold Problem.violation
              rw [h1.2]
              ring
            simp only at h2
            rw [h4] at h2
            linarith
          · rw [h0]
            linarith
        have h3 := mul_le_mul_of_nonneg_left hsum hC.le
        have h5 : ∑ k ∈ range (problemOf L.m outputs).dim, a.w k * a.w k = ∑ k ∈ range L.m.dim, a.w k * a.w k := rfl
        rw [h5]
        linarith
      refine ⟨?_, hg⟩
      obtain ⟨v, hv⟩ := latent_exists hLA hlab (hlat _ hg) o.cfg.C
      refine ⟨v, hv, fun w' u hu => ?_⟩
      have hlow := hd w' u hu
      obtain ⟨ls, hf, rfl⟩ := hv
      have hll := hf.length_eq
      have hsum : ls.sum ≤ ∑ i ∈ range samples.length, ξ i + samples.length * (2 * δ) := by
        have e1 : ls.sum = ∑ i ∈ range samples.length, ls.getD i 0 := by
          rw [hll, ← sum_list_range]
          congr 1
          apply List.ext_getElem
          · simp
          · intro i h1 h2
            simp [h1, List.getD_eq_getElem?_getD]
        have e2 : ∑ i ∈ range samples.length, ξ i + samples.length * (2 * δ) =
            ∑ i ∈ range samples.length, (ξ i + 2 * δ) := by
          rw [sum_add_distrib, sum_const, card_range, nsmul_eq_mul]
        rw [e1, e2]
        refine sum_le_sum fun i hi => ?_
        have hi' := mem_range.mp hi
        have hi2 : i < ls.length := by omega
        have hi3 : i < hs.length := by omega
        rw [List.getD_eq_getElem?_getD, List.getElem?_eq_getElem hi2, Option.getD_some]
        have hin : samples[i] ∈ samples := List.getElem_mem hi'
        have hlh := (List.forall₂_iff_get.mp hf).2 i hi' hi2
        have hmi := (List.forall₂_iff_get.mp hmem).2 i hi' hi3
        simp only [List.get_eq_getElem] at hlh hmi
        have hmin : ∀ h ∈ completions samples[i].1 samples[i].2, ∃ ŷ ∈ outputs samples[i].1,
            ls[i] ≤ (problemOf L.m outputs).violation a.w samples[i].1 h ŷ := by
          intro h hh
          obtain ⟨y1, y2⟩ := hLA samples[i].1 h a.w (hlab _ hin h hh).1.1 (hlab _ hin h hh).1.2
          refine ⟨_, y1, hlh.2 ⟨h, hh, ⟨_, y1, rfl⟩, ?_⟩⟩
          rintro q ⟨o, ho, rfl⟩
          exact y2 o ho
        rcases hset i _ (hgetz i hi') with h | ⟨h0, z, hz1, hz2, hz3⟩
        · obtain ⟨y, hy, hle⟩ := hmin _ hmi
          exact hle.trans (h y hy)
        · have hzc := hzero _ hin _ hmi z hz1 hz2
          obtain ⟨y, hy, hle⟩ := hmin z hzc
          have h5 := hz3 y hy
          have hv := latent_value_eq hlab hin hmi hzc a.w
          have hlo := ((hlab _ hin _ hmi).2 z hzc y).1
          unfold Problem.violation at hle h5
          rw [hv y, hv z, hlo] at h5
          simp only at h5 hz2
          rw [h0]
          linarith
      have h3 := mul_le_mul_of_nonneg_left hsum hC.le
      have h5 : ∑ k ∈ range (problemOf L.m outputs).dim, a.w k * a.w k = ∑ k ∈ range L.m.dim, a.w k * a.w k := rfl
      rw [h5]
      linarith
  suffices hT : Base.Trains L.m (nSlackBase L.m qp eq) (problemOf L.m outputs) o.cfg.C (2 * o.cfg.C * samples.length * δ)
      samples completions (fun warm b => b.cfg = o.cfg ∧ (warm = false → b = o) ∧ (warm = true →
        NResumable o.cfg samples.length b ∧
        ∀ a, b.attrs = some a → ∀ i s, samples[i]? = some s → ∀ c ∈ a.constraints i, c.yhat ∈ outputs s.1))
      (fun _ b => good ((nSlackBase (X := X) L.m qp eq).w b)) by
    obtain ⟨st, fl, hr, hres, -⟩ := C121_latent L _ same n o samples hInit outputs completions _ _ hLA hlab good hlat
      hinit _ _ ⟨rfl, fun _ => rfl, by simp⟩ (fun _ _ h => h) hT
    exact ⟨st, fl, hr, hres⟩
  intro b hs warm hI hmem
  obtain ⟨hcfg, hfresh, hw⟩ := hI
  have hhs : hs.length = samples.length := hmem.length_eq.symm
  cases warm with
  | true =>
    obtain ⟨hres, hys⟩ := hw rfl
    rcases nslack_step L.m qp hqp hcomp eq o hbr hbat hC.le hnegk samples hsne hmi hs hhs b hres with
      ⟨b', hb', hres'⟩ | ⟨e, -, hw, -⟩
    · obtain ⟨-, a, ha, han, -, -⟩ := hres
      have hcon : (nSlackBase (X := X) L.m qp eq).constraints b = some ((List.range samples.length).map a.constraints) := by
        change b.attrs.map _ = _
        rw [ha, ← han]
        rfl
      have hb2 := hb'
      rw [hcon] at hb2
      obtain ⟨c1, c2, c3⟩ := hcall b b' hs _ hcfg hmem (recomputed_holds hhs (hys a ha)) hb2
      exact ⟨b', hb', ⟨hres'.1, by simp, fun _ => ⟨hres', c1⟩⟩, c2, c3⟩
    · exact absurd hwin hw
  | false =>
    have hbo := hfresh rfl
    subst hbo
    have ht := htrain hs hmem
    obtain ⟨s, hs1, hs2⟩ := hbig
    obtain ⟨i, hi, rfl⟩ := List.getElem_of_mem hs1
    have hmi' := (List.forall₂_iff_get.mp hmem).2 i hi (by omega)
    simp only [List.get_eq_getElem] at hmi'
    obtain ⟨ŷ, hy, hbig⟩ := hs2 _ hmi'
    have hin : (samples[i].1, hs[i]'(by omega)) ∈ (samples.map Prod.fst).zip hs := by
      have hz : i < ((samples.map Prod.fst).zip hs).length := by rw [List.length_zip, List.length_map]; omega
      have := List.getElem_mem hz
      rw [List.getElem_zip, List.getElem_map] at this
      exact this
    obtain ⟨o', out, hfit⟩ := (C67_nslack_returns_iff_partial L.m qp hqp hcomp eq none b hbr hbat hC.le hnegk _ ht.ne).mpr
      ⟨hmi, _, hin, hbig.trans (ht.first _ hin ŷ hy)⟩
    have hb' : nSlackFit L.m qp eq b ((samples.map Prod.fst).zip hs) none = .ok o' := by
      unfold nSlackFit
      rw [hfit]
    have hres := nfit_kept hqp.1 (fun cs hcs => by cases hcs) hfit
    have hlen : ((samples.map Prod.fst).zip hs).length = samples.length := by rw [List.length_zip, hhs]; simp
    rw [hlen] at hres
    obtain ⟨c1, c2, c3⟩ := hcall b o' hs none rfl hmem (fun cs hcs => by cases hcs) hb'
    exact ⟨o', hb', ⟨hres.1, by simp, fun _ => ⟨hres, c1⟩⟩, c2, c3⟩

/-! ### an example -/

theorem hidden_trainable {h : ℕ} (hh : h < 2) :
    Trainable hiddenModel (fun _ => {h | h < 3}) [((), h)] 1 1 where
  ne := by simp
  plain := rfl
  exact_lossAug := hidden_exact
  labelled := by
    intro s hs
    rw [List.mem_singleton] at hs
    subst hs
    exact (hidden_labelOnly ((), 0) (by simp) h hh).1
  range_nonneg := by norm_num
  range := by
    intro s hs y hy y' hy'
    have hy : y < 3 := hy
    have hy' : y' < 3 := hy'
    change ∑ k ∈ range 1, ((if y = 0 then (1 / 2 : ℚ) else if y = 1 then 1 else 0) -
      (if y' = 0 then 1 / 2 else if y' = 1 then 1 else 0)) ^ 2 ≤ 1
    rw [sum_range_one]
    interval_cases y <;> interval_cases y' <;> norm_num
  cost := by
    refine ⟨fun _ => 1, ?_, by simp⟩
    intro s _ y _
    change (if (s.2 = 2) ↔ (y = 2) then (0 : ℚ) else 1) ≤ 1
    split_ifs <;> norm_num
  confusable := by
    refine ⟨((), h), by simp, 2, (by decide : 2 < 3), ?_⟩
    change (0 : ℚ) < if (h = 2) ↔ (2 = 2) then 0 else 1
    rw [if_neg (by omega)]
    norm_num

/-- The hypotheses of C121 can be met: the model of C57, with any number of outer iterations. -/
example (n : ℕ) : ∃ st fl, LatentSSVM.fit hiddenLatent (oneSlackBase hiddenModel QP.ideal natEq) natBeq (n + 1)
      (exampleOS 3000000 1 0 0) [((), 0)] none = .ok (st, fl) ∧
    LatentDescent hiddenLatent (oneSlackBase hiddenModel QP.ideal natEq) natBeq (problemOf hiddenModel fun _ => {h | h < 3}) 1
      (1 * (1 : ℕ) * (1 / 1000)) [((), 0)] hiddenCompletions (n + 1) st fl ∧
    ∀ a ∈ st.hist, (problemOf hiddenModel fun _ => {h | h < 3}).NearOptimal 1 (([((), 0)].map Prod.fst).zip a.1)
      (1 * (1 : ℕ) * (1 / 1000)) ((oneSlackBase (X := Unit) hiddenModel QP.ideal natEq).w a.2) :=
  C121_one_slack hiddenLatent QP.ideal QP.ideal_exact.1 QP.ideal_exact.2 natEq natBeq n [((), 0)] none
    _ hiddenCompletions hidden_labelOnly (fun _ => True) (fun w _ => hidden_completion.at w) (.cons (by decide : (0 : ℕ) < 2) .nil) 1 1
    (by
      intro hs hmem
      cases hmem with
      | @cons s h l l' hh h2 =>
        cases h2
        exact hidden_trainable hh)
    (exampleOS 3000000 1 0 0) (fun _ _ _ _ => trivial) rfl (by decide +kernel) (by decide +kernel) (by decide +kernel) rfl (by decide +kernel) rfl rfl
    (by decide +kernel) (1 / 2000000) (by norm_num)
    (by
      change 2 * (1 / 2000000 : ℚ) ≤ 1 * ((1 : ℕ) : ℚ) * (1 / 1000)
      norm_num)
    (by
      change 2 * 1 * (1 / 2000000 : ℚ) ≤ (1 / 1000) ^ 2
      norm_num)
    (by
      change (1 : ℚ) * 1 < (((3000000 : ℕ) : ℚ) - 1) * (1 / 2000000)
      norm_num)

/-- the same with `NSlackSSVM`. -/
def hiddenNS : NSlack.Obj ℕ :=
  { exampleNS 1000000 1 (-1) 0 with
    cfg := { (exampleNS 1000000 1 (-1) 0).cfg with breakOnBad := false, tol := 1 / 500000 } }

example (n : ℕ) : ∃ st fl, LatentSSVM.fit hiddenLatent (nSlackBase hiddenModel QP.ideal natBeq) natBeq (n + 1)
      hiddenNS [((), 0)] none = .ok (st, fl) ∧
    LatentDescent hiddenLatent (nSlackBase hiddenModel QP.ideal natBeq) natBeq (problemOf hiddenModel fun _ => {h | h < 3}) 1
      (2 * 1 * (1 : ℕ) * (1 / 500)) [((), 0)] hiddenCompletions (n + 1) st fl :=
  C121_n_slack hiddenLatent QP.ideal QP.ideal_exact.1 QP.ideal_exact.2 natBeq natBeq n [((), 0)] none
    _ hiddenCompletions hidden_labelOnly (fun _ => True) (fun w _ => hidden_completion.at w)
    (by
      intro s hs h hh z hz hle
      rw [List.mem_singleton] at hs
      subst hs
      have hh : h < 2 := hh
      have hz : z < 3 := hz
      change (if (h = 2) ↔ (z = 2) then (0 : ℚ) else 1) ≤ 0 at hle
      change z < 2
      by_contra hc
      rw [if_neg (by omega)] at hle
      norm_num at hle)
    (.cons (by decide : (0 : ℕ) < 2) .nil) 1 1
    (by
      intro hs hmem
      cases hmem with
      | @cons s h l l' hh h2 =>
        cases h2
        exact hidden_trainable hh)
    (by
      intro hs _ s _ a _ b _ hab
      have : a = b := by simpa [natBeq] using hab
      subst this
      exact ⟨rfl, fun _ _ => rfl⟩)
    (by
      refine ⟨((), 0), by simp, fun h hh => ⟨2, (by decide : 2 < 3), ?_⟩⟩
      have hh : h < 2 := hh
      change (1 / 10 ^ 5 : ℚ) ≤ if (h = 2) ↔ (2 = 2) then 0 else 1
      rw [if_neg (by omega)]
      norm_num)
    hiddenNS (by decide +kernel) (by decide +kernel) rfl rfl (.inl rfl) rfl (by decide +kernel) (1 / 500) (by norm_num)
    (by
      change 2 * (1 / 500000 : ℚ) ≤ 1 * (1 / 500)
      norm_num)
    (by
      change 2 * 1 * (1 / 500000 : ℚ) ≤ (1 / 500) ^ 2
      norm_num)
    (by
      change (1 : ℚ) * 1 < (((1000000 : ℕ) : ℚ) - 2) * (1 / 500000)
      norm_num)
    (fun _ _ _ _ => trivial)

end Verif.Props
