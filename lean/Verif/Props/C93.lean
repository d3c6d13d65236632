import Verif.Lemmas.NSlackRate
import Verif.Props.C67N

/-!
# C93: n-slack training that stops by tolerance is near optimal
-/

namespace Verif.Props

open Finset Verif.Spec Verif.Learner Verif.NSlack
open Verif.OneSlack (Phase weightsOf)

variable {X Y : Type}

/-- a solver that is complete succeeds in the first attempt. -/
theorem complete_nfirst {qp : QP.Solver} (hcomp : QP.Complete qp) (dim : ℕ) {C : ℚ} (hC : 0 ≤ C) (n : ℕ) :
    NFirstAttempt qp dim C n := by
  intro Y ws sol h
  have := hcomp _ (QP.nSlack_optimal dim none C hC n ws 0 le_rfl)
  unfold NSlack.solveQP at h
  split_ifs at h
  cases hq : qp (NSlack.qpOf dim none C n ws 0) with
  | none => rw [hq] at this; simp at this
  | some s =>
    rw [hq] at h
    simp only [Except.ok.injEq] at h
    rw [h]

/-! ### one pass over the data -/

/-- what is known before and after each batch. -/
structure PassInv (m : SModel X Y) (outputs : X → Set Y) (C : ℚ) (samples : List (X × Y)) (st : NSlack.St X Y) : Prop where
  model : st.model = m
  opt : NOpt m.dim C samples.length st.ws st.w (st.objective.getD 0)
  holds : ∀ i s, samples[i]? = some s → ∀ c ∈ st.ws i, Holds (problemOf m outputs) s c

/-- the visit to a sample: the weights and working sets then, and the constraint found. `v` and `v'` are the dual values
at the start and the end of the pass, `ws'` the working sets at the end. -/
def Visit (cfg : NSlack.Config) (eq : Y → Y → Bool) (m : SModel X Y) (n : ℕ) (v v' : ℚ) (ws' : WS Y) (p : ℕ × X × Y)
    (w1 : W) (ws1 : WS Y) (v1 : ℚ) : Prop :=
  NOpt m.dim cfg.C n ws1 w1 v1 ∧ v ≤ v1 ∧ (∀ i, ∀ c ∈ ws1 i, c ∈ ws' i) ∧
    (Rejected cfg eq m w1 (ws1 p.1) p.2 ∨
      ∃ ws2 w2 v2, NOpt m.dim cfg.C n ws2 w2 v2 ∧ v2 ≤ v' ∧ (∀ i, ∀ c ∈ ws1 i, c ∈ ws2 i) ∧
        (∃ c ∈ ws2 p.1, c.loss = (found m w1 p.2).loss ∧ c.dj = (found m w1 p.2).delta) ∧
        1 / 10 ^ 5 ≤ (found m w1 p.2).slack)

theorem found_wasViolated {m : SModel X Y} {cfg : NSlack.Config} {eq : Y → Y → Bool} {w : W} {l l' : List (NCon Y)}
    {s : X × Y} {outputs : X → Set Y} (hla : ∀ w, m.lossAug s.1 s.2 w true ∈ outputs s.1)
    (h : Added cfg eq m w l s l') : ∃ c, l' = l ++ [c] ∧ Holds (problemOf m outputs) s c ∧
      c.loss = (found m w s).loss ∧ c.dj = (found m w s).delta ∧ 1 / 10 ^ 5 ≤ (found m w s).slack := by
  obtain ⟨h1, h2, h3⟩ := h
  refine ⟨_, h3, ⟨hla w, ?_, rfl⟩, rfl, rfl, (checkBad_false h2).1⟩
  intro k _
  change -_ + _ = _
  rw [neg_add_eq_sub]
  rfl

theorem pass_batch {m : SModel X Y} {outputs : X → Set Y} {qp : QP.Solver} (hqp : QP.Exact qp) {eq : Y → Y → Bool}
    {cfg : NSlack.Config} (hC : 0 ≤ cfg.C) (hneg : cfg.negativity = none) (hwin : cfg.inactiveWindow = 0)
    {samples : List (X × Y)} (hfirst : NFirstAttempt qp m.dim cfg.C samples.length)
    (hla : ∀ s ∈ samples, ∀ w, m.lossAug s.1 s.2 w true ∈ outputs s.1)
    {b : List (ℕ × X × Y)} (hb : GoodBatch samples b) {st st' : NSlack.St X Y} {s s' : ℚ} {k k' : ℕ} {fl : Bool}
    (h0 : PassInv m outputs cfg.C samples st)
    (h : runBatch qp eq cfg samples.length none b (st, s, k) = .ok ((st', s', k'), fl)) :
    PassInv m outputs cfg.C samples st' ∧ st'.objectiveCurve = st.objectiveCurve ∧
      st.objective.getD 0 ≤ st'.objective.getD 0 ∧ (∀ i, ∀ c ∈ st.ws i, c ∈ st'.ws i) ∧
      ∀ p ∈ b, ∃ w1 ws1 v1, Visit cfg eq m samples.length (st.objective.getD 0) (st'.objective.getD 0) st'.ws p w1 ws1 v1 := by
  rcases runBatch_ok h with ⟨hs, -⟩ | ⟨-, ws, new, ha, hc⟩
  · cases hs
  rw [h0.model] at ha
  obtain ⟨a1, a2, -, -, a5, -⟩ := addAll_ok hb.1 ha
  simp only at a1 a2 a5
  rcases hc with ⟨hs, -⟩ | ⟨-, hn, rfl, -⟩ | ⟨-, -, hs, -⟩
  · cases hs
  · obtain ⟨e1, e2⟩ := a5 hn
    have he : { st with ws := ws } = st := by rw [e1]
    rw [he]
    exact ⟨h0, rfl, le_rfl, fun i c hc => hc, fun p hp =>
      ⟨st.w, st.ws, st.objective.getD 0, h0.opt, le_rfl, fun i c hc => hc, .inl (e2 p hp)⟩⟩
  · have hin : ∀ p ∈ b, p.2 ∈ samples := fun p hp => List.mem_of_getElem? (hb.2 p hp)
    have hsub : ∀ i, ∀ c ∈ st.ws i, c ∈ ws i := by
      intro i c hc
      by_cases hi : i ∈ b.map Prod.fst
      · obtain ⟨p, hp, rfl⟩ := List.mem_map.mp hi
        rcases a2 p hp with ⟨-, e⟩ | hadd
        · rw [e]; exact hc
        · obtain ⟨d, e, -⟩ := found_wasViolated (outputs := outputs) (hla _ (hin p hp)) hadd
          rw [e]
          exact List.mem_append_left _ hc
      · rw [a1 i hi]; exact hc
    have hholds : ∀ i s, samples[i]? = some s → ∀ c ∈ ws i, Holds (problemOf m outputs) s c := by
      intro i s hi c hc
      by_cases hib : i ∈ b.map Prod.fst
      · obtain ⟨p, hp, rfl⟩ := List.mem_map.mp hib
        have hps : p.2 = s := by
          have := hb.2 p hp
          rw [hi, Option.some.injEq] at this
          exact this.symm
        subst hps
        rcases a2 p hp with ⟨-, e⟩ | hadd
        · rw [e] at hc; exact h0.holds _ _ hi c hc
        · obtain ⟨d, e, hd, -⟩ := found_wasViolated (outputs := outputs) (hla _ (hin p hp)) hadd
          rw [e] at hc
          rcases List.mem_append.mp hc with hc | hc
          · exact h0.holds _ _ hi c hc
          · rw [List.mem_singleton] at hc
            rw [hc]; exact hd
      · rw [a1 i hib] at hc
        exact h0.holds i s hi c hc
    obtain ⟨sol, hq, hp, he⟩ := solve_ok hs
    have hq' : qp (NSlack.qpOf m.dim none cfg.C samples.length ws 0) = some sol := by
      refine hfirst _ _ _ ?_
      rw [← hq, hneg]
      simp only
      rw [h0.model]
    obtain ⟨hfe, hval⟩ := hqp.1 _ _ hq'
    have hopt := nopt_of_optimal hC hfe fun x' hx' => by rw [← hval]; exact hqp.2 _ _ hq' x' hx'
    rw [← hval] at hopt
    have hws' : st'.ws = ws := prune_zero hwin hp
    have hw' : st'.w = weightsOf (flat samples.length ws) sol.x := by rw [he]
    have hob' : st'.objective = some (-sol.primalObjective) := by rw [he]
    have hopt' : NOpt m.dim cfg.C samples.length st'.ws st'.w (st'.objective.getD 0) := by
      rw [hws', hw', hob']
      exact hopt
    have hsub' : ∀ i, ∀ c ∈ st.ws i, c ∈ st'.ws i := by rw [hws']; exact hsub
    have hle : st.objective.getD 0 ≤ st'.objective.getD 0 := by
      have := nopt_mono h0.opt hopt' hsub'
      have h1 := dot_self_nonneg m.dim (fun k => st'.w k - st.w k)
      linarith
    refine ⟨⟨by rw [he]; exact h0.model, hopt', by rw [hws']; exact hholds⟩, by rw [he], hle, hsub', ?_⟩
    intro p hp
    refine ⟨st.w, st.ws, st.objective.getD 0, h0.opt, le_rfl, hsub', ?_⟩
    rcases a2 p hp with ⟨e, -⟩ | hadd
    · exact .inl e
    · right
      obtain ⟨d, e, -, e1, e2, e3⟩ := found_wasViolated (outputs := outputs) (hla _ (hin p hp)) hadd
      refine ⟨st'.ws, st'.w, _, hopt', le_rfl, hsub', ⟨d, ?_, e1, e2⟩, e3⟩
      rw [hws', e]
      simp

theorem pass_batches {m : SModel X Y} {outputs : X → Set Y} {qp : QP.Solver} (hqp : QP.Exact qp) {eq : Y → Y → Bool}
    {cfg : NSlack.Config} (hC : 0 ≤ cfg.C) (hneg : cfg.negativity = none) (hwin : cfg.inactiveWindow = 0)
    {samples : List (X × Y)} (hfirst : NFirstAttempt qp m.dim cfg.C samples.length)
    (hla : ∀ s ∈ samples, ∀ w, m.lossAug s.1 s.2 w true ∈ outputs s.1)
    {bs : List (List (ℕ × X × Y))} (hb : ∀ b ∈ bs, GoodBatch samples b) {j : ℕ} {st st' : NSlack.St X Y} {s s' : ℚ} {k k' : ℕ}
    {fl : Bool} (h0 : PassInv m outputs cfg.C samples st)
    (h : runBatches qp eq cfg samples.length (fun _ => none) bs j (st, s, k) = .ok ((st', s', k'), fl)) :
    PassInv m outputs cfg.C samples st' ∧ st'.objectiveCurve = st.objectiveCurve ∧
      st.objective.getD 0 ≤ st'.objective.getD 0 ∧ (∀ i, ∀ c ∈ st.ws i, c ∈ st'.ws i) ∧
      ∀ p ∈ bs.flatten, ∃ w1 ws1 v1,
        Visit cfg eq m samples.length (st.objective.getD 0) (st'.objective.getD 0) st'.ws p w1 ws1 v1 := by
  induction bs generalizing j st s k with
  | nil =>
    simp only [runBatches, Except.ok.injEq, Prod.mk.injEq] at h
    obtain ⟨⟨rfl, rfl, rfl⟩, rfl⟩ := h
    exact ⟨h0, rfl, le_rfl, fun i c hc => hc, by simp⟩
  | cons b bs ih =>
    have hfl := runBatches_noflag _ _ _ _ h
    simp only at hfl
    subst hfl
    unfold runBatches at h
    cases hr : runBatch qp eq cfg samples.length none b (st, s, k) with
    | error err => rw [hr] at h; cases h
    | ok r =>
      obtain ⟨⟨st1, s1, k1⟩, f1⟩ := r
      rw [hr] at h
      obtain ⟨i1, i2, i3, i4, i5⟩ := pass_batch hqp hC hneg hwin hfirst hla (hb b (by simp)) h0 hr
      cases f1 with
      | true => simp at h
      | false =>
        simp only at h
        obtain ⟨j1, j2, j3, j4, j5⟩ := ih (fun b hb' => hb b (by simp [hb'])) i1 h
        refine ⟨j1, by rw [j2, i2], i3.trans j3, fun i c hc => j4 i c (i4 i c hc), ?_⟩
        intro p hp
        rw [List.flatten_cons, List.mem_append] at hp
        rcases hp with hp | hp
        · obtain ⟨w1, ws1, v1, e1, e2, e3, e4⟩ := i5 p hp
          refine ⟨w1, ws1, v1, e1, e2, fun i c hc => j4 i c (e3 i c hc), ?_⟩
          rcases e4 with e4 | ⟨ws2, w2, v2, f1, f2, f3⟩
          · exact .inl e4
          · exact .inr ⟨ws2, w2, v2, f1, f2.trans j3, f3⟩
        · obtain ⟨w1, ws1, v1, e1, e2, e3, e4⟩ := j5 p hp
          exact ⟨w1, ws1, v1, e1, i3.trans e2, e3, e4⟩

/-! ### the end of the last pass -/

theorem holds_dist {P : Problem X Y} {samples : List (X × Y)} {R : ℚ} (hR : P.FeatureRange samples R) {s : X × Y}
    (hs : s ∈ samples) {y z : Y} (hy : y ∈ P.outputs s.1) (hz : z ∈ P.outputs s.1) {a b : W}
    (ha : ∀ k < P.dim, a k = P.feat s.1 s.2 s.2 k - P.feat s.1 y s.2 k)
    (hb : ∀ k < P.dim, b k = P.feat s.1 s.2 s.2 k - P.feat s.1 z s.2 k) :
    dot P.dim (fun k => a k - b k) (fun k => a k - b k) ≤ R := by
  refine le_trans (le_of_eq ?_) (hR s hs z hz y hy)
  unfold dot
  refine sum_congr rfl fun k hk => ?_
  simp only [ha k (mem_range.mp hk), hb k (mem_range.mp hk)]
  ring

/-- a visited sample had almost no slack left, if the pass raised the dual value by less than `tol`, or the output that was
found has no loss. -/
theorem visit_or {m : SModel X Y} {outputs : X → Set Y} {cfg : NSlack.Config} (hC : 0 ≤ cfg.C) {eq : Y → Y → Bool}
    {samples : List (X × Y)} (heq : EqSound m outputs eq samples)
    (hl : (problemOf m outputs).Labelled samples)
    (hla : ∀ s ∈ samples, ∀ w, m.lossAug s.1 s.2 w true ∈ outputs s.1)
    {R δ : ℚ} (hR : (problemOf m outputs).FeatureRange samples R) (hδ : 1 / 10 ^ 5 ≤ δ)
    (htol : 0 < cfg.tol) (h1 : 2 * cfg.tol ≤ cfg.C * δ) (h2 : 2 * R * cfg.tol ≤ δ ^ 2)
    {v v' : ℚ} (hv : v' < v + cfg.tol) {ws' : WS Y} {p : ℕ × X × Y} (hp : samples[p.1]? = some p.2)
    (hh : ∀ c ∈ ws' p.1, Holds (problemOf m outputs) p.2 c) {w1 : W} {ws1 : WS Y} {v1 : ℚ}
    (hvis : Visit cfg eq m samples.length v v' ws' p w1 ws1 v1) :
    m.lossOf p.2.2 (m.lossAug p.2.1 p.2.2 w1 true) ≤ 0 ∨
    ∃ ξ, Sel m.dim (ws1 p.1) w1 ξ ∧ sampleSlack m w1 p.2 ≤ ξ + δ := by
  obtain ⟨o1, hv1, hs1, hcase⟩ := hvis
  have hin : p.2 ∈ samples := List.mem_of_getElem? hp
  have hlt : p.1 < samples.length := (List.getElem?_eq_some_iff.mp hp).1
  have hh1 : ∀ c ∈ ws1 p.1, Holds (problemOf m outputs) p.2 c := fun c hc => hh c (hs1 _ c hc)
  rcases hcase with hrej | ⟨ws2, w2, v2, o2, hv2, hs2, ⟨c, hc, hcl, hcd⟩, hsl⟩
  · rcases rejected_or (outputs := outputs) (fun s hs => by
      rw [List.mem_singleton] at hs
      subst hs
      exact heq _ hin) (hla _ hin w1) hh1 hrej with h | ⟨ξ, e1, e2⟩
    · exact .inl h
    · exact .inr ⟨ξ, e1, by linarith⟩
  · right
    by_contra hcon
    push Not at hcon
    have hfs : (found m w1 p.2).slack = max (c.loss - dot m.dim w1 c.dj) 0 := by
      rw [hcl, hcd]
      rfl
    have hviol : sampleSlack m w1 p.2 = c.loss - dot m.dim w1 c.dj := by
      change (found m w1 p.2).slack = _
      rw [hfs] at hsl ⊢
      rcases le_total (c.loss - dot m.dim w1 c.dj) 0 with h3 | h3
      · rw [max_eq_right h3] at hsl
        norm_num at hsl
      · rw [max_eq_left h3]
    have hδ0 : 0 < δ := lt_of_lt_of_le (by norm_num) hδ
    have hcy : ∀ k < m.dim, c.dj k = (problemOf m outputs).feat p.2.1 p.2.2 p.2.2 k -
        (problemOf m outputs).feat p.2.1 (m.lossAug p.2.1 p.2.2 w1 true) p.2.2 k := by
      intro k _
      rw [hcd]
      change -_ + _ = _
      rw [neg_add_eq_sub]
      rfl
    have hgain := nopt_gain hC o1 o2 hs2 hlt hc hδ0 (fun ξ hξ => by
        have := (hcon ξ hξ).le
        rwa [hviol] at this)
      (fun d hd => by
        obtain ⟨d1, d2, -⟩ := hh1 d hd
        exact holds_dist hR hin (hla _ hin w1) d1 hcy d2)
      (by
        have := holds_dist (P := problemOf m outputs) hR hin (hla _ hin w1) (hl _ hin).1 (b := fun _ => 0) hcy
          (fun k _ => by ring)
        simp only [sub_zero] at this
        exact this) htol.le h1 h2
    linarith

/-- the same if outputs without loss have the features of the truth. -/
theorem visit_slack {m : SModel X Y} {outputs : X → Set Y} {cfg : NSlack.Config} (hC : 0 ≤ cfg.C) {eq : Y → Y → Bool}
    {samples : List (X × Y)} (heq : EqSound m outputs eq samples)
    (hl : (problemOf m outputs).Labelled samples)
    (hla : ∀ s ∈ samples, ∀ w, m.lossAug s.1 s.2 w true ∈ outputs s.1)
    (hz : ∀ s ∈ samples, ∀ ŷ ∈ outputs s.1, (problemOf m outputs).loss s.2 ŷ ≤ 0 →
      ∀ k < m.dim, (problemOf m outputs).feat s.1 ŷ s.2 k = (problemOf m outputs).feat s.1 s.2 s.2 k)
    {R δ : ℚ} (hR : (problemOf m outputs).FeatureRange samples R) (hδ : 1 / 10 ^ 5 ≤ δ)
    (htol : 0 < cfg.tol) (h1 : 2 * cfg.tol ≤ cfg.C * δ) (h2 : 2 * R * cfg.tol ≤ δ ^ 2)
    {v v' : ℚ} (hv : v' < v + cfg.tol) {ws' : WS Y} {p : ℕ × X × Y} (hp : samples[p.1]? = some p.2)
    (hh : ∀ c ∈ ws' p.1, Holds (problemOf m outputs) p.2 c) {w1 : W} {ws1 : WS Y} {v1 : ℚ}
    (hvis : Visit cfg eq m samples.length v v' ws' p w1 ws1 v1) :
    ∃ ξ, Sel m.dim (ws1 p.1) w1 ξ ∧ sampleSlack m w1 p.2 ≤ ξ + δ := by
  have hin : p.2 ∈ samples := List.mem_of_getElem? hp
  rcases visit_or hC heq hl hla hR hδ htol h1 h2 hv hp hh hvis with hloss | h
  · refine ⟨0, .inl rfl, ?_⟩
    have hf := hz _ hin _ (hla _ hin w1) hloss
    have h0 : dot m.dim w1 (fun k => -m.feat p.2.1 (m.lossAug p.2.1 p.2.2 w1 true) p.2.2 k +
        m.feat p.2.1 p.2.2 p.2.2 k) = 0 := by
      unfold dot
      refine sum_eq_zero fun k hk => ?_
      have := hf k (mem_range.mp hk)
      change m.feat _ _ _ k = m.feat _ _ _ k at this
      simp only [this]
      ring
    have : sampleSlack m w1 p.2 = max (m.lossOf p.2.2 (m.lossAug p.2.1 p.2.2 w1 true) -
      dot m.dim w1 (fun k => -m.feat p.2.1 (m.lossAug p.2.1 p.2.2 w1 true) p.2.2 k +
        m.feat p.2.1 p.2.2 p.2.2 k)) 0 := rfl
    rw [this, h0, sub_zero, max_eq_right hloss]
    have : (0 : ℚ) < 1 / 10 ^ 5 := by norm_num
    linarith
  · exact h

/-- what a sample contributes at the end of the pass. -/
theorem final_slack {m : SModel X Y} {outputs : X → Set Y} {C : ℚ} {n : ℕ} {samples : List (X × Y)}
    (hl : (problemOf m outputs).Labelled samples)
    (hLA : (problemOf m outputs).ExactLossAug fun x y w => m.lossAug x y w true)
    {R δ tol : ℚ} (hR : (problemOf m outputs).FeatureRange samples R) (hδ : 0 ≤ δ) (h2 : 2 * R * tol ≤ δ ^ 2)
    {ws1 ws' : WS Y} {w1 w' : W} {v1 v' : ℚ} (o1 : NOpt m.dim C n ws1 w1 v1) (o' : NOpt m.dim C n ws' w' v')
    (hsub : ∀ i, ∀ c ∈ ws1 i, c ∈ ws' i) (hv : v' ≤ v1 + tol) {i : ℕ} {s : X × Y} (hs : s ∈ samples)
    (hh : ∀ c ∈ ws' i, Holds (problemOf m outputs) s c) {ξ : ℚ} (hξ : Sel m.dim (ws1 i) w1 ξ)
    (hle : sampleSlack m w1 s ≤ ξ + δ) : ∃ ξ', Sel m.dim (ws' i) w' ξ' ∧ sampleSlack m w' s ≤ ξ' + 2 * δ := by
  set y := m.lossAug s.1 s.2 w' true with hy
  set dj : W := fun k => -m.feat s.1 y s.2 k + m.feat s.1 s.2 s.2 k with hdj
  have hlab := hl s hs
  have hyo : y ∈ outputs s.1 := (hLA s.1 s.2 w' hlab.1 hlab.2).1
  have hsl : sampleSlack m w' s = max (m.lossOf s.2 y - dot m.dim w' dj) 0 := rfl
  have hbest : m.lossOf s.2 y - dot m.dim w1 dj ≤ sampleSlack m w1 s := by
    have h := (hLA s.1 s.2 w1 hlab.1 hlab.2).2 y hyo
    rw [hdj, dot_delta m outputs]
    refine h.trans ?_
    rw [← dot_delta m outputs]
    exact le_max_left _ _
  set u : W := fun k => w' k - w1 k with hu
  have hq := nopt_mono o1 o' hsub
  have hq2 : dot m.dim u u ≤ 2 * tol := by
    rw [hu]; linarith
  have hq0 : 0 ≤ dot m.dim u u := dot_self_nonneg _ _
  -- a direction of bounded length changes the violation by at most `δ`
  have hdir : ∀ g : W, dot m.dim g g ≤ R → dot m.dim u g ≤ δ := by
    intro g hg
    have h1 := cauchy_dot m.dim u g
    have e1 : ∑ k ∈ range m.dim, g k ^ 2 = dot m.dim g g := by
      unfold dot; exact sum_congr rfl fun k _ => by ring
    have e2 : ∑ k ∈ range m.dim, u k ^ 2 = dot m.dim u u := by
      unfold dot; exact sum_congr rfl fun k _ => by ring
    rw [e1, e2] at h1
    have hg0 : 0 ≤ dot m.dim g g := dot_self_nonneg _ _
    have h3 : dot m.dim u u * dot m.dim g g ≤ 2 * tol * R :=
      mul_le_mul hq2 hg hg0 (hq0.trans hq2)
    have h4 : dot m.dim u g ^ 2 ≤ δ ^ 2 := by linarith
    exact le_of_sq_le_sq h4 hδ
  have hdjy : ∀ k < m.dim, dj k = (problemOf m outputs).feat s.1 s.2 s.2 k - (problemOf m outputs).feat s.1 y s.2 k := by
    intro k _
    rw [hdj]
    change -_ + _ = _
    rw [neg_add_eq_sub]
    rfl
  have hexp : dot m.dim w' dj = dot m.dim w1 dj + dot m.dim u dj := by
    rw [hu, dot_sub_left]; ring
  rcases hξ with rfl | ⟨c, hc, rfl⟩
  · refine ⟨0, .inl rfl, ?_⟩
    have h3 : dot m.dim u (fun k => 0 - dj k) ≤ δ := hdir _ (by
      have := holds_dist (P := problemOf m outputs) hR hs hlab.1 hyo (a := fun _ => 0) (fun k _ => by ring) hdjy
      exact this)
    rw [dot_sub_right] at h3
    have h5 : dot m.dim u (fun _ => 0) = 0 := by rw [dot_comm, dot_zero_left]
    rw [hsl]
    refine max_le ?_ (by linarith)
    linarith
  · obtain ⟨c1, c2, -⟩ := hh c (hsub i c hc)
    have h3 : dot m.dim u (fun k => c.dj k - dj k) ≤ δ := hdir _ (holds_dist hR hs c1 hyo c2 hdjy)
    have hexp2 : dot m.dim w' c.dj = dot m.dim w1 c.dj + dot m.dim u c.dj := by
      rw [hu, dot_sub_left]; ring
    rw [dot_sub_right] at h3
    by_cases hpos : m.lossOf s.2 y - dot m.dim w' dj ≤ 0
    · refine ⟨0, .inl rfl, ?_⟩
      rw [hsl, max_eq_right hpos]
      linarith
    · refine ⟨_, .inr ⟨c, hsub i c hc, rfl⟩, ?_⟩
      rw [hsl, max_eq_left (not_le.mp hpos).le]
      linarith

/-! ### the guarantee -/

/-- the invariant at the start of each iteration. -/
def PassStart (m : SModel X Y) (outputs : X → Set Y) (C : ℚ) (samples : List (X × Y)) (st : NSlack.St X Y) : Prop :=
  PassInv m outputs C samples st ∧ st.objectiveCurve.getLast? = st.objective

theorem passStart_iteration {m : SModel X Y} {outputs : X → Set Y} {qp : QP.Solver} (hqp : QP.Exact qp) {eq : Y → Y → Bool}
    {cfg : NSlack.Config} (hC : 0 ≤ cfg.C) (hneg : cfg.negativity = none) (hwin : cfg.inactiveWindow = 0)
    {samples : List (X × Y)} (hfirst : NFirstAttempt qp m.dim cfg.C samples.length)
    (hla : ∀ s ∈ samples, ∀ w, m.lossAug s.1 s.2 w true ∈ outputs s.1)
    {it : ℕ} {st st' : NSlack.St X Y} {out : Outcome} (h0 : PassStart m outputs cfg.C samples st)
    (h : NSlack.iteration qp eq none cfg samples it (fun _ => none) st = .ok (st', out)) :
    PassStart m outputs cfg.C samples st' := by
  obtain ⟨bs, hb, st1, s, k, fl, hr, hc⟩ := iteration_ok h
  obtain ⟨i1, -⟩ := pass_batches hqp hC hneg hwin hfirst hla (batches_good hb) h0.1 hr
  have hfl := runBatches_noflag _ _ _ _ hr
  rcases hc with ⟨h, -⟩ | ⟨-, obj, lc, ho, hc⟩
  · rw [h] at hfl; cases hfl
  · rcases hc with ⟨-, -, -, rfl⟩ | ⟨-, ⟨la, inf, halt, -⟩ | ⟨-, -, rfl⟩⟩
    · exact ⟨⟨i1.model, i1.opt, i1.holds⟩, by simp [ho]⟩
    · cases halt
    · exact ⟨⟨i1.model, i1.opt, i1.holds⟩, by simp [ho]⟩

theorem passStart_fresh (m : SModel X Y) (outputs : X → Set Y) (C : ℚ) (samples : List (X × Y)) (lc : List ℚ) :
    PassStart m outputs C samples ⟨m, false, fun _ => 0, fun _ => [], fun _ => [], [], [], lc, none⟩ := by
  refine ⟨⟨rfl, ⟨?_, ?_⟩, by simp⟩, rfl⟩
  · intro ξ hξ
    have h0 : ∀ i ∈ range samples.length, ξ i = 0 := by
      intro i hi
      rcases hξ i (mem_range.mp hi) with h | ⟨c, hc, -⟩
      · exact h
      · simp at hc
    rw [sum_eq_zero h0, dot_zero_left]
    simp
  · intro w'
    refine ⟨fun _ => 0, fun i _ => .inl rfl, ?_⟩
    simp

/-- **C93, near optimality.** Let `fit` without given constraints, interruptions, pruning (`inactive_window=0`),
`negativity_constraint` and `switch_to` stop, for whichever reason: no new constraint, or an objective that rose by less
than `tol` in the last pass. Let the QP solver be exact and loss-augmented inference be exact, and let outputs without
loss have the features of the true output. Let `R` bound the squared distance of the joint features of two outputs of a
sample. Then for every `δ ≥ 1e-5` with `2 tol ≤ C δ` and `2 R tol ≤ δ²`, the learned weights are within `2 C n δ` of the
optimum: the threshold `tol` on the objective does bound the error, but only like the square root of `tol`. Holds for all
batch sizes. -/
theorem C93_near_optimal (m : SModel X Y) (outputs : X → Set Y) (qp : QP.Solver) (hqp : QP.Exact qp)
    (eq : Y → Y → Bool) (o o' : NSlack.Obj Y) (samples : List (X × Y)) (heq : EqSound m outputs eq samples)
    (hC : 0 < o.cfg.C) (hneg : o.cfg.negativity = none) (hwin : o.cfg.inactiveWindow = 0)
    (hl : (problemOf m outputs).Labelled samples)
    (hLA : (problemOf m outputs).ExactLossAug fun x y w => m.lossAug x y w true)
    (hz : ∀ s ∈ samples, ∀ ŷ ∈ outputs s.1, (problemOf m outputs).loss s.2 ŷ ≤ 0 →
      ∀ k < m.dim, (problemOf m outputs).feat s.1 ŷ s.2 k = (problemOf m outputs).feat s.1 s.2 s.2 k)
    (hfirst : NFirstAttempt qp m.dim o.cfg.C samples.length)
    (R δ : ℚ) (hR : (problemOf m outputs).FeatureRange samples R) (hδ : 1 / 10 ^ 5 ≤ δ)
    (htol : 0 < o.cfg.tol) (h1 : 2 * o.cfg.tol ≤ o.cfg.C * δ) (h2 : 2 * R * o.cfg.tol ≤ δ ^ 2) (noNew : Bool)
    (h : NSlack.fit m qp eq none (fun _ _ => none) o samples none = .ok (o', .stopped noNew)) :
    ∃ a ds d ps p, o'.attrs = some a ∧ a.objectiveCurve = ds ++ [d] ∧ a.primalCurve = ps ++ [p] ∧
      (problemOf m outputs).LowerBound o.cfg.C samples d ∧
      (problemOf m outputs).IsObjective o.cfg.C samples a.w p ∧
      p ≤ d + 2 * o.cfg.C * samples.length * δ ∧
      ∀ w' obj, (problemOf m outputs).IsObjective o.cfg.C samples w' obj → p ≤ obj + 2 * o.cfg.C * samples.length * δ := by
  have hla : ∀ s ∈ samples, ∀ w, m.lossAug s.1 s.2 w true ∈ outputs s.1 :=
    fun s hs w => (hLA s.1 s.2 w (hl s hs).1 (hl s hs).2).1
  obtain ⟨b0, hb0, -, hb2⟩ := C44_lower_bound m outputs qp hqp.1 eq none (fun _ _ => none) o o' samples hC hl hla (by simp)
    none (by intro cs h; cases h) (by intro h; exact absurd rfl h) _ h
  obtain ⟨st0, st, obj, primal, hs, hlp, -, hp, hob, rfl⟩ := fit_ok h
  have hst0 := (start_ok hs).resolve_right (by rintro ⟨cs, a, h, -⟩; cases h)
  have hne : samples ≠ [] := by
    rintro rfl
    simp [objectivePrimal] at hp
  obtain ⟨it, st1, hI, hit⟩ := loop_end (PassStart m outputs o.cfg.C samples)
    (fun it st st' out hI hit => passStart_iteration hqp hC.le hneg hwin hfirst hla hI hit)
    (by rw [hst0.2]; exact passStart_fresh m outputs o.cfg.C samples _) (by simp) hlp
  obtain ⟨bs, hb, st2, sl, k, fl, hr, hcase⟩ := iteration_ok hit
  obtain ⟨i1, i2, i3, i4, i5⟩ := pass_batches hqp hC.le hneg hwin hfirst hla (batches_good hb) hI.1 hr
  rcases hcase with ⟨-, -, hx⟩ | ⟨rfl, obj', lc, hob', hcase⟩
  · cases hx
  rcases hcase with ⟨-, -, hx, -⟩ | ⟨hreason, ⟨la, inf, -, -, hx, -⟩ | ⟨-, -, hst⟩⟩
  · cases hx
  · cases hx
  have hmodel : st.model = m := by rw [hst]; exact i1.model
  have hw : st.w = st2.w := by rw [hst]
  have hobj : st2.objective = some obj := by rw [← hob, hst]
  have hoo : obj' = obj := by
    rw [hobj, Option.some.injEq] at hob'
    exact hob'.symm
  subst hoo
  -- the last pass raised the value by less than `tol`
  have hv : st2.objective.getD 0 < st1.objective.getD 0 + o.cfg.tol := by
    rcases hreason with hk | hcv
    · obtain ⟨-, hq⟩ := runBatches_quiet (batches_good hb) hr
      obtain ⟨rfl, -⟩ := hq hk
      linarith
    · rw [i2] at hcv
      unfold converged at hcv
      rw [hI.2] at hcv
      cases hp1 : st1.objective with
      | none => rw [hp1] at hcv; cases hcv
      | some q =>
        rw [hp1] at hcv
        simp only [Bool.and_eq_true, decide_eq_true_eq] at hcv
        rw [hobj]
        simp only [Option.getD_some]
        linarith [hcv.2]
  obtain ⟨hflat, -⟩ := batches_ok hb
  rw [hflat] at i5
  have hδ0 : 0 ≤ δ := le_trans (by norm_num) hδ
  have hξ : ∀ i, ∃ ξ : ℚ, ∀ (hi : i < samples.length), Sel m.dim (st2.ws i) st2.w ξ ∧
      sampleSlack m st2.w samples[i] ≤ ξ + 2 * δ := by
    intro i
    by_cases hi : i < samples.length
    · have hgi : samples[i]? = some samples[i] := List.getElem?_eq_getElem hi
      have hmem : (i, samples[i]) ∈ indexed samples := by
        unfold indexed
        have hz : i < ((List.range samples.length).zip samples).length := by simp [hi]
        have : ((List.range samples.length).zip samples)[i] = (i, samples[i]) := by simp
        rw [← this]
        exact List.getElem_mem hz
      obtain ⟨w1, ws1, v1, hvis⟩ := i5 _ hmem
      obtain ⟨ξ1, e1, e2⟩ := visit_slack hC.le heq hl hla hz hR hδ htol h1 h2 hv hgi (i1.holds i _ hgi) hvis
      obtain ⟨o1, hv1, hs1, -⟩ := hvis
      obtain ⟨ξ, f1, f2⟩ := final_slack hl hLA hR hδ0 h2 o1 i1.opt hs1 (by linarith) (List.getElem_mem hi)
        (i1.holds i _ hgi) e1 e2
      exact ⟨ξ, fun _ => ⟨f1, f2⟩⟩
    · exact ⟨0, fun h => absurd h hi⟩
  choose ξ hξ using hξ
  have hT := i1.opt.1 ξ fun i hi => (hξ i hi).1
  rw [hobj, Option.getD_some] at hT
  obtain ⟨p0, hp0, hiso⟩ := C30_objective m outputs hLA samples hl hne st2.w o.cfg.C true
  rw [hmodel, hw] at hp
  rw [hp, Except.ok.injEq] at hp0
  subst hp0
  have hlow : (problemOf m outputs).LowerBound o.cfg.C samples obj' := by
    simp only [Option.some.injEq] at hb0
    subst hb0
    exact hb2 obj' (by simp)
  have hmain : primal ≤ obj' + 2 * o.cfg.C * samples.length * δ := by
    have e3 : (samples.map (sampleSlack m st2.w)).sum ≤
        ∑ i ∈ range samples.length, ξ i + samples.length * (2 * δ) := by
      have e1 : (samples.map (sampleSlack m st2.w)).sum =
          ∑ i ∈ range samples.length, (samples.map (sampleSlack m st2.w)).getD i 0 := by
        rw [← sum_list_range]
        congr 1
        apply List.ext_getElem
        · simp
        · intro i h1 h2
          simp at h1
          simp [h1, List.getD_eq_getElem?_getD]
      have e2 : ∑ i ∈ range samples.length, ξ i + samples.length * (2 * δ) =
          ∑ i ∈ range samples.length, (ξ i + 2 * δ) := by
        rw [sum_add_distrib, sum_const, card_range, nsmul_eq_mul]
      rw [e1, e2]
      refine sum_le_sum fun i hi => ?_
      have hi' := mem_range.mp hi
      simpa [List.getD_eq_getElem?_getD, hi'] using (hξ i hi').2
    rw [objectivePrimal_ok _ _ _ _ _ hne, Except.ok.injEq] at hp
    have e4 : ∑ k ∈ range m.dim, st2.w k ^ 2 = dot m.dim st2.w st2.w := by
      unfold dot
      exact sum_congr rfl fun k _ => by ring
    rw [e4] at hp
    have e5 := mul_le_mul_of_nonneg_right e3 hC.le
    linarith
  refine ⟨_, _, _, _, _, rfl, rfl, rfl, hlow, by rw [← hw] at hiso; exact hiso, hmain, ?_⟩
  intro w' obj ho'
  have := hlow w' obj ho'
  linarith

/-! ### training stops -/

theorem solve_nonneg {qp : QP.Solver} (hqp : QP.Exact qp) {cfg : NSlack.Config} (hC : 0 ≤ cfg.C) {n : ℕ}
    {st st' : NSlack.St X Y} (h : NSlack.solve qp cfg n st = .ok st') : ∀ v, st'.objective = some v → 0 ≤ v := by
  intro v hv
  obtain ⟨sol, hq, -, he⟩ := solve_ok h
  rw [he] at hv
  simp only [Option.some.injEq] at hv
  obtain ⟨eps, -, h2, -, -⟩ := solveQP_feasible hqp.1 hq
  have hlen : ∀ i, (List.replicate (offset st.ws n) (0 : ℚ)).getD i 0 = 0 := by
    intro i
    rw [List.getD_eq_getElem?_getD]
    by_cases hi : i < offset st.ws n
    · simp [hi]
    · simp [hi]
  have hzero : weightsOf (flat n st.ws) (List.replicate (offset st.ws n) 0) = fun _ => 0 := by
    funext k
    rw [OneSlack.weightsOf_eq _ _ (by rw [flat_length]; simp)]
    exact sum_eq_zero fun i _ => by rw [hlen, zero_mul]
  have hsl : ∀ i, ∀ a ∈ slice st.ws (List.replicate (offset st.ws n) (0 : ℚ)) i, a = 0 := by
    intro i a ha
    exact List.eq_of_mem_replicate (List.mem_of_mem_drop (List.mem_of_mem_take ha))
  have hf : (NSlack.qpOf st.model.dim cfg.negativity cfg.C n st.ws eps).Feasible (List.replicate (offset st.ws n) 0) := by
    rw [NSlack.feasible_qpOf]
    refine ⟨by simp, fun i _ => by rw [hlen], ?_, ?_⟩
    · intro i _
      rw [List.sum_eq_zero (hsl i)]
      exact hC
    · intro k _
      rw [hzero]
  have hle := hqp.2 _ _ h2 _ hf
  rw [NSlack.value_qpOf _ _ _ _ _ _ _ (by simp), hzero, dot_zero_left] at hle
  have h3 : ∑ i ∈ range (flat n st.ws).length, (List.replicate (offset st.ws n) (0 : ℚ)).getD i 0 ^ 2 = 0 :=
    sum_eq_zero fun i _ => by rw [hlen]; ring
  have h4 : ∑ j ∈ range n, bsum NCon.loss (st.ws j) (slice st.ws (List.replicate (offset st.ws n) (0 : ℚ)) j) = 0 := by
    refine sum_eq_zero fun j _ => ?_
    unfold bsum
    refine List.sum_eq_zero fun x hx => ?_
    obtain ⟨i, hi, rfl⟩ := List.getElem_of_mem hx
    rw [List.getElem_zipWith, hsl j _ (List.getElem_mem _), mul_zero]
  rw [h3, h4] at hle
  simp only [mul_zero, add_zero, zero_div, sub_zero] at hle
  linarith

/-- **C93, termination.** Training without given constraints, interruptions and `switch_to` stops before `max_iter` as
soon as `(max_iter - 2) tol` exceeds the regularised risk of some weight vector. With any pruning and any
batch size; the QP solver has to be exact and loss-augmented inference to return admissible outputs. -/
theorem C93_stops (m : SModel X Y) (outputs : X → Set Y) (qp : QP.Solver) (hqp : QP.Exact qp)
    (eq : Y → Y → Bool) (o o' : NSlack.Obj Y) (samples : List (X × Y)) (hC : 0 < o.cfg.C)
    (hl : (problemOf m outputs).Labelled samples)
    (hla : ∀ s ∈ samples, ∀ w, m.lossAug s.1 s.2 w true ∈ outputs s.1) (htol : 0 < o.cfg.tol)
    (w0 : W) (B : ℚ) (hB : (problemOf m outputs).IsObjective o.cfg.C samples w0 B)
    (hmax : B < ((o.cfg.maxIter : ℚ) - 2) * o.cfg.tol) (out : Outcome)
    (h : NSlack.fit m qp eq none (fun _ _ => none) o samples none = .ok (o', out)) :
    ∃ noNew, out = .stopped noNew := by
  obtain ⟨st0, st, obj, primal, hs, hlp, hmi, -, -, rfl⟩ := fit_ok h
  have hst0 := (start_ok hs).resolve_right (by rintro ⟨cs, a, h, -⟩; cases h)
  -- the value grows by `tol` in each iteration that does not stop
  have key : ∀ (fuel it : ℕ) (st st' : NSlack.St X Y) (out : Outcome), Inv44 m outputs none eq o.cfg.C samples st →
      (∀ v, st.objective = some v → 0 ≤ v) → (0 < it → ∃ v, st.objectiveCurve.getLast? = some v ∧
        ((it : ℚ) - 2) * o.cfg.tol ≤ v) →
      NSlack.loop qp eq none o.cfg samples (fun _ _ => none) fuel it st = .ok (st', out) →
      (∃ noNew, out = .stopped noNew) ∨ out = .goOn ∧ Inv44 m outputs none eq o.cfg.C samples st' ∧
        (0 < it + fuel → ∃ v, st'.objectiveCurve.getLast? = some v ∧ (((it + fuel : ℕ) : ℚ) - 2) * o.cfg.tol ≤ v) := by
    intro fuel
    induction fuel with
    | zero =>
      intro it st st' out hI hpos hgrow hlp
      simp only [NSlack.loop, Except.ok.injEq, Prod.mk.injEq] at hlp
      obtain ⟨rfl, rfl⟩ := hlp
      exact .inr ⟨rfl, hI, hgrow⟩
    | succ fuel ih =>
      intro it st st' out hI hpos hgrow hlp
      unfold NSlack.loop at hlp
      cases hit : NSlack.iteration qp eq none o.cfg samples it (fun _ => none) st with
      | error err => rw [hit] at hlp; cases hlp
      | ok r =>
        obtain ⟨st1, out1⟩ := r
        rw [hit] at hlp
        have hI1 := inv44_iteration hqp.1 hC hl hla (by simp) hI hit
        have hpos1 : ∀ v, st1.objective = some v → 0 ≤ v := by
          refine iteration_induct (fun st => ∀ v, st.objective = some v → 0 ≤ v) ?_ (fun _ _ _ _ h _ => h)
            (fun _ _ _ h _ => h) hpos hit
          intro j b _ st s k st' s' k' fl hp hr
          rcases runBatch_ok hr with ⟨-, rfl, -⟩ | ⟨-, ws, new, -, ⟨-, rfl, -⟩ | ⟨-, -, rfl, -⟩ | ⟨-, -, hs, -⟩⟩
          · exact hp
          · exact hp
          · exact hp
          · exact solve_nonneg hqp hC.le hs
        obtain ⟨bs, hb, st2, sl, k, fl, hr, hcase⟩ := iteration_ok hit
        have hfl := runBatches_noflag _ _ _ _ hr
        simp only at hfl
        have hcurve : st2.objectiveCurve = st.objectiveCurve := by
          refine runBatches_induct (fun s' _ => s'.objectiveCurve = st.objectiveCurve) ?_ rfl hr
          intro j b _ sta s k stb s' k' fl hp hr
          rcases runBatch_ok hr with ⟨-, rfl, -⟩ | ⟨-, ws, new, -, ⟨-, rfl, -⟩ | ⟨-, -, rfl, -⟩ | ⟨-, -, hs, -⟩⟩
          · exact hp
          · exact hp
          · exact hp
          · obtain ⟨sol, -, -, he⟩ := solve_ok hs
            rw [he]
            exact hp
        rcases hcase with ⟨hx, -⟩ | ⟨-, obj', lc, hob', hcase⟩
        · rw [hx] at hfl; cases hfl
        rcases hcase with ⟨-, hcv, rfl, hst⟩ | ⟨-, ⟨la, inf, hx, -⟩ | ⟨-, rfl, -⟩⟩
        · simp only at hlp
          have hobj1 : st1.objective = some obj' := by rw [hst]; exact hob'
          have hlast : st1.objectiveCurve.getLast? = some obj' := by rw [hst]; simp
          have := ih (it + 1) st1 st' out hI1 hpos1 (fun _ => ⟨obj', hlast, ?_⟩) hlp
          · have e : it + 1 + fuel = it + (fuel + 1) := by omega
            rw [e] at this
            exact this
          · rcases Nat.lt_or_ge it 2 with hlt | hge
            · have h0 := hpos1 _ hobj1
              have : (((it + 1 : ℕ) : ℚ) - 2) * o.cfg.tol ≤ 0 := by
                refine mul_nonpos_of_nonpos_of_nonneg ?_ htol.le
                have : ((it + 1 : ℕ) : ℚ) ≤ 2 := by exact_mod_cast (by omega : it + 1 ≤ 2)
                linarith
              linarith
            · obtain ⟨v, hv1, hv2⟩ := hgrow (by omega)
              rw [hcurve] at hcv
              unfold converged at hcv
              rw [hv1] at hcv
              simp only [Bool.and_eq_false_iff, decide_eq_false_iff_not] at hcv
              rcases hcv with hcv | hcv
              · omega
              · push_cast
                have := not_lt.mp hcv
                linarith
        · cases hx
        · simp only [Except.ok.injEq, Prod.mk.injEq] at hlp
          exact .inl ⟨_, hlp.2.symm⟩
  have hI0 := inv44_start (m := m) (outputs := outputs) (alt := none) (eq := eq) hqp.1 hC hl
    (cons := none) (by intro cs h; cases h) (by intro h; exact absurd rfl h) hs
  rcases key _ _ _ _ _ hI0 (by rw [hst0.2]; simp) (by simp) hlp with h | ⟨-, hI, h⟩
  · exact h
  · exfalso
    rw [Nat.zero_add] at h
    obtain ⟨v, hv1, hv2⟩ := h (Nat.pos_of_ne_zero hmi)
    have := hI.2.2 v (List.mem_of_getLast? hv1) w0 B hB
    linarith

/-- **C93.** Both together: with enough iterations, training ends with weights near the optimum. -/
theorem C93_converges (m : SModel X Y) (outputs : X → Set Y) (qp : QP.Solver) (hqp : QP.Exact qp)
    (eq : Y → Y → Bool) (o o' : NSlack.Obj Y) (samples : List (X × Y)) (heq : EqSound m outputs eq samples)
    (hC : 0 < o.cfg.C) (hneg : o.cfg.negativity = none) (hwin : o.cfg.inactiveWindow = 0)
    (hl : (problemOf m outputs).Labelled samples)
    (hLA : (problemOf m outputs).ExactLossAug fun x y w => m.lossAug x y w true)
    (hz : ∀ s ∈ samples, ∀ ŷ ∈ outputs s.1, (problemOf m outputs).loss s.2 ŷ ≤ 0 →
      ∀ k < m.dim, (problemOf m outputs).feat s.1 ŷ s.2 k = (problemOf m outputs).feat s.1 s.2 s.2 k)
    (hfirst : NFirstAttempt qp m.dim o.cfg.C samples.length)
    (R δ : ℚ) (hR : (problemOf m outputs).FeatureRange samples R) (hδ : 1 / 10 ^ 5 ≤ δ)
    (htol : 0 < o.cfg.tol) (h1 : 2 * o.cfg.tol ≤ o.cfg.C * δ) (h2 : 2 * R * o.cfg.tol ≤ δ ^ 2)
    (w0 : W) (B : ℚ) (hB : (problemOf m outputs).IsObjective o.cfg.C samples w0 B)
    (hmax : B < ((o.cfg.maxIter : ℚ) - 2) * o.cfg.tol) (out : Outcome)
    (h : NSlack.fit m qp eq none (fun _ _ => none) o samples none = .ok (o', out)) :
    ∃ a p, o'.attrs = some a ∧ (problemOf m outputs).IsObjective o.cfg.C samples a.w p ∧
      ∀ w' obj, (problemOf m outputs).IsObjective o.cfg.C samples w' obj → p ≤ obj + 2 * o.cfg.C * samples.length * δ := by
  obtain ⟨b, rfl⟩ := C93_stops m outputs qp hqp eq o o' samples hC hl
    (fun s hs w => (hLA s.1 s.2 w (hl s hs).1 (hl s hs).2).1) htol w0 B hB hmax out h
  obtain ⟨a, ds, d, ps, p, e1, -, -, -, e2, -, e3⟩ := C93_near_optimal m outputs qp hqp eq o o' samples heq hC hneg hwin hl hLA
    hz hfirst R δ hR hδ htol h1 h2 b h
  exact ⟨a, p, e1, e2, e3⟩

end Verif.Props
