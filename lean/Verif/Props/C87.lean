import Verif.Props.C40
import Verif.Lemmas.FWRate

/-!
# C87: one-slack cutting-plane training terminates by tolerance
-/

namespace Verif.Props

open Finset Verif.Spec Verif.Learner Verif.OneSlack

variable {X Y : Type}

/-! ### distances between averaged constraints -/

/-- two averaged constraints are at bounded distance. -/
theorem mean_dist {P : Problem X Y} {rel : X → Y → Y → Prop} {samples : List (X × Y)}
    (hrel : ∀ s ∈ samples, ∀ ŷ, rel s.1 s.2 ŷ → ŷ ∈ P.outputs s.1) {R : ℚ} (hR0 : 0 ≤ R)
    (hR : P.FeatureRange samples R)
    {a a' : W} {b b' : ℚ} (h : P.IsMean rel samples a b) (h' : P.IsMean rel samples a' b') :
    ∑ k ∈ range P.dim, (a k - a' k) ^ 2 ≤ R := by
  obtain ⟨o1, f1, e1, -⟩ := h
  obtain ⟨o2, f2, e2, -⟩ := h'
  have hxs : ∃ xs : List (ℕ → ℚ), xs.length = samples.length ∧
      (∀ x ∈ xs, ∑ k ∈ range P.dim, x k ^ 2 ≤ R) ∧
      ∀ k, ((samples.zip o1).map fun p => P.feat p.1.1 p.1.2 p.1.2 k - P.feat p.1.1 p.2 p.1.2 k).sum -
        ((samples.zip o2).map fun p => P.feat p.1.1 p.1.2 p.1.2 k - P.feat p.1.1 p.2 p.1.2 k).sum =
          (xs.map fun x => x k).sum := by
    clear e1 e2
    induction f1 generalizing o2 with
    | nil => cases f2; exact ⟨[], rfl, by simp, by simp⟩
    | @cons s y1 ss ys hm _ ih =>
      cases f2 with
      | @cons _ y2 _ ys' hy f2 =>
        obtain ⟨xs, x1, x2, x3⟩ := ih (fun t ht => hrel t (List.mem_cons_of_mem _ ht))
          (fun t ht => hR t (List.mem_cons_of_mem _ ht)) ys' f2
        refine ⟨(fun k => P.feat s.1 y2 s.2 k - P.feat s.1 y1 s.2 k) :: xs, by simp [x1], ?_, ?_⟩
        · intro x hx
          rcases List.mem_cons.mp hx with rfl | hx
          · exact hR s List.mem_cons_self y2 (hrel s List.mem_cons_self _ hy) y1 (hrel s List.mem_cons_self _ hm)
          · exact x2 x hx
        · intro k
          simp only [List.zip_cons_cons, List.map_cons, List.sum_cons]
          rw [← x3 k]; ring
  obtain ⟨xs, x1, x2, x3⟩ := hxs
  rcases Nat.eq_zero_or_pos samples.length with h0 | hpos
  · refine le_trans (le_of_eq ?_) hR0
    refine sum_eq_zero fun k hk => ?_
    rw [e1 k (mem_range.mp hk), e2 k (mem_range.mp hk), h0]
    simp
  have hn : (0 : ℚ) < samples.length := by exact_mod_cast hpos
  have e : ∀ k ∈ range P.dim, (a k - a' k) ^ 2 ≤ (xs.map fun x => x k ^ 2).sum / samples.length := by
    intro k hk
    rw [e1 k (mem_range.mp hk), e2 k (mem_range.mp hk), ← sub_div, x3 k, div_pow]
    have := (list_cauchy xs (fun _ => 1) (fun x => x k) (fun _ _ => zero_le_one)).2.2
    simp only [one_mul] at this
    have hs : (xs.map fun _ => (1 : ℚ)).sum = samples.length := by rw [← x1]; simp
    rw [hs] at this
    rw [div_le_div_iff₀ (by positivity) hn]
    nlinarith
  refine (sum_le_sum e).trans ?_
  rw [← sum_div, list_sum_finset, div_le_iff₀ hn]
  have : (xs.map fun x => ∑ k ∈ range P.dim, x k ^ 2).sum ≤ (xs.map fun _ => R).sum :=
    Props.list_sum_le _ _ _ x2
  refine this.trans (le_of_eq ?_)
  rw [← x1]
  simp [mul_comm]

/-- the distance between the weights of a dual point and an averaged constraint. -/
theorem weights_dist {dim : ℕ} {cn R : ℚ} {cs : List Con} {x : List ℚ}
    (hf : (qpOf dim none cn cs 0).Feasible x) (δ : W)
    (hd : ∀ c ∈ cs, ∑ k ∈ range dim, (c.1 k - δ k) ^ 2 ≤ R) :
    ∑ k ∈ range dim, (cn * δ k - weightsOf cs x k) ^ 2 ≤ cn ^ 2 * R := by
  obtain ⟨hl, hpos, hsum, -⟩ := (feasible_qpOf _ _ _ _ _ _).mp hf
  have hcn : 0 ≤ cn := by rw [← hsum]; exact sum_nonneg fun i hi => hpos i (mem_range.mp hi)
  have e : ∀ k ∈ range dim, (cn * δ k - weightsOf cs x k) ^ 2 ≤
      cn * ∑ i ∈ range cs.length, x.getD i 0 * ((con cs i).1 k - δ k) ^ 2 := by
    intro k _
    rw [weightsOf_eq cs x hl]
    have e1 : cn * δ k - ∑ i ∈ range cs.length, x.getD i 0 * (con cs i).1 k =
        -(∑ i ∈ range cs.length, x.getD i 0 * ((con cs i).1 k - δ k)) := by
      rw [← hsum, sum_mul, ← sum_sub_distrib, ← sum_neg_distrib]
      exact sum_congr rfl fun i _ => by ring
    rw [e1, neg_sq]
    have := (list_cauchy (List.range cs.length) (fun i => x.getD i 0) (fun i => (con cs i).1 k - δ k)
      (fun i hi => hpos i (List.mem_range.mp hi))).2.2
    have key : ∀ f : ℕ → ℚ, ((List.range cs.length).map f).sum = ∑ i ∈ range cs.length, f i := by
      intro f
      rw [← List.sum_toFinset f List.nodup_range, List.toFinset_range]
    rw [key, key, key, hsum] at this
    exact this
  refine (sum_le_sum e).trans ?_
  rw [← mul_sum, sum_comm]
  have : ∑ i ∈ range cs.length, ∑ k ∈ range dim, x.getD i 0 * ((con cs i).1 k - δ k) ^ 2 ≤
      ∑ i ∈ range cs.length, x.getD i 0 * R := by
    refine sum_le_sum fun i hi => ?_
    rw [← mul_sum]
    refine mul_le_mul_of_nonneg_left (hd _ ?_) (hpos i (mem_range.mp hi))
    unfold con; rw [List.getD_eq_getElem _ _ (mem_range.mp hi)]; exact List.getElem_mem _
  rw [← sum_mul, hsum] at this
  have := mul_le_mul_of_nonneg_left this hcn
  refine this.trans (le_of_eq (by ring))

/-! ### the gain of a new constraint -/

theorem append_getD (x : List ℚ) (a : ℚ) (i : ℕ) :
    (i < x.length → (x ++ [a]).getD i 0 = x.getD i 0) ∧ (x ++ [a]).getD x.length 0 = a := by
  constructor
  · intro h
    simp [List.getD_eq_getElem?_getD, List.getElem?_append_left h]
  · simp [List.getD_eq_getElem?_getD]

theorem con_append (cs : List Con) (c : Con) (i : ℕ) :
    (i < cs.length → con (cs ++ [c]) i = con cs i) ∧ con (cs ++ [c]) cs.length = c := by
  unfold con
  constructor
  · intro h
    simp [List.getD_eq_getElem?_getD, List.getElem?_append_left h]
  · simp [List.getD_eq_getElem?_getD]

/-- the point that moves a fraction `t` of all weight to a new constraint. -/
def shifted (t cn : ℚ) (x : List ℚ) : List ℚ := x.map (fun a => (1 - t) * a) ++ [t * cn]

theorem shifted_sum (t cn : ℚ) (x : List ℚ) (cs : List Con) (c : Con) (hl : x.length = cs.length) (f : Con → ℚ) :
    ∑ i ∈ range (cs ++ [c]).length, (shifted t cn x).getD i 0 * f (con (cs ++ [c]) i) =
      (1 - t) * ∑ i ∈ range cs.length, x.getD i 0 * f (con cs i) + t * cn * f c := by
  have hxl : (x.map fun a => (1 - t) * a).length = cs.length := by simp [hl]
  rw [List.length_append, List.length_singleton, sum_range_succ, (con_append cs c 0).2]
  have h1 : (shifted t cn x).getD cs.length 0 = t * cn := by
    unfold shifted
    rw [← hxl]
    exact (append_getD _ _ 0).2
  rw [h1, mul_sum]
  congr 1
  refine sum_congr rfl fun i hi => ?_
  have hi' := mem_range.mp hi
  rw [(con_append cs c i).1 hi']
  unfold shifted
  rw [(append_getD _ _ i).1 (by rw [hxl]; exact hi')]
  have : (x.map fun a => (1 - t) * a).getD i 0 = (1 - t) * x.getD i 0 := by
    have : i < x.length := by omega
    simp [List.getD_eq_getElem?_getD, this]
  rw [this]; ring

theorem shifted_feasible {dim : ℕ} {cn t : ℚ} {cs : List Con} {x : List ℚ} (h0 : 0 ≤ t) (h1 : t ≤ 1)
    (hf : (qpOf dim none cn cs 0).Feasible x) (c : Con) :
    (qpOf dim none cn (cs ++ [c]) 0).Feasible (shifted t cn x) := by
  obtain ⟨hl, hpos, hsum, -⟩ := (feasible_qpOf _ _ _ _ _ _).mp hf
  have hcn : 0 ≤ cn := by rw [← hsum]; exact sum_nonneg fun i hi => hpos i (mem_range.mp hi)
  have hxl : (x.map fun a => (1 - t) * a).length = cs.length := by simp [hl]
  rw [feasible_qpOf]
  refine ⟨by simp [shifted, hl], ?_, ?_, by simp⟩
  · intro i hi
    rw [List.length_append, List.length_singleton] at hi
    unfold shifted
    rcases Nat.lt_or_ge i cs.length with hi' | hi'
    · rw [(append_getD _ _ i).1 (by rw [hxl]; exact hi')]
      have : (x.map fun a => (1 - t) * a).getD i 0 = (1 - t) * x.getD i 0 := by
        have : i < x.length := by omega
        simp [List.getD_eq_getElem?_getD, this]
      rw [this]
      exact mul_nonneg (by linarith) (hpos i hi')
    · have : i = (x.map fun a => (1 - t) * a).length := by omega
      rw [this, (append_getD _ _ 0).2]
      exact mul_nonneg h0 hcn
  · have := shifted_sum t cn x cs c hl (fun _ => 1)
    simp only [mul_one] at this
    rw [this, hsum]; ring

theorem shifted_value {dim : ℕ} {cn t : ℚ} {cs : List Con} {x : List ℚ}
    (hf : (qpOf dim none cn cs 0).Feasible x) (c : Con) :
    -(qpOf dim none cn (cs ++ [c]) 0).value (shifted t cn x) = -(qpOf dim none cn cs 0).value x +
      t * (cn * (c.2 - dot dim (weightsOf cs x) c.1) - ∑ i ∈ range cs.length, x.getD i 0 *
        ((con cs i).2 - dot dim (weightsOf cs x) (con cs i).1)) -
      t ^ 2 / 2 * ∑ k ∈ range dim, (cn * c.1 k - weightsOf cs x k) ^ 2 := by
  obtain ⟨hl, hpos, hsum, -⟩ := (feasible_qpOf _ _ _ _ _ _).mp hf
  have hl' : (shifted t cn x).length = (cs ++ [c]).length := by simp [shifted, hl]
  rw [value_qpOf _ _ _ _ _ _ hl, value_qpOf _ _ _ _ _ _ hl', shifted_sum t cn x cs c hl (fun c => c.2)]
  set w := weightsOf cs x with hw
  have hwt : ∀ k, weightsOf (cs ++ [c]) (shifted t cn x) k = w k + t * (cn * c.1 k - w k) := by
    intro k
    rw [weightsOf_eq _ _ hl', shifted_sum t cn x cs c hl (fun c => c.1 k), hw, weightsOf_eq cs x hl]
    ring
  have hwd : dot dim (weightsOf (cs ++ [c]) (shifted t cn x)) (weightsOf (cs ++ [c]) (shifted t cn x)) =
      dot dim w w + 2 * t * (cn * dot dim w c.1 - dot dim w w) +
        t ^ 2 * ∑ k ∈ range dim, (cn * c.1 k - w k) ^ 2 := by
    unfold dot
    simp only [hwt, mul_sum, ← sum_sub_distrib, ← sum_add_distrib]
    exact sum_congr rfl fun k _ => by ring
  have hsl : ∑ i ∈ range cs.length, x.getD i 0 * ((con cs i).2 - dot dim w (con cs i).1) =
      ∑ i ∈ range cs.length, x.getD i 0 * (con cs i).2 - dot dim w w := by
    have : dot dim w w = ∑ i ∈ range cs.length, x.getD i 0 * dot dim w (con cs i).1 := by
      conv_lhs => rw [hw]
      rw [dot_weightsOf dim cs x hl]
      exact sum_congr rfl fun i _ => by rw [dot_comm dim (con cs i).1]
    rw [this, ← sum_sub_distrib]
    exact sum_congr rfl fun i _ => by ring
  rw [hwd, hsl]
  ring

/-- what an exact solver gains from a constraint that exceeds the slack by `tol`. -/
theorem qp_gain {qp : QP.Solver} (hqp : QP.Exact qp) {dim : ℕ} {cn R tol ξ : ℚ} {cs : List Con} {x : List ℚ}
    {c : Con} {sol : QP.Solution} (hcn : 0 < cn) (htol : 0 < tol)
    (hf : (qpOf dim none cn cs 0).Feasible x) (hs : qp (qpOf dim none cn (cs ++ [c]) 0) = some sol)
    (hd : ∀ c' ∈ cs, ∑ k ∈ range dim, (c'.1 k - c.1 k) ^ 2 ≤ R) :
    -(qpOf dim none cn cs 0).value x ≤ -sol.primalObjective ∧
    ((∀ c' ∈ cs, c'.2 - dot dim (weightsOf cs x) c'.1 ≤ ξ) → ξ + tol ≤ c.2 - dot dim (weightsOf cs x) c.1 →
      ∀ μ, 0 ≤ μ → 2 * μ ≤ cn * tol → 2 * R * μ ≤ tol ^ 2 →
        -(qpOf dim none cn cs 0).value x + μ ≤ -sol.primalObjective) := by
  obtain ⟨hl, hpos, hsum, -⟩ := (feasible_qpOf _ _ _ _ _ _).mp hf
  have hbest : ∀ t : ℚ, 0 ≤ t → t ≤ 1 →
      -(qpOf dim none cn (cs ++ [c]) 0).value (shifted t cn x) ≤ -sol.primalObjective := fun t h0 h1 =>
    neg_le_neg (hqp.2 _ _ hs _ (shifted_feasible h0 h1 hf c))
  constructor
  · have := hbest 0 le_rfl zero_le_one
    rw [shifted_value hf] at this
    linarith
  · intro hslack hv μ hμ0 hμ1 hμ2
    have hct : 0 < cn * tol := mul_pos hcn htol
    set t := 2 * μ / (cn * tol) with ht
    have ht0 : 0 ≤ t := by positivity
    have ht1 : t ≤ 1 := by rw [ht, div_le_one hct]; exact hμ1
    have hb := hbest t ht0 ht1
    rw [shifted_value hf] at hb
    have hdist := weights_dist hf c.1 hd
    have hsl : ∑ i ∈ range cs.length, x.getD i 0 * ((con cs i).2 - dot dim (weightsOf cs x) (con cs i).1) ≤
        cn * ξ := by
      rw [← hsum, sum_mul]
      refine sum_le_sum fun i hi => mul_le_mul_of_nonneg_left (hslack _ ?_) (hpos i (mem_range.mp hi))
      unfold con; rw [List.getD_eq_getElem _ _ (mem_range.mp hi)]; exact List.getElem_mem _
    have h1 : t * (cn * tol) ≤ t * (cn * (c.2 - dot dim (weightsOf cs x) c.1) - ∑ i ∈ range cs.length,
        x.getD i 0 * ((con cs i).2 - dot dim (weightsOf cs x) (con cs i).1)) := by
      refine mul_le_mul_of_nonneg_left ?_ ht0
      nlinarith
    have h2 : t ^ 2 / 2 * ∑ k ∈ range dim, (cn * c.1 k - weightsOf cs x k) ^ 2 ≤ t ^ 2 / 2 * (cn ^ 2 * R) :=
      mul_le_mul_of_nonneg_left hdist (by positivity)
    have h3 : t * (cn * tol) = 2 * μ := by rw [ht]; field_simp
    have h4 : t ^ 2 / 2 * (cn ^ 2 * R) = 2 * R * μ / tol ^ 2 * μ := by
      rw [ht]; field_simp
    have h5 : 2 * R * μ / tol ^ 2 * μ ≤ μ := by
      have : 2 * R * μ / tol ^ 2 ≤ 1 := by rw [div_le_one (by positivity)]; exact hμ2
      nlinarith
    linarith

/-! ### every iteration makes progress -/

theorem checkBad_ge {cfg : Config} {dim : ℕ} {w : W} {ls v : ℚ} {dj : W} {loss : ℚ} {old : List Con}
    {brk : Bool} (h : checkBad cfg dim w ls v dj loss old brk = .ok false) : ls + cfg.tol ≤ v := by
  unfold checkBad at h
  simp only at h
  split_ifs at h with h1 h2 <;> simp at h <;> linarith

theorem fromCache_ge {cfg : Config} {st : St X Y} {gt : W} {n : ℕ} {f : Found Y}
    (h : fromCache cfg st gt n = .ok (some f)) :
    st.lastSlack + cfg.tol ≤ f.loss - dot st.model.dim st.w f.dj := by
  unfold fromCache at h
  split at h
  · simp at h
  · simp at h
  · split at h
    · split_ifs at h
      · simp at h
      · split at h
        · cases h
        · simp only at h
          split at h
          · cases h
          · simp at h
          · rename_i hb
            simp only [Except.ok.injEq, Option.some.injEq] at h
            subst h
            exact checkBad_ge hb
    · cases h

theorem findNew_ge {cfg : Config} {st : St X Y} {gt : W} {samples : List (X × Y)} {f : Found Y}
    (h : findNew cfg st gt samples = .ok (some f)) :
    st.lastSlack + cfg.tol ≤ f.loss - dot st.model.dim st.w f.dj := by
  unfold findNew at h
  simp only at h
  split at h
  · cases h
  · simp at h
  · rename_i hb
    simp only [Except.ok.injEq, Option.some.injEq] at h
    subst h
    exact checkBad_ge hb

/-- the dual value of the current weights has risen by `μ` per iteration after the first. -/
def Rising (dim : ℕ) (cn μ : ℚ) (k : ℕ) (st : St X Y) : Prop :=
  ∃ x, (qpOf dim none cn st.constraints 0).Feasible x ∧ st.w = weightsOf st.constraints x ∧
    0 ≤ -(qpOf dim none cn st.constraints 0).value x ∧
    k ≤ st.objectiveCurve.length ∧
    ((st.objectiveCurve.length : ℚ) - k - 1) * μ ≤ -(qpOf dim none cn st.constraints 0).value x ∧
    (st.objectiveCurve.length ≠ k → ∀ c ∈ st.constraints, c.2 - dot dim st.w c.1 ≤ st.lastSlack) ∧
    ∀ v, st.objective = some v → v = -(qpOf dim none cn st.constraints 0).value x

theorem iteration_rising {m : SModel X Y} {outputs : X → Set Y} {qp : QP.Solver}
    (hqp : QP.Exact qp) {eq : Y → Y → Except PyErr Bool}
    {alt : Option ((X → Y → W → Bool → Y) × (X → W → Y))} {cfg : Config} {samples : List (X × Y)}
    (hcn : 0 < cfg.C * samples.length) (htol : 0 < cfg.tol) (hneg : cfg.negativity = none)
    (hwin : cfg.inactiveWindow = 0) (hfirst : FirstAttempt qp m.dim (cfg.C * samples.length))
    {R μ : ℚ} (hR0 : 0 ≤ R) (hR : (problemOf m outputs).FeatureRange samples R)
    (hμ0 : 0 ≤ μ) (hμ1 : 2 * μ ≤ cfg.C * samples.length * cfg.tol) (hμ2 : 2 * R * μ ≤ cfg.tol ^ 2)
    {it : ℕ} {intr : Option Phase} (hintr : intr = none) {st st' : St X Y} {b : Bool}
    {old : List ℚ} {k : ℕ} (hI : Inv m outputs (fun x _ ŷ => ŷ ∈ outputs x) cfg.C alt samples old st)
    (hr : Rising m.dim (cfg.C * samples.length) μ k st)
    (h : iteration qp eq alt cfg samples (jointFeatureGt m samples) it intr st = .ok (st', b)) :
    Rising m.dim (cfg.C * samples.length) μ k st' := by
  rcases iteration_ok h with ⟨rfl, -, -⟩ | ⟨la, inf, ha, hs, -, -, rfl⟩ | ⟨-, f, cd, cache, hfind, hadd⟩
  · exact hr
  · exact hr
  · obtain ⟨la, inf, hm, h1, -, -⟩ := hI.model
    have hdim : st.model.dim = m.dim := by rw [hm]
    have hmean : (problemOf m outputs).IsMean (fun x _ ŷ => ŷ ∈ outputs x) samples f.dj f.loss := by
      rcases hfind with ⟨hf, -, -⟩ | ⟨hf, -, -⟩
      · exact fromCache_mean hm hI.cache hf
      · exact (findNew_mean hm h1 hf).1
    have hv : st.lastSlack + cfg.tol ≤ f.loss - dot m.dim st.w f.dj := by
      rw [← hdim]
      rcases hfind with ⟨hf, -, -⟩ | ⟨hf, -, -⟩
      · exact fromCache_ge hf
      · exact findNew_ge hf
    obtain ⟨-, -, -, -, -, a4⟩ := addConstraint_ok hadd
    simp only at a4
    rcases a4 with ⟨h0, -⟩ | ⟨-, sol, c1, c2, c3, c4, c5⟩
    · rw [hintr] at h0; cases h0
    · rcases c5 with ⟨h0, -⟩ | ⟨-, -, d1, -, d3⟩
      · rw [hintr] at h0; cases h0
      · rw [hdim, hneg] at c1
        rw [hdim] at d3
        have hsol := hfirst _ _ c1
        obtain ⟨hfe, hval⟩ := hqp.1 _ _ hsol
        have hlen := ((feasible_qpOf _ _ _ _ _ _).mp hfe).1
        obtain ⟨-, -, -, p1, -⟩ := prune_facts cfg _ _ _ hlen c2
        have hcs := p1 hwin
        obtain ⟨x, r1, r2, r0, rk, r3, r4, -⟩ := hr
        have hdist : ∀ c' ∈ st.constraints, ∑ k ∈ range m.dim, (c'.1 k - f.dj k) ^ 2 ≤ R := fun c' hc' =>
          mean_dist (P := problemOf m outputs) (fun _ _ _ h => h) hR0 hR (hI.constraints c' hc') hmean
        obtain ⟨g1, g2⟩ := qp_gain (c := (f.dj, f.loss)) hqp hcn htol r1 hsol hdist
        refine ⟨sol.x, by rw [hcs]; exact hfe, by rw [hcs]; exact c3, ?_, ?_, ?_, ?_, ?_⟩
        · rw [hcs, ← hval]; exact r0.trans g1
        · rw [d1, List.length_append]; omega
        · rw [hcs, ← hval, d1, List.length_append, List.length_singleton]
          push_cast
          by_cases hempty : st.objectiveCurve.length = k
          · rw [hempty, show (k : ℚ) + 1 - k - 1 = 0 by ring, zero_mul]
            exact r0.trans g1
          · have := g2 (fun c' hc' => by rw [← r2]; exact r4 hempty c' hc') (by rw [← r2]; exact hv) μ hμ0 hμ1 hμ2
            linarith
        · intro _
          exact (newLastSlack_ok d3).1
        · intro v hv'
          rw [c4, Option.some.injEq] at hv'
          rw [hcs, ← hval, hv']

theorem start_rising (m : SModel X Y) (o : Obj Y) (cn μ : ℚ) (hcn : 0 ≤ cn) (hμ : 0 ≤ μ) {warm : Warm} (hwarm : warm ≠ .yes)
    {st : St X Y} (h : start m o warm = .ok st) : Rising m.dim cn μ (startLen o warm) st := by
  have hlen := start_len h
  have hst : st.constraints = [((fun _ => 0 : W), (0 : ℚ))] ∧ st.w = (fun _ => 0) ∧ st.objective = none := by
    unfold start at h
    simp only at h
    split at h
    · cases h; exact ⟨rfl, rfl, rfl⟩
    · cases h; exact ⟨rfl, rfl, rfl⟩
    · exact absurd rfl hwarm
    · cases h
  obtain ⟨s1, s2, s3⟩ := hst
  have hf : (qpOf m.dim none cn [((fun _ => 0 : W), (0 : ℚ))] 0).Feasible [cn] := by
    rw [feasible_qpOf]
    refine ⟨rfl, ?_, by simp, by simp⟩
    intro i hi
    have : i = 0 := by simpa using hi
    subst this
    exact hcn
  have hw : weightsOf [((fun _ => 0 : W), (0 : ℚ))] [cn] = fun _ => 0 := by
    funext k; simp [weightsOf]
  have hv : (qpOf m.dim none cn [((fun _ => 0 : W), (0 : ℚ))] 0).value [cn] = 0 := by
    rw [value_qpOf _ _ _ _ _ _ rfl, hw]
    simp [dot, con]
  refine ⟨[cn], s1 ▸ hf, by rw [s1, s2]; exact hw.symm, ?_, hlen.ge, ?_, fun h => absurd hlen h, fun v hv => by rw [s3] at hv; cases hv⟩
  · rw [s1, hv, neg_zero]
  · rw [s1, hv, hlen]; simp [hμ]

/-- **C87, number of iterations with a reused cache.** The statement of `C87_iterations`, where the `fit` may be a soft warm
start whose cache is sound for the data: the values that are appended to the curve count. -/
theorem C87_reused_iterations (m : SModel X Y) (outputs : X → Set Y) (qp : QP.Solver)
    (hqp : QP.Exact qp) (eq : Y → Y → Except PyErr Bool)
    (alt : Option ((X → Y → W → Bool → Y) × (X → W → Y))) (o o' : Obj Y)
    (samples : List (X × Y)) (hC : 0 < o.cfg.C) (htol : 0 < o.cfg.tol) (hneg : o.cfg.negativity = none)
    (hwin : o.cfg.inactiveWindow = 0)
    (hl : (problemOf m outputs).Labelled samples)
    (hla : ∀ s ∈ samples, ∀ w, m.lossAug s.1 s.2 w true ∈ outputs s.1)
    (halt : ∀ p, alt = some p → ∀ s ∈ samples, ∀ w, p.1 s.1 s.2 w true ∈ outputs s.1)
    (hcr : o.cfg.inferenceCache = 0 ∨ m.rescaleC = false)
    (hfirst : FirstAttempt qp m.dim (o.cfg.C * samples.length))
    (R : ℚ) (hR0 : 0 ≤ R) (hR : (problemOf m outputs).FeatureRange samples R)
    (μ : ℚ) (hμ0 : 0 ≤ μ) (hμ1 : 2 * μ ≤ o.cfg.C * samples.length * o.cfg.tol)
    (hμ2 : 2 * R * μ ≤ o.cfg.tol ^ 2)
    (warm : Warm) (hwarm : warm ≠ .yes)
    (hw : warm = .no ∨ ∀ a, o.attrs = some a → Reusable m outputs (fun x _ ŷ => ŷ ∈ outputs x) samples warm a)
    (h : OneSlack.fit m qp eq alt (fun _ => none) o samples warm = .ok o') :
    ∃ a ds d, o'.attrs = some a ∧ a.objectiveCurve = ds ++ [d] ∧ startLen o warm ≤ ds.length ∧ ((ds.length : ℚ) - startLen o warm - 1) * μ ≤ d ∧
      ∀ w obj, (problemOf m outputs).IsObjective o.cfg.C samples w obj → ((ds.length : ℚ) - startLen o warm - 1) * μ ≤ obj := by
  have hne : samples ≠ [] := by
    intro h0
    unfold OneSlack.fit at h
    subst h0
    split at h
    · cases h
    · split at h
      · cases h
      · simp [objectivePrimal] at h
  have hn : (0 : ℚ) < samples.length := by exact_mod_cast List.length_pos_iff.mpr hne
  have hcn : 0 < o.cfg.C * samples.length := mul_pos hC hn
  unfold OneSlack.fit at h
  cases hs : start m o warm with
  | error err => rw [hs] at h; cases h
  | ok st =>
    rw [hs] at h
    simp only at h
    obtain ⟨hI, -, -⟩ := start_inv (alt := alt) (outputs := outputs) (R := fun x _ ŷ => ŷ ∈ outputs x) hl hla
      hw hs
    have hr := start_rising m o (o.cfg.C * samples.length) μ hcn.le hμ0 hwarm hs
    cases hlp : loop qp eq alt o.cfg samples (jointFeatureGt m samples) (fun _ => none) o.cfg.maxIter 0 st with
    | error err => rw [hlp] at h; cases h
    | ok st' =>
      rw [hlp] at h
      simp only at h
      obtain ⟨hI', hr'⟩ := loop_induct (I := fun s =>
          Inv m outputs (fun x _ ŷ => ŷ ∈ outputs x) o.cfg.C alt samples (oldCurve o warm) s ∧
          Rising m.dim (o.cfg.C * samples.length) μ (startLen o warm) s)
        (fun it s s' b hi hit => ⟨iteration_inv hqp.1 hC hne (fun s _ ŷ h => h) halt hcr hi.1 hit,
          iteration_rising hqp hcn htol hneg hwin hfirst hR0 hR hμ0 hμ1 hμ2 rfl hi.1 hi.2 hit⟩)
        _ _ _ _ ⟨hI, hr⟩ hlp
      cases hp : objectivePrimal st'.model st'.w samples o.cfg.C false with
      | error err => rw [hp] at h; cases h
      | ok primal =>
        rw [hp] at h
        simp only at h
        cases hob : st'.objective with
        | none => rw [hob] at h; cases h
        | some obj =>
          rw [hob] at h
          simp only [Except.ok.injEq] at h
          subst h
          obtain ⟨x, -, -, -, rk, r3, -, r5⟩ := hr'
          rw [← r5 obj hob] at r3
          refine ⟨_, _, _, rfl, rfl, rk, r3, ?_⟩
          intro w obj' ho
          exact r3.trans (hI'.objective obj hob w obj' ho)

/-- **C87, number of iterations.** Let `FeatureRange samples R` say that squared distances between joint
features of admissible outputs are at most `R`, and let `μ` be nonnegative with `2 μ ≤ C n tol` and
`2 R μ ≤ tol²`. An uninterrupted fresh `fit` with `inactive_window=0`, with or without caching and switching
of the inference method, and with admissible (not necessarily optimal) loss-augmented inference, gains at
least `μ` in every iteration but the first. If `objective_curve_` has `T + 1` values at the end — one per
iteration plus the final one — then `(T - 1) μ` is at most the last of them, and at most the risk of every
weight vector. -/
theorem C87_iterations (m : SModel X Y) (outputs : X → Set Y) (qp : QP.Solver)
    (hqp : QP.Exact qp) (eq : Y → Y → Except PyErr Bool)
    (alt : Option ((X → Y → W → Bool → Y) × (X → W → Y))) (o o' : Obj Y)
    (samples : List (X × Y)) (hC : 0 < o.cfg.C) (htol : 0 < o.cfg.tol) (hneg : o.cfg.negativity = none)
    (hwin : o.cfg.inactiveWindow = 0)
    (hl : (problemOf m outputs).Labelled samples)
    (hla : ∀ s ∈ samples, ∀ w, m.lossAug s.1 s.2 w true ∈ outputs s.1)
    (halt : ∀ p, alt = some p → ∀ s ∈ samples, ∀ w, p.1 s.1 s.2 w true ∈ outputs s.1)
    (hcr : o.cfg.inferenceCache = 0 ∨ m.rescaleC = false)
    (hfirst : FirstAttempt qp m.dim (o.cfg.C * samples.length))
    (R : ℚ) (hR0 : 0 ≤ R) (hR : (problemOf m outputs).FeatureRange samples R)
    (μ : ℚ) (hμ0 : 0 ≤ μ) (hμ1 : 2 * μ ≤ o.cfg.C * samples.length * o.cfg.tol)
    (hμ2 : 2 * R * μ ≤ o.cfg.tol ^ 2)
    (h : OneSlack.fit m qp eq alt (fun _ => none) o samples .no = .ok o') :
    ∃ a ds d, o'.attrs = some a ∧ a.objectiveCurve = ds ++ [d] ∧ ((ds.length : ℚ) - 1) * μ ≤ d ∧
      ∀ w obj, (problemOf m outputs).IsObjective o.cfg.C samples w obj → ((ds.length : ℚ) - 1) * μ ≤ obj := by
  obtain ⟨a, ds, d, h1, h2, -, h3, h4⟩ := C87_reused_iterations m outputs qp hqp eq alt o o' samples hC htol hneg hwin hl hla halt hcr
    hfirst R hR0 hR μ hμ0 hμ1 hμ2 .no (by simp) (.inl rfl) h
  have h0 : ((startLen o Warm.no : ℕ) : ℚ) = 0 := by simp [startLen]
  simp only [h0, sub_zero] at h3 h4
  exact ⟨a, ds, d, h1, h2, h3, h4⟩

/-- **C87, convergence with a reused cache.** The statement of `C87_converges`, where the `fit` may be a soft warm start whose
cache is sound for the data. -/
theorem C87_reused_converges (m : SModel X Y) (outputs : X → Set Y) (qp : QP.Solver)
    (hqp : QP.Exact qp) (eq : Y → Y → Except PyErr Bool)
    (alt : Option ((X → Y → W → Bool → Y) × (X → W → Y))) (o o' : Obj Y)
    (samples : List (X × Y)) (hC : 0 < o.cfg.C) (htol : 0 < o.cfg.tol) (hneg : o.cfg.negativity = none)
    (hwin : o.cfg.inactiveWindow = 0)
    (hl : (problemOf m outputs).Labelled samples)
    (hla : ∀ s ∈ samples, ∀ w, m.lossAug s.1 s.2 w true ∈ outputs s.1)
    (hLA : alt = none → (problemOf m outputs).ExactLossAug fun x y w => m.lossAug x y w true)
    (hLA' : ∀ p, alt = some p → (problemOf m outputs).ExactLossAug fun x y w => p.1 x y w true)
    (hcr : o.cfg.inferenceCache = 0 ∨ m.rescaleC = false)
    (hfirst : FirstAttempt qp m.dim (o.cfg.C * samples.length))
    (R : ℚ) (hR0 : 0 ≤ R) (hR : (problemOf m outputs).FeatureRange samples R)
    (μ : ℚ) (hμ0 : 0 ≤ μ) (hμ1 : 2 * μ ≤ o.cfg.C * samples.length * o.cfg.tol)
    (hμ2 : 2 * R * μ ≤ o.cfg.tol ^ 2)
    (w₀ : W) (B : ℚ) (hB : (problemOf m outputs).IsObjective o.cfg.C samples w₀ B)
    (hmax : B < ((o.cfg.maxIter : ℚ) - 1 - if alt = none then 0 else 1) * μ)
    (warm : Warm) (hwarm : warm ≠ .yes)
    (hw : warm = .no ∨ ∀ a, o.attrs = some a → Reusable m outputs (fun x _ ŷ => ŷ ∈ outputs x) samples warm a)
    (h : OneSlack.fit m qp eq alt (fun _ => none) o samples warm = .ok o') :
    ∃ a p, o'.attrs = some a ∧ (problemOf m outputs).IsObjective o.cfg.C samples a.w p ∧
      ∀ w obj, (problemOf m outputs).IsObjective o.cfg.C samples w obj →
        p ≤ obj + o.cfg.C * samples.length * o.cfg.tol := by
  obtain ⟨a, ds, d, ha, hds, hsl, -, hbound⟩ := C87_reused_iterations m outputs qp hqp eq alt o o' samples hC htol hneg hwin hl
    hla (fun p hp s hs w => (hLA' p hp s.1 s.2 w (hl s hs).1 (hl s hs).2).1) hcr hfirst R hR0 hR μ hμ0 hμ1 hμ2 warm hwarm hw h
  obtain ⟨a', cs, ds', d', ps, p, ha', hcs, hds', hps, -, hmain⟩ := C40_reused_partial m outputs qp hqp eq alt o o' samples
    hC htol.le hneg hl hla hLA hLA' hcr warm hw 0 (.inr ⟨rfl, hfirst⟩) h
  obtain ⟨a'', cs'', ha'', hcs'', htrue⟩ := C40_reused_no_pruning m qp hqp.1 eq alt (fun _ => none) (by simp) o o' samples
    hwin warm hwarm h
  rw [ha, Option.some.injEq] at ha' ha''
  subst ha'; subst ha''
  rw [hcs, Option.some.injEq] at hcs''
  subst hcs''
  have hlen : a.objectiveCurve.length + (if alt = none then 0 else 1) ≤ startLen o warm + o.cfg.maxIter := by
    by_contra hcon
    rw [hds, List.length_append, List.length_singleton] at hcon
    have hb := hbound w₀ B hB
    have : (o.cfg.maxIter : ℚ) - 1 - (if alt = none then 0 else 1) ≤ (ds.length : ℚ) - startLen o warm - 1 := by
      split_ifs at hcon ⊢
      · have : startLen o warm + o.cfg.maxIter ≤ ds.length := by omega
        have : (startLen o warm : ℚ) + o.cfg.maxIter ≤ ds.length := by exact_mod_cast this
        linarith
      · have : startLen o warm + o.cfg.maxIter ≤ ds.length + 1 := by omega
        have : (startLen o warm : ℚ) + o.cfg.maxIter ≤ ds.length + 1 := by exact_mod_cast this
        linarith
    have := mul_le_mul_of_nonneg_right this hμ0
    linarith
  obtain ⟨h1, h2⟩ := hmain hlen
  refine ⟨a, p, ha, h1, ?_⟩
  intro w obj ho
  have := (h2 htrue).2 w obj ho
  linarith

/-- **C87, convergence.** In the setting of `C87_iterations`, with exact loss-augmented inference, let `B` be
the risk of any weights — zero weights, say — and let `max_iter` be large enough that
`B < (max_iter - 1) μ`, one iteration more if there is another inference method to switch to. Then training
does not run out of iterations, and the risk of the learned weights exceeds that of every weight vector by at
most `C n tol`. -/
theorem C87_converges (m : SModel X Y) (outputs : X → Set Y) (qp : QP.Solver)
    (hqp : QP.Exact qp) (eq : Y → Y → Except PyErr Bool)
    (alt : Option ((X → Y → W → Bool → Y) × (X → W → Y))) (o o' : Obj Y)
    (samples : List (X × Y)) (hC : 0 < o.cfg.C) (htol : 0 < o.cfg.tol) (hneg : o.cfg.negativity = none)
    (hwin : o.cfg.inactiveWindow = 0)
    (hl : (problemOf m outputs).Labelled samples)
    (hla : ∀ s ∈ samples, ∀ w, m.lossAug s.1 s.2 w true ∈ outputs s.1)
    (hLA : alt = none → (problemOf m outputs).ExactLossAug fun x y w => m.lossAug x y w true)
    (hLA' : ∀ p, alt = some p → (problemOf m outputs).ExactLossAug fun x y w => p.1 x y w true)
    (hcr : o.cfg.inferenceCache = 0 ∨ m.rescaleC = false)
    (hfirst : FirstAttempt qp m.dim (o.cfg.C * samples.length))
    (R : ℚ) (hR0 : 0 ≤ R) (hR : (problemOf m outputs).FeatureRange samples R)
    (μ : ℚ) (hμ0 : 0 ≤ μ) (hμ1 : 2 * μ ≤ o.cfg.C * samples.length * o.cfg.tol)
    (hμ2 : 2 * R * μ ≤ o.cfg.tol ^ 2)
    (w₀ : W) (B : ℚ) (hB : (problemOf m outputs).IsObjective o.cfg.C samples w₀ B)
    (hmax : B < ((o.cfg.maxIter : ℚ) - 1 - if alt = none then 0 else 1) * μ)
    (h : OneSlack.fit m qp eq alt (fun _ => none) o samples .no = .ok o') :
    ∃ a p, o'.attrs = some a ∧ (problemOf m outputs).IsObjective o.cfg.C samples a.w p ∧
      ∀ w obj, (problemOf m outputs).IsObjective o.cfg.C samples w obj →
        p ≤ obj + o.cfg.C * samples.length * o.cfg.tol := by
  exact C87_reused_converges m outputs qp hqp eq alt o o' samples hC htol hneg hwin hl hla hLA hLA' hcr hfirst R hR0 hR μ hμ0 hμ1 hμ2
    w₀ B hB hmax .no (by simp) (.inl rfl) h

/-! ### example -/

theorem exampleSolver_first : FirstAttempt exampleSolver 1 1 := by
  intro cs sol h
  rcases solveQP_ok h with h | ⟨-, h⟩
  · exact h
  · exfalso
    unfold exampleSolver tableSolver at h
    rw [Option.map_eq_some_iff] at h
    obtain ⟨e, he, -⟩ := h
    have h1 := List.find?_some he
    have h2 := List.mem_of_find?_eq_some he
    rw [List.mem_singleton] at h2
    subst h2
    simp only [decide_eq_true_eq] at h1
    have h3 : ((qpOf 1 none 1 cs (1 / 10 ^ 8)).P.getD 0 []).getD 0 0 =
        ((qpOf 1 none 1 [(vec2 0 0, 0), (vec2 2 0, 1)] 0).P.getD 0 []).getD 0 0 := by rw [h1]
    have h5 : (qpOf 1 none 1 cs (1 / 10 ^ 8)).P.length = 2 := by rw [h1]; rfl
    have h4 : ((qpOf 1 none 1 [(vec2 0 0, 0), (vec2 2 0, 1)] 0).P.getD 0 []).getD 0 0 = 0 := by decide +kernel
    rw [h4] at h3
    cases cs with
    | nil => simp [qpOf] at h5
    | cons c cs =>
      simp [qpOf, List.mapIdx_cons] at h3
      have := dot_self_nonneg 1 c.1
      linarith

/-- A fresh learner with `tol=1/2`, `C=1`, no cache and no pruning. -/
def exampleOS87 : Obj ℕ := ⟨{ (exampleOS 40 1 0 0).cfg with tol := 1 / 2 }, none, []⟩

/-- All hypotheses of `C87_converges` are met with `R = 4`, `μ = 1/32` and zero weights for comparison; training
succeeds, with two values in the objective curve. -/
example : ∃ o' a p, OneSlack.fit exampleTable exampleSolver natEq none (fun _ => none) exampleOS87 [((), 0)] .no =
      .ok o' ∧ o'.attrs = some a ∧ a.objectiveCurve = [1 / 8, 1 / 8] ∧
    (problemOf exampleTable (fun _ => {y | y < 2})).IsObjective 1 [((), 0)] a.w p ∧
      ∀ w obj, (problemOf exampleTable (fun _ => {y | y < 2})).IsObjective 1 [((), 0)] w obj →
        p ≤ obj + 1 * 1 * (1 / 2) := by
  have key : (OneSlack.fit exampleTable exampleSolver natEq none (fun _ => none) exampleOS87
    [((), 0)] .no).toOption.bind (fun o => o.attrs.map fun a => a.objectiveCurve) = some [1 / 8, 1 / 8] := by
    decide +kernel
  have hl : (problemOf exampleTable (fun _ => {y | y < 2})).Labelled [((), 0)] := by
    intro s hs
    rw [List.mem_singleton] at hs
    subst hs
    exact ⟨(by decide : 0 < 2), by decide +kernel⟩
  have hLA := tableModel_exact 1 2 (fun y => if y = 1 then vec2 2 0 else vec2 0 0) (fun _ => 1) true
  cases hfit : OneSlack.fit exampleTable exampleSolver natEq none (fun _ => none) exampleOS87 [((), 0)] .no with
  | error err => rw [hfit] at key; simp [Except.toOption] at key
  | ok o' =>
    rw [hfit] at key
    have hR : (problemOf exampleTable (fun _ => {y | y < 2})).FeatureRange [((), 0)] 4 := by
      have : ∀ y < 2, ∀ z < 2, ∑ k ∈ range 1, (exampleTable.feat () y 0 k - exampleTable.feat () z 0 k) ^ 2 ≤ 4 := by
        decide +kernel
      intro s hs y hy z hz
      rw [List.mem_singleton] at hs
      subst hs
      exact this y hy z hz
    obtain ⟨B, hB, hBo⟩ := C30_objective exampleTable (fun _ => {y | y < 2}) hLA [((), 0)] hl (by simp)
      (fun _ => 0) 1 false
    have hB1 : objectivePrimal exampleTable (fun _ => 0) [((), 0)] 1 false = .ok 1 := by decide +kernel
    rw [hB1, Except.ok.injEq] at hB
    subst hB
    obtain ⟨a, p, h1, h2, h3⟩ := C87_converges exampleTable (fun _ => {y | y < 2}) exampleSolver
      exampleSolver_exact natEq none exampleOS87 o' [((), 0)] (by decide +kernel) (by decide +kernel) rfl rfl hl
      (fun s hs w => (hLA s.1 s.2 w (hl s hs).1 (hl s hs).2).1) (fun _ => hLA) (by simp) (.inl rfl)
      (by have := exampleSolver_first; change FirstAttempt _ 1 (1 * ((1 : ℕ) : ℚ)); simpa using this) 4 (by norm_num) hR
      (1 / 32) (by norm_num) (by decide +kernel) (by decide +kernel) (fun _ => 0) 1 hBo (by decide +kernel) hfit
    refine ⟨o', a, p, rfl, h1, ?_, h2, ?_⟩
    · change o'.attrs.map (fun a => a.objectiveCurve) = _ at key
      rw [h1] at key
      simpa using key
    · intro w obj ho
      have := h3 w obj ho
      simpa [exampleOS87, exampleOS] using this

end Verif.Props
