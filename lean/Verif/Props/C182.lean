import Verif.Props.C180

/-!
# C182: copies of a feature get the same weight
-/

namespace Verif.Props

open Finset Verif.Spec Verif.Lemmas Verif.Learner Verif.Common Verif.Unstructured

variable {X Y : Type} {ρ : Equiv.Perm ℕ} {f : X → X} {m : SModel X Y}

theorem map_same {samples : List (X × Y)} (hs : ∀ s ∈ samples, f s.1 = s.1) : (samples.map fun s => (f s.1, s.2)) = samples := by
  conv_rhs => rw [← List.map_id samples]
  exact List.map_congr_left fun s h => by rw [hs s h]; rfl

/-- weights that do not change when exchanged by `ρ`. -/
def ExchangeFree (ρ : Equiv.Perm ℕ) (d : ℕ) (w : W) : Prop := ∀ k < d, w (ρ k) = w k

theorem both_ok {α β : Type} {R : α → β → Prop} {a : Except PyErr α} {b : Except PyErr β} (h : BothRun R a b) {x : α} (ha : a = .ok x) :
    ∃ y, b = .ok y ∧ R x y := by
  cases h with
  | error e => cases ha
  | ok h => cases ha; exact ⟨_, rfl, h⟩

/-- StructuredPerceptron: if exchanging features changes no sample, it changes no weight. -/
theorem C182_perceptron (h : Reordered ρ f m m) {o r : Perceptron.Obj} {samples : List (X × Y)} (hs : ∀ s ∈ samples, f s.1 = s.1)
    (hr : Perceptron.fit m o samples = .ok r) : ExchangeFree ρ m.dim r.w := by
  obtain ⟨r', h1, h2, -⟩ := both_ok (C180_perceptron h o o rfl rfl samples) hr
  rw [map_same hs, hr] at h1
  cases h1
  exact fun k hk => (h2 k hk).symm

/-- SubgradientSSVM, cold start or from such weights. -/
theorem C182_subgradient (h : Reordered ρ f m m) {order : ℕ → List (X × Y)} {o r : Subgradient.Obj} (ho : ∀ w, o.w = some w → ExchangeFree ρ m.dim w)
    {samples : List (X × Y)} (hs : ∀ s ∈ samples, f s.1 = s.1) (hos : ∀ i, ∀ s ∈ order i, f s.1 = s.1) {warm : Bool}
    (hr : Subgradient.fit m order o samples warm = .ok r) : ∃ w, r.w = some w ∧ ExchangeFree ρ m.dim w := by
  obtain ⟨r', h1, w, v, h2, h3, h4⟩ := both_ok (C180_subgradient h order o o.w (by
    cases hw : o.w with
    | none => exact .none
    | some w => exact .some fun k hk => (ho w hw k hk).symm) samples warm) hr
  rw [map_same hs, show (fun i => (order i).map fun s => (f s.1, s.2)) = order from funext fun i => map_same (hos i),
    show ({ o with w := o.w } : Subgradient.Obj) = o from rfl, hr] at h1
  cases h1
  have e : some w = some v := by rw [← h2, h4]
  cases e
  exact ⟨w, h2, fun k hk => (h3 k hk).symm⟩

/-- FrankWolfeSSVM, new or fitted with such weights. -/
theorem C182_frank_wolfe (h : Reordered ρ f m m) {order : ℕ → List ℕ} {o r : FrankWolfe.Obj} (ho : ∀ w, o.w = some w → ExchangeFree ρ m.dim w)
    {samples : List (X × Y)} (hs : ∀ s ∈ samples, f s.1 = s.1) (hr : FrankWolfe.fit m order o samples = .ok r) :
    ∃ w, r.w = some w ∧ ExchangeFree ρ m.dim w := by
  obtain ⟨r', h1, w, v, h2, h3, h4⟩ := both_ok (C180_frank_wolfe h order o o.w (by
    cases hw : o.w with
    | none => exact .none
    | some w => exact .some fun k hk => (ho w hw k hk).symm) samples) hr
  rw [map_same hs, show ({ o with w := o.w } : FrankWolfe.Obj) = o from rfl, hr] at h1
  cases h1
  have e : some w = some v := by rw [← h2, h4]
  cases e
  exact ⟨w, h2, fun k hk => (h3 k hk).symm⟩

/-- OneSlackSSVM, from scratch, with an exact solver and keeping inactive constraints, without `negativity_constraint`. -/
theorem C182_one_slack (h : Reordered ρ f m m) {qp : QP.Solver} (hq : QP.Exact qp) (hqc : QP.Complete qp)
    {eq : Y → Y → Except PyErr Bool} {intr : ℕ → Option OneSlack.Phase} {o r : OneSlack.Obj Y} (hneg : o.cfg.negativity = none)
    (hw0 : o.cfg.inactiveWindow = 0) (hcc : o.cfg.checkConstraints = false) (ht : o.cfg.tol ≤ 1)
    {samples : List (X × Y)} (h0 : ∀ s ∈ samples, ∀ w, 0 ≤ m.lossOf s.2 (m.lossAug s.1 s.2 w true)) (hs : ∀ s ∈ samples, f s.1 = s.1)
    (hr : OneSlack.fit m qp eq none intr o samples .no = .ok r) : ∃ t, r.attrs = some t ∧ ExchangeFree ρ m.dim t.w := by
  have hcfg : o.cfg = { o.cfg with negativity := o.cfg.negativity.map fun l => l.map ρ.symm } := by rw [hneg, Option.map_none, ← hneg]
  obtain ⟨r', h1, -, t, t', h2, h3, h4, -⟩ :=
    both_ok (C180_one_slack h hq hqc hq hqc eq intr o o hcfg rfl hw0 hcc ht samples h0) hr
  rw [map_same hs, hr] at h1
  cases h1
  have e : some t = some t' := by rw [← h2, h3]
  cases e
  exact ⟨t, h2, fun k hk => (h4 k hk).symm⟩

/-- NSlackSSVM, from scratch, with an exact solver and keeping inactive constraints, without `negativity_constraint`. -/
theorem C182_n_slack (h : Reordered ρ f m m) {qp : QP.Solver} (hq : QP.Exact qp) (hqc : QP.Complete qp) {eq : Y → Y → Bool}
    {intr : ℕ → ℕ → Option OneSlack.Phase} {o : NSlack.Obj Y} (ho : o.attrs = none) (hneg : o.cfg.negativity = none)
    (hw0 : o.cfg.inactiveWindow = 0) (hC : 0 ≤ o.cfg.C) {samples : List (X × Y)} (hs : ∀ s ∈ samples, f s.1 = s.1)
    {r} (hr : NSlack.fit m qp eq none intr o samples none = .ok r) : ∃ t, r.1.attrs = some t ∧ ExchangeFree ρ m.dim t.w := by
  have hcfg : o.cfg = { o.cfg with negativity := o.cfg.negativity.map fun l => l.map ρ.symm } := by rw [hneg, Option.map_none, ← hneg]
  obtain ⟨r', h1, -, -, t, t', h2, h3, h4, -⟩ :=
    both_ok (C180_n_slack h hq hqc hq hqc eq intr ho ho hcfg rfl hw0 hC samples) hr
  rw [map_same hs, hr] at h1
  cases h1
  have e : some t = some t' := by rw [← h2, h3]
  cases e
  exact ⟨t, h2, fun k hk => (h4 k hk).symm⟩

/-! ### two equal columns -/

theorem swap_lt {F i j : ℕ} (hi : i < F) (hj : j < F) (k : ℕ) : Equiv.swap i j k < F ↔ k < F := by
  by_cases h0 : k = i
  · rw [h0, Equiv.swap_apply_left]; exact ⟨fun _ => hi, fun _ => hj⟩
  by_cases h1 : k = j
  · rw [h1, Equiv.swap_apply_right]; exact ⟨fun _ => hj, fun _ => hi⟩
  · rw [Equiv.swap_apply_of_ne_of_ne h0 h1]

theorem swap_equal {α : Type} {i j : ℕ} {x : ℕ → α} (h : x i = x j) : (fun k => x (Equiv.swap i j k)) = x := by
  funext k
  by_cases h0 : k = i
  · rw [h0, Equiv.swap_apply_left, h]
  by_cases h1 : k = j
  · rw [h1, Equiv.swap_apply_right, h]
  · rw [Equiv.swap_apply_of_ne_of_ne h0 h1]

theorem exchange_columns_eq {S F d : ℕ} {i j : ℕ} (hi : i < F) (hj : j < F) (hd : S * F ≤ d) {w : W}
    (h : ExchangeFree (blockOrder S F (Equiv.swap i j) (swap_lt hi hj)) d w) {s : ℕ} (hs : s < S) : w (s * F + i) = w (s * F + j) := by
  have := h (s * F + i) (Nat.lt_of_lt_of_le (flat_lt hs hi) hd)
  rw [blockOrder_row _ hs hi, Equiv.swap_apply_left] at this
  exact this.symm

/-- **C182, MultiClassClf.** If two columns `i`, `j` of the inputs are equal, both get the same weight, in every class, from every
learner. -/
theorem C182_multi_class (m : MultiClass) {i j : ℕ} (hi : i < m.nFeatures) (hj : j < m.nFeatures) {samples : List ((ℕ → ℚ) × ℕ)}
    (hx : ∀ s ∈ samples, s.1 i = s.1 j) :
    (∀ o r, Perceptron.fit (multiClassModel m) o samples = .ok r →
      ∀ c < m.nStates, r.w (c * m.nFeatures + i) = r.w (c * m.nFeatures + j)) ∧
    (∀ order o r, o.w = none → (∀ k, ∀ s ∈ order k, s ∈ samples) → Subgradient.fit (multiClassModel m) order o samples false = .ok r →
      ∃ w, r.w = some w ∧ ∀ c < m.nStates, w (c * m.nFeatures + i) = w (c * m.nFeatures + j)) ∧
    (∀ order o r, o.w = none → FrankWolfe.fit (multiClassModel m) order o samples = .ok r →
      ∃ w, r.w = some w ∧ ∀ c < m.nStates, w (c * m.nFeatures + i) = w (c * m.nFeatures + j)) ∧
    (∀ qp eq intr o r, QP.Exact qp → QP.Complete qp → o.attrs = none → o.cfg.negativity = none → o.cfg.inactiveWindow = 0 → 0 ≤ o.cfg.C →
      NSlack.fit (multiClassModel m) qp eq none intr o samples none = .ok r →
      ∃ t, r.1.attrs = some t ∧ ∀ c < m.nStates, t.w (c * m.nFeatures + i) = t.w (c * m.nFeatures + j)) ∧
    (∀ qp eq intr o r, QP.Exact qp → QP.Complete qp → o.cfg.negativity = none → o.cfg.inactiveWindow = 0 →
      o.cfg.checkConstraints = false → o.cfg.tol ≤ 1 → (∀ c < m.classWeight.size, 0 ≤ m.classWeight.get c) →
      OneSlack.fit (multiClassModel m) qp eq none intr o samples .no = .ok r →
      ∃ t, r.attrs = some t ∧ ∀ c < m.nStates, t.w (c * m.nFeatures + i) = t.w (c * m.nFeatures + j)) := by
  have h := C180_multi_class m (τ := Equiv.swap i j) (swap_lt hi hj)
  have hs : ∀ s ∈ samples, (fun k => s.1 (Equiv.swap i j k)) = s.1 := fun s hs => swap_equal (hx s hs)
  have hd : m.nStates * m.nFeatures ≤ (multiClassModel m).dim := le_rfl
  refine ⟨fun o r hr c hc => exchange_columns_eq hi hj hd (C182_perceptron h hs hr) hc, fun order o r ho hos hr => ?_, fun order o r ho hr => ?_,
    fun qp eq intr o r hq hqc ho hn hw hC hr => ?_, fun qp eq intr o r hq hqc hn hw hcc ht hcw hr => ?_⟩
  · obtain ⟨w, h1, h2⟩ := C182_subgradient h (by simp [ho]) hs (fun k s hks => hs s (hos k s hks)) hr
    exact ⟨w, h1, fun c hc => exchange_columns_eq hi hj hd h2 hc⟩
  · obtain ⟨w, h1, h2⟩ := C182_frank_wolfe h (by simp [ho]) hs hr
    exact ⟨w, h1, fun c hc => exchange_columns_eq hi hj hd h2 hc⟩
  · obtain ⟨t, h1, h2⟩ := C182_n_slack h hq hqc ho hn hw hC hs hr
    exact ⟨t, h1, fun c hc => exchange_columns_eq hi hj hd h2 hc⟩
  · obtain ⟨t, h1, h2⟩ := C182_one_slack h hq hqc hn hw hcc ht (fun s _ w => by
      change 0 ≤ okD 0 (mcLoss m s.2 _)
      unfold mcLoss
      by_cases h : m.classWeight.size ≤ s.2
      · rw [if_pos h]; simp [okD]
      · rw [if_neg h]
        simp only [okD]
        refine mul_nonneg (hcw _ (by omega)) ?_
        split_ifs <;> norm_num) hs hr
    exact ⟨t, h1, fun c hc => exchange_columns_eq hi hj hd h2 hc⟩

/-- **C182, GraphCRF and ChainCRF.** If two columns `i`, `j` of the node features are equal in all samples, both get the same weight, in
every state, from StructuredPerceptron, SubgradientSSVM, FrankWolfeSSVM and NSlackSSVM, with every method of inference that looks at
nothing but the entries of the potentials. -/
theorem C182_graph (backend : Bool → GraphCRF.Infer) (hb : ∀ r, ReadsEntries (backend r)) (cw : Vec) (m : GraphCRF.Model) {i j : ℕ}
    (hi : i < m.nFeatures) (hj : j < m.nFeatures) {samples : List (GraphCRF.X × YVal)}
    (hx : ∀ s ∈ samples, ∀ v, s.1.features.get v i = s.1.features.get v j) :
    (∀ o r, Perceptron.fit (graphModel backend cw m) o samples = .ok r →
      ∀ c < m.nStates, r.w (c * m.nFeatures + i) = r.w (c * m.nFeatures + j)) ∧
    (∀ order o r, o.w = none → (∀ k, ∀ s ∈ order k, s ∈ samples) →
      Subgradient.fit (graphModel backend cw m) order o samples false = .ok r →
      ∃ w, r.w = some w ∧ ∀ c < m.nStates, w (c * m.nFeatures + i) = w (c * m.nFeatures + j)) ∧
    (∀ order o r, o.w = none → FrankWolfe.fit (graphModel backend cw m) order o samples = .ok r →
      ∃ w, r.w = some w ∧ ∀ c < m.nStates, w (c * m.nFeatures + i) = w (c * m.nFeatures + j)) ∧
    (∀ qp eq intr o r, QP.Exact qp → QP.Complete qp → o.attrs = none → o.cfg.negativity = none → o.cfg.inactiveWindow = 0 → 0 ≤ o.cfg.C →
      NSlack.fit (graphModel backend cw m) qp eq none intr o samples none = .ok r →
      ∃ t, r.1.attrs = some t ∧ ∀ c < m.nStates, t.w (c * m.nFeatures + i) = t.w (c * m.nFeatures + j)) := by
  have h := C180_graph (τ := Equiv.swap i j) backend hb cw m (swap_lt hi hj)
  have hs : ∀ s ∈ samples, graphColumns (Equiv.swap i j) s.1 = s.1 := fun s hs => by
    unfold graphColumns
    rw [show (fun v k => s.1.features.get v (Equiv.swap i j k)) = s.1.features.get from
      funext fun v => swap_equal (hx s hs v)]
  have hd : m.nStates * m.nFeatures ≤ (graphModel backend cw m).dim := GraphCRF.size_ge m
  refine ⟨fun o r hr c hc => exchange_columns_eq hi hj hd (C182_perceptron h hs hr) hc, fun order o r ho hos hr => ?_,
    fun order o r ho hr => ?_, fun qp eq intr o r hq hqc ho hn hw hC hr => ?_⟩
  · obtain ⟨w, h1, h2⟩ := C182_subgradient h (by simp [ho]) hs (fun k s hks => hs s (hos k s hks)) hr
    exact ⟨w, h1, fun c hc => exchange_columns_eq hi hj hd h2 hc⟩
  · obtain ⟨w, h1, h2⟩ := C182_frank_wolfe h (by simp [ho]) hs hr
    exact ⟨w, h1, fun c hc => exchange_columns_eq hi hj hd h2 hc⟩
  · obtain ⟨t, h1, h2⟩ := C182_n_slack h hq hqc ho hn hw hC hs hr
    exact ⟨t, h1, fun c hc => exchange_columns_eq hi hj hd h2 hc⟩

/-- two nodes with two equal features, max-product inference. -/
example (P : Dispatch.Packages) := C182_graph (Dispatch.backend P (.withOpts "max-product" [])) (C180_max_product_method P _)
  ⟨2, fun _ => 1⟩ ⟨2, 2, true⟩ (i := 0) (j := 1) (by decide) (by decide)
  (samples := [(⟨⟨2, 2, fun v _ => v + 1⟩, [(0, 1)]⟩, .discrete ⟨2, fun v => v⟩)]) (by simp)

/-- three points, two equal columns and another one. -/
def copiesSamples : List ((ℕ → ℚ) × ℕ) :=
  [(fun j => if j = 2 then 5 else 1, 0), (fun j => if j = 2 then 0 else 2, 1), (fun j => if j = 2 then 1 else 3, 0)]

/-- the learned weights of the copies are not 0. -/
example : let o : Perceptron.Obj := ⟨⟨2, false, fun _ => 1⟩, .off, fun _ => 0, []⟩
    let r := Perceptron.fit (multiClassModel ⟨2, 3, ⟨2, fun _ => 1⟩, false, false⟩) o copiesSamples
    (r.toOption.map fun r => (r.w 0, r.w 1, r.w 2)) = some (2, 2, 2) := by
  decide +kernel

example := C182_multi_class ⟨2, 3, ⟨2, fun _ => 1⟩, false, false⟩ (i := 0) (j := 1) (by decide) (by decide) (samples := copiesSamples)
  (by decide +kernel)

end Verif.Props
