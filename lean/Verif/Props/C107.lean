import Verif.Props.C101
import Verif.Props.C105
import Verif.Props.C94
import Verif.Lemmas.RiskClose

/-!
# C107: the training problem has one solution; subgradient training finds it
-/

namespace Verif.Props

open Finset Verif.Common Verif.Spec Verif.Learner Verif.Unstructured Verif.Subgradient Verif.Lemmas Verif.MaxProd
open Verif.GraphCRF (Infer Model sizeJointFeature chainX makeChainEdges)

variable {X Y : Type}

/-- Outputs that a key with finitely many values tells apart are finitely many. -/
theorem finitelyMany_of_key {P : Spec.Problem X Y} {samples : List (X × Y)}
    (h : ∀ s ∈ samples, ∃ (K : Type) (_ : Finite K) (key : Y → K), ∀ a ∈ P.outputs s.1, ∀ b ∈ P.outputs s.1, key a = key b →
      P.loss s.2 a = P.loss s.2 b ∧ ∀ k < P.dim, P.feat s.1 a s.2 k = P.feat s.1 b s.2 k) : FinitelyMany P samples := by
  classical
  intro s hs
  obtain ⟨K, hK, key, h1⟩ := h s hs
  have := Fintype.ofFinite K
  refine ⟨((univ : Finset K).toList.filterMap fun c => if hc : ∃ z ∈ P.outputs s.1, key z = c then some hc.choose else none),
    ?_, ?_⟩
  · intro z hz
    obtain ⟨c, -, hc⟩ := List.mem_filterMap.mp hz
    split at hc
    · rename_i hex
      cases hc
      exact hex.choose_spec.1
    · cases hc
  · intro ŷ hy
    have hex : ∃ z ∈ P.outputs s.1, key z = key ŷ := ⟨ŷ, hy, rfl⟩
    refine ⟨hex.choose, List.mem_filterMap.mpr ⟨key ŷ, by simp, by rw [dif_pos hex]⟩, ?_⟩
    exact h1 ŷ hy _ hex.choose_spec.1 hex.choose_spec.2.symm

/-- **C107, the solution.** If finitely many outputs compete for every sample, some weights minimise the regularised risk, and
all weights that do agree in every entry. -/
theorem C107_minimiser (P : Spec.Problem X Y) (samples : List (X × Y)) (hl : P.Labelled samples)
    (hf : FinitelyMany P samples) (C : ℚ) (hC : 0 < C) :
    ∃ u a, P.IsRiskMin C samples u a ∧ ∀ v b, P.IsRiskMin C samples v b → b = a ∧ ∀ k < P.dim, v k = u k := by
  obtain ⟨u, a, hu⟩ := exists_riskMin P samples hl hf C hC
  refine ⟨u, a, hu, fun v b hv => ⟨le_antisymm (hv.2 _ _ hu.1) (hu.2 _ _ hv.1), fun k hk => ?_⟩⟩
  have h := near_close hC.le (fun s hs w => finite_hinge hl hf w hs) (ε := 0) (δ := 0)
    ⟨b, hv.1, fun w' obj h => by rw [add_zero]; exact hv.2 _ _ h⟩ ⟨a, hu.1, fun w' obj h => by rw [add_zero]; exact hu.2 _ _ h⟩
  rw [add_zero, mul_zero] at h
  have h0 : ∀ k ∈ range P.dim, 0 ≤ (v k - u k) ^ 2 := fun k _ => sq_nonneg _
  have := (sum_eq_zero_iff_of_nonneg h0).mp (le_antisymm h (sum_nonneg h0)) k (mem_range.mpr hk)
  have := pow_eq_zero_iff (two_ne_zero) |>.mp this
  linarith

/-- **C107, subgradient.** `SubgradientSSVM` with the Pegasos schedule, one job and even batches, exact loss-augmented inference,
finitely many outputs: there are weights `u` that minimise the risk, and for every `ε` training with enough passes returns weights
within squared distance `ε` of `u` whose risk, the last entry of `objective_curve_`, is at most `ε` above the minimum. -/
theorem C107_subgradient (m : SModel X Y) (outputs : X → Set Y)
    (hLA : (problemOf m outputs).ExactLossAug (fun x y w => m.lossAug x y w true))
    (samples : List (X × Y)) (hne : samples ≠ []) (hl : (problemOf m outputs).Labelled samples)
    (hf : FinitelyMany (problemOf m outputs) samples) (R : ℚ) (hR : (problemOf m outputs).FeatureRange samples R)
    (o : Subgradient.Obj) (t0 : ℚ) (hpeg : Pegasos o.cfg t0) (havg : o.cfg.averaging = .none ∨ o.t = 0)
    (heven : EvenBatches o.cfg samples.length) (hmode : ModeOk m o.cfg) :
    ∃ u a, (problemOf m outputs).IsRiskMin o.cfg.C samples u a ∧ ∀ ε : ℚ, 0 < ε → ∃ N₀, ∀ N ≥ N₀,
      ∀ order : ℕ → List (X × Y), (∀ it, (order it).Perm samples) →
      ∃ o' w obj, Subgradient.fit m order (withMaxIter o N) samples false = .ok o' ∧ o'.w = some w ∧
        o'.curves.objective.getLast? = some obj ∧ (problemOf m outputs).IsObjective o.cfg.C samples w obj ∧
        ∑ k ∈ range m.dim, (w k - u k) ^ 2 ≤ ε ∧ obj ≤ a + ε := by
  obtain ⟨u, a, hu⟩ := exists_riskMin (problemOf m outputs) samples hl hf o.cfg.C hpeg.1
  refine ⟨u, a, hu, fun ε hε => ?_⟩
  obtain ⟨K, hK⟩ := C101_converges_partial m outputs hLA samples hne hl R
    (fun s hs ŷ hy => hR s hs s.2 (hl s hs).1 ŷ hy) o t0 hpeg havg heven u a hu
  obtain ⟨N1, hN1⟩ := exists_nat_gt (K / ε)
  obtain ⟨N2, hN2⟩ := exists_nat_gt (K / ε ^ 2)
  refine ⟨N1 + N2 + 1, fun N hN order hord => ?_⟩
  have hfit := (C102_fit_succeeds m order samples hne hord (withMaxIter o N) (by change 0 < N; omega)).mpr hmode
  obtain ⟨o', hfit⟩ := hfit
  obtain ⟨w, obj, g1, g2, g3, g4, g5⟩ := hK order hord N o' hfit
  refine ⟨o', w, obj, hfit, g1, g2, g3, ?_, ?_⟩
  · have h1 : K < N * ε := by
      rw [div_lt_iff₀ hε] at hN1
      refine lt_of_lt_of_le hN1 (mul_le_mul_of_nonneg_right ?_ hε.le)
      exact_mod_cast (by omega : N1 ≤ N)
    by_contra hcon
    push Not at hcon
    have hNpos : (0 : ℚ) < N := by exact_mod_cast (by omega : 0 < N)
    have := mul_lt_mul_of_pos_left hcon hNpos
    linarith
  · have h1 : K < N * ε ^ 2 := by
      rw [div_lt_iff₀ (by positivity)] at hN2
      refine lt_of_lt_of_le hN2 (mul_le_mul_of_nonneg_right ?_ (by positivity))
      exact_mod_cast (by omega : N2 ≤ N)
    by_contra hcon
    push Not at hcon
    have hNpos : (0 : ℚ) < N := by exact_mod_cast (by omega : 0 < N)
    have h2 : ε ^ 2 < (obj - a) ^ 2 := pow_lt_pow_left₀ (by linarith) hε.le two_ne_zero
    have := mul_lt_mul_of_pos_left h2 hNpos
    linarith

theorem mc_finite (m : MultiClass) (samples : List ((ℕ → ℚ) × ℕ)) : FinitelyMany (classProblem m) samples := by
  intro s _
  exact ⟨List.range m.nStates, fun z hz => List.mem_range.mp hz, fun ŷ hy => ⟨ŷ, List.mem_range.mpr hy, rfl, fun _ _ => rfl⟩⟩

/-- **C107, `MultiClassClf`.** Subgradient training approaches the one minimum of the Crammer-Singer objective. -/
theorem C107_multiclass (m : MultiClass) (hc : m.classWeight.size = m.nStates)
    (hpos : ∀ c < m.nStates, 0 ≤ m.classWeight.get c) (samples : List ((ℕ → ℚ) × ℕ)) (hne : samples ≠ [])
    (hd : ∀ s ∈ samples, s.2 < m.nStates) (o : Subgradient.Obj) (t0 : ℚ) (hpeg : Pegasos o.cfg t0)
    (havg : o.cfg.averaging = .none ∨ o.t = 0) (heven : EvenBatches o.cfg samples.length)
    (hmode : ModeOk (multiClassModel m) o.cfg) :
    ∃ u, (∀ w, multiSVM m.nStates m.nFeatures o.cfg.C (classCost m) (classMargin m) samples u ≤
        multiSVM m.nStates m.nFeatures o.cfg.C (classCost m) (classMargin m) samples w) ∧
      ∀ ε : ℚ, 0 < ε → ∃ N₀, ∀ N ≥ N₀, ∀ order : ℕ → List ((ℕ → ℚ) × ℕ), (∀ it, (order it).Perm samples) →
        ∃ o' w, Subgradient.fit (multiClassModel m) order (withMaxIter o N) samples false = .ok o' ∧ o'.w = some w ∧
          ∑ k ∈ range (m.nStates * m.nFeatures), (w k - u k) ^ 2 ≤ ε ∧
          multiSVM m.nStates m.nFeatures o.cfg.C (classCost m) (classMargin m) samples w ≤
            multiSVM m.nStates m.nFeatures o.cfg.C (classCost m) (classMargin m) samples u + ε := by
  have hob := C105_objective m hc hpos o.cfg.C samples hd
  obtain ⟨u, a, hu, h⟩ := C107_subgradient (multiClassModel m) (classes m.nStates) (multiClass_exact m hc hpos true).1 samples hne
    (multiClass_labelled m hc samples hd) (mc_finite m samples)
    ((samples.map fun s => 2 * classCost m s.2 ^ 2 * ∑ f ∈ range m.nFeatures, s.1 f ^ 2).sum)
    (mc_range m hc samples hd _ fun s hs => List.single_le_sum (fun x hx => by
      obtain ⟨t, -, rfl⟩ := List.mem_map.mp hx
      exact mul_nonneg (by positivity) (sum_nonneg fun f _ => sq_nonneg _)) _ (List.mem_map.mpr ⟨s, hs, rfl⟩))
    o t0 hpeg havg heven hmode
  have ha := (hob _ _).mp hu.1
  refine ⟨u, fun w => ?_, fun ε hε => ?_⟩
  · rw [← ha]
    exact hu.2 _ _ ((hob _ _).mpr rfl)
  · obtain ⟨N₀, hN⟩ := h ε hε
    refine ⟨N₀, fun N hNN order hord => ?_⟩
    obtain ⟨o', w, obj, e1, e2, -, e4, e5, e6⟩ := hN N hNN order hord
    refine ⟨o', w, e1, e2, e5, ?_⟩
    rw [← (hob _ _).mp e4, ← ha]
    exact e6

/-- Labellings of a graph are finitely many, up to what they do outside the graph. -/
theorem graph_finite {backend : Bool → Infer} {cw : Vec} {m : Model} (hS : 1 ≤ m.nStates) (hc : cw.size = m.nStates)
    {O : ℕ → Edges → Set YVal} (hO : ∀ n edges, ∀ v ∈ O n edges, IsLabelling n m.nStates v)
    {data : List (GraphCRF.X × Labels)} (hd : GraphData m data) :
    FinitelyMany (problemOf (graphModel backend cw m) (outputsOver m O)) (graphSamples data) := by
  refine finitelyMany_of_key fun s hs => ?_
  refine ⟨Fin s.1.features.rows → Fin m.nStates, inferInstance, fun v i => match v with
    | .discrete y => ⟨y.get i % m.nStates, Nat.mod_lt _ (by omega)⟩
    | _ => ⟨0, by omega⟩, ?_⟩
  intro a ha b hb hab
  refine graph_eqSound hS hc hO hd s hs a ha b hb ?_
  obtain ⟨y, rfl, hy, hy'⟩ := hO _ _ a ha.2
  obtain ⟨z, rfl, hz, hz'⟩ := hO _ _ b hb.2
  unfold graphEq
  simp only [decide_eq_true_eq]
  refine ⟨by rw [hy, hz], fun i hi => ?_⟩
  rw [hy] at hi
  have := congrFun hab ⟨i, hi⟩
  simp only [Fin.mk.injEq] at this
  rw [Nat.mod_eq_of_lt (hy' i hi), Nat.mod_eq_of_lt (hz' i hi)] at this
  exact this

/-- **C107, chains.** Subgradient training of a `ChainCRF` with max-product inference approaches the one minimum of the regularised
risk. -/
theorem C107_chain (opts : MaxProd.Opts) (cw : Vec) (m : Model) (hS : 1 ≤ m.nStates) (hc : cw.size = m.nStates)
    (data : List (Mat × Labels)) (hne : data ≠ []) (hd : ChainData m data) (o : Subgradient.Obj) (t0 : ℚ)
    (hpeg : Pegasos o.cfg t0) (havg : o.cfg.averaging = .none ∨ o.t = 0) (heven : EvenBatches o.cfg data.length)
    (hmode : ModeOk (graphModel (fun _ => maxProductInfer opts) cw m) o.cfg) :
    ∃ u a, (chainProblem opts cw m).IsRiskMin o.cfg.C (chainSamples data) u a ∧ ∀ ε : ℚ, 0 < ε → ∃ N₀, ∀ N ≥ N₀,
      ∀ order, (∀ it, (order it).Perm (chainSamples data)) →
      ∃ o' w obj, Subgradient.fit (graphModel (fun _ => maxProductInfer opts) cw m) order (withMaxIter o N) (chainSamples data)
          false = .ok o' ∧ o'.w = some w ∧
        o'.curves.objective.getLast? = some obj ∧ (chainProblem opts cw m).IsObjective o.cfg.C (chainSamples data) w obj ∧
        ∑ k ∈ range (sizeJointFeature m), (w k - u k) ^ 2 ≤ ε ∧ obj ≤ a + ε := by
  have hlab := chainData_labelled hd
  have e : chainSamples data = graphSamples (data.map fun d => (chainX d.1, d.2)) := by
    unfold chainSamples graphSamples
    rw [List.map_map]
    rfl
  have hgd : GraphData m (data.map fun d => (chainX d.1, d.2)) := by
    intro d hd'
    obtain ⟨b, hb, rfl⟩ := List.mem_map.mp hd'
    obtain ⟨h1, h2, h3, h4⟩ := hd b hb
    refine ⟨⟨h1, h2, ?_⟩, h3, h4⟩
    change EdgesIn b.1.rows (GraphCRF.makeChainEdges b.1.rows)
    rw [makeChainEdges_eq]
    exact chainEdges_in _
  have hlen : (chainSamples data).length = data.length := by unfold chainSamples; rw [List.length_map]
  have hfin : FinitelyMany (chainProblem opts cw m) (chainSamples data) := by
    rw [e]
    exact graph_finite hS hc (fun _ _ _ h => h.2) hgd
  have hb : ∀ s ∈ chainSamples data, featureBound m s.1 ≤ ((chainSamples data).map fun s => featureBound m s.1).sum := by
    intro s hs
    refine List.single_le_sum (fun x hx => ?_) _ (List.mem_map.mpr ⟨s, hs, rfl⟩)
    obtain ⟨t, -, rfl⟩ := List.mem_map.mp hx
    unfold featureBound
    exact sum_nonneg fun f _ => sq_nonneg _
  have hne' : chainSamples data ≠ [] := by
    unfold chainSamples
    simpa using hne
  rw [← hlen] at heven
  exact C107_subgradient (graphModel (fun _ => maxProductInfer opts) cw m) (outputsOver m (chainOutputs m.nStates))
    (graph_exact (backend := fun _ => maxProductInfer opts) hS hc chain_relaxed true (chain_solves opts hS)) (chainSamples data)
    hne' (graph_labelled (backend := fun _ => maxProductInfer opts) hS hc hlab) hfin _
    (graph_range hS chain_relaxed _ _ hb) o t0 hpeg havg heven hmode

/-- A fresh learner with the Pegasos schedule, `C = 1`. -/
def pegasosSG : Subgradient.Obj := ⟨⟨1, 1, 0, none, fun t => t + 1, false, none, .none, false, 1, 0⟩, none, 0, none, ⟨[], []⟩⟩

/-- The hypotheses are met: two classes, one sample. -/
example : ∃ u : ℕ → ℚ, ∀ ε : ℚ, 0 < ε → ∃ N₀, ∀ N ≥ N₀, ∀ order : ℕ → List ((ℕ → ℚ) × ℕ),
    (∀ it, (order it).Perm (oneSamples 1)) → ∃ o' w, Subgradient.fit (multiClassModel twoClf) order
      (withMaxIter pegasosSG N) (oneSamples 1) false = .ok o' ∧ o'.w = some w ∧ ∑ k ∈ range 2, (w k - u k) ^ 2 ≤ ε := by
  obtain ⟨u, -, h⟩ := C107_multiclass twoClf rfl (by decide +kernel) (oneSamples 1) (by decide) (by decide) pegasosSG 1
    ⟨by norm_num [pegasosSG], rfl, rfl, fun t => rfl, le_rfl, rfl⟩ (.inl rfl) ⟨rfl, .inl rfl⟩ (.inl ⟨rfl, .inl rfl⟩)
  refine ⟨u, fun ε hε => ?_⟩
  obtain ⟨N₀, h⟩ := h ε hε
  refine ⟨N₀, fun N hN order ho => ?_⟩
  obtain ⟨o', w, h1, h2, h3, -⟩ := h N hN order ho
  exact ⟨o', w, h1, h2, h3⟩

/-- And for chains. -/
example : ∃ u a, (chainProblem {} ⟨2, fun _ => 1⟩ chainExampleModel).IsRiskMin 1 (chainSamples chainExampleData) u a := by
  obtain ⟨u, a, h, -⟩ := C107_chain {} ⟨2, fun _ => 1⟩ chainExampleModel (by decide) rfl chainExampleData (by decide)
    chainExample_data pegasosSG 1
    ⟨by norm_num [pegasosSG], rfl, rfl, fun t => rfl, le_rfl, rfl⟩ (.inl rfl) ⟨rfl, .inl rfl⟩ (.inl ⟨rfl, .inl rfl⟩)
  exact ⟨u, a, h⟩

end Verif.Props
