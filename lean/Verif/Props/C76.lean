import Verif.Props.C74
import Verif.Props.C15

/-!
# C76: one node type is EdgeFeatureGraphCRF
-/

namespace Verif.Props

open Finset Verif.Common Verif.GraphCRF Verif.Spec Verif.Typed

/-- An instance of an `EdgeFeatureGraphCRF` as instance with one node type. -/
def oneType (x : EdgeFeature.X) : Typed.X :=
  ⟨[some x.features], [some (x.edges.map fun e => ((e.1 : ℤ), (e.2 : ℤ)))], [some x.edgeFeatures]⟩

/-- Labels as flat labels. -/
def asInts (y : Labels) : List ℤ := (List.range y.size).map fun i => (y.get i : ℤ)

theorem oneType_fits {F Fe : ℕ} {x : EdgeFeature.X} (hF : x.features.cols = F)
    (hE : x.edgeFeatures.rows = x.edges.length) (hK : x.edgeFeatures.cols = Fe)
    (he : EdgesIn x.features.rows x.edges) :
    TypedFits 1 [F] (fun _ _ => Fe) (oneType x).nodeFeatures (oneType x).edges
      (oneType x).edgeFeatures := by
  constructor
  · rfl
  · intro t ht M hM
    obtain rfl : t = 0 := by omega
    cases hM
    exact hF
  · intro a ha b hb e hmem
    obtain rfl : a = 0 := by omega
    obtain rfl : b = 0 := by omega
    change e ∈ x.edges.map _ at hmem
    obtain ⟨e', he', rfl⟩ := List.mem_map.mp hmem
    have := he e' he'
    change 0 ≤ (e'.1 : ℤ) ∧ (e'.1 : ℤ) < (x.features.rows : ℤ) ∧ 0 ≤ (e'.2 : ℤ) ∧
      (e'.2 : ℤ) < (x.features.rows : ℤ)
    omega
  · intro a ha b hb
    obtain rfl : a = 0 := by omega
    obtain rfl : b = 0 := by omega
    change x.edgeFeatures.rows = (x.edges.map _).length
    rw [List.length_map, hE]
  · intro a ha b hb M hM
    obtain rfl : a = 0 := by omega
    obtain rfl : b = 0 := by omega
    cases hM
    exact hK

theorem oneType_labels {S : ℕ} {x : EdgeFeature.X} {y : Labels} (hy : y.size = x.features.rows)
    (hv : Valid x.features.rows S y.get) :
    LabelsFit [S] (counts 1 (oneType x).nodeFeatures) (asInts y) ∧
    ∀ i < x.features.rows, stateOf [S] (counts 1 (oneType x).nodeFeatures) (asInts y) 0 i = y.get i := by
  have hc : counts 1 (oneType x).nodeFeatures = [x.features.rows] := rfl
  rw [hc]
  have hg : ∀ i < x.features.rows, (asInts y).getD i 0 = (y.get i : ℤ) := by
    intro i hi
    exact getD_map_range _ _ _ (by omega)
  refine ⟨⟨by simp [asInts, hy], ?_⟩, ?_⟩
  · intro t ht i hi
    obtain rfl : t = 0 := by simpa using ht
    simp only [before, List.take_zero, List.sum_nil, zero_add, List.getD_cons_zero] at hi ⊢
    rw [hg i hi]
    have := hv i hi
    simp
    omega
  · intro i hi
    unfold stateOf
    simp only [before, List.take_zero, List.sum_nil, zero_add]
    rw [hg i hi]
    simp

theorem oneType_unary (S F Fe : ℕ) (x : EdgeFeature.X) (w : ℕ → ℚ) (i s : ℕ) :
    typedUnary [S] [F] (oneType x).nodeFeatures w 0 i s =
      EdgeFeature.EU ⟨S, F, Fe, [], []⟩ x.features w i s := by
  unfold typedUnary EdgeFeature.EU nodeWeights
  simp only [range_zero, sum_empty, zero_add]
  refine sum_congr rfl fun f _ => ?_
  exact mul_comm _ _

theorem oneType_pairwise (S F Fe : ℕ) (x : EdgeFeature.X) (w : ℕ → ℚ) (e a b : ℕ) :
    typedPairwise 1 [S] [F] (fun _ _ => Fe) (oneType x).edgeFeatures w 0 0 e a b =
      EdgeFeature.EP ⟨S, F, Fe, [], []⟩ x.edgeFeatures w e a b := by
  unfold typedPairwise EdgeFeature.EP nodeWeights edgeWeights
  simp only [Nat.zero_mul, range_zero, sum_empty, add_zero, range_one, sum_singleton]
  refine sum_congr rfl fun f _ => ?_
  rw [EW_flat]
  rw [mul_comm]
  congr 2
  simp only [List.getD_cons_zero]
  ring

theorem construct_one (S F Fe : ℕ) : construct 1 [S] [F] 1 1 (fun _ _ => Fe) none =
    .ok ⟨1, [S], [F], fun _ _ => Fe, [ones S]⟩ := by
  simp [construct]

theorem oneType_size (S F Fe : ℕ) : typedSize 1 [S] [F] (fun _ _ => Fe) =
    EdgeFeature.sizeJointFeature ⟨S, F, Fe, [], []⟩ := by
  unfold typedSize nodeWeights edgeWeights EdgeFeature.sizeJointFeature
  simp
  ring

/-- **C76 (1).** With a single node type `NodeTypeEdgeFeatureGraphCRF` computes the same joint features as
`EdgeFeatureGraphCRF` without (anti)symmetric features, for every graph, all features and all
labellings. -/
theorem C76_joint_feature (S F Fe : ℕ) (hpos : 0 < Fe) (x : EdgeFeature.X) (y : Labels)
    (hF : x.features.cols = F) (hE : x.edgeFeatures.rows = x.edges.length)
    (hK : x.edgeFeatures.cols = Fe) (he : EdgesIn x.features.rows x.edges)
    (hy : y.size = x.features.rows) (hv : Valid x.features.rows S y.get) :
    ∃ m ψ ψ', construct 1 [S] [F] 1 1 (fun _ _ => Fe) none = .ok m ∧
      Typed.jointFeature m (oneType x) (.discrete (asInts y)) = .ok ψ ∧
      EdgeFeature.jointFeature EdgeFeature.checkSizeX ⟨S, F, Fe, [], []⟩ x (.discrete y) = .ok ψ' ∧
      ψ.size = ψ'.size ∧ ∀ k < ψ.size, ψ.get k = ψ'.get k := by
  have hm := construct_one S F Fe
  have hfit := oneType_fits hF hE hK he
  obtain ⟨hlab, hst⟩ := oneType_labels hy hv
  -- both joint features and their scores, for every weight vector
  have h1 := fun w hw => C21_typed_energy hm (oneType x) rfl rfl hfit w hw (asInts y) hlab
  have h2 := fun w hw => C15_edge_feature_energy_partial ⟨S, F, Fe, [], []⟩ x w y rfl rfl hF hE hK hpos
    hw hy hv he
  obtain ⟨_, _, ψ, _, _, hψ, hs, hms, _, _⟩ := h1 ⟨typedSize 1 [S] [F] (fun _ _ => Fe), fun _ => 0⟩ rfl
  obtain ⟨_, _, ψ', _, _, hψ', hd0, _⟩ :=
    h2 ⟨EdgeFeature.sizeJointFeature ⟨S, F, Fe, [], []⟩, fun _ => 0⟩ rfl
  have hs' : ψ'.size = EdgeFeature.sizeJointFeature ⟨S, F, Fe, [], []⟩ := by
    by_contra hne
    obtain ⟨_, _, ψ2, _, _, hψ2, _, hd⟩ :=
      h2 ⟨EdgeFeature.sizeJointFeature ⟨S, F, Fe, [], []⟩, fun _ => 0⟩ rfl
    rw [hψ', Except.ok.injEq] at hψ2
    subst hψ2
    unfold Vec.dot at hd
    rw [if_neg (Ne.symm hne)] at hd
    cases hd
  have hsz : ψ.size = ψ'.size := by rw [hs, hms, hs', oneType_size]
  refine ⟨_, ψ, ψ', hm, hψ, hψ', hsz, fun k hk => ?_⟩
  have e1 := h1 ⟨typedSize 1 [S] [F] (fun _ _ => Fe), fun j => if j = k then 1 else 0⟩ rfl
  have e2 := h2 ⟨EdgeFeature.sizeJointFeature ⟨S, F, Fe, [], []⟩, fun j => if j = k then 1 else 0⟩ rfl
  obtain ⟨_, _, ψ2, _, _, hψ2, _, _, _, hd1⟩ := e1
  rw [hψ, Except.ok.injEq] at hψ2
  subst hψ2
  obtain ⟨_, _, ψ2, _, _, hψ2, _, hd2⟩ := e2
  rw [hψ', Except.ok.injEq] at hψ2
  subst hψ2
  unfold Vec.dot at hd1 hd2
  rw [if_pos (by simp only; rw [hs, hms]), Except.ok.injEq] at hd1
  rw [if_pos (by simp only; rw [hs']), Except.ok.injEq] at hd2
  simp only at hd1 hd2
  have hk1 : k < typedSize 1 [S] [F] (fun _ _ => Fe) := by rw [← hms, ← hs]; exact hk
  have hk2 : k < EdgeFeature.sizeJointFeature ⟨S, F, Fe, [], []⟩ := by rw [← oneType_size]; exact hk1
  unfold dot at hd1 hd2
  simp only [ite_mul, one_mul, zero_mul, sum_ite_eq', mem_range, hk1, hk2, if_true] at hd1 hd2
  rw [hd1, hd2]
  refine Eq.trans ?_ (score_eq_edgeFeatureScore ⟨S, F, Fe, [], []⟩ x _ y.get)
  unfold typedEnergy score
  simp only [range_one, sum_singleton]
  congr 1
  · refine sum_congr rfl fun i hi => ?_
    have hi' : i < x.features.rows := mem_range.mp hi
    rw [hst i hi', oneType_unary S F Fe]
  · have hlen : (edgesOf (oneType x).edges (0 * 1 + 0)).length = x.edges.length := by
      change (x.edges.map _).length = _
      rw [List.length_map]
    rw [hlen]
    refine sum_congr rfl fun e hee => ?_
    have hee' := mem_range.mp hee
    have hget : (edgesOf (oneType x).edges (0 * 1 + 0)).getD e (0, 0) =
        (((x.edges.getD e (0, 0)).1 : ℤ), ((x.edges.getD e (0, 0)).2 : ℤ)) := by
      change (x.edges.map _).getD e (0, 0) = _
      rw [List.getD_eq_getElem?_getD, List.getElem?_map, getElem?_getD hee' (0, 0)]
      rfl
    have hin := he _ (edge_mem hee')
    unfold edge at hin
    rw [hget]
    simp only [Int.toNat_natCast]
    rw [hst _ hin.1, hst _ hin.2, oneType_pairwise]

/-- **C76 (2).** The potentials agree as well. -/
theorem C76_potentials (S F Fe : ℕ) (hpos : 0 < Fe) (x : EdgeFeature.X) (w : Vec)
    (hF : x.features.cols = F) (hE : x.edgeFeatures.rows = x.edges.length)
    (hK : x.edgeFeatures.cols = Fe) (he : EdgesIn x.features.rows x.edges)
    (hw : w.size = EdgeFeature.sizeJointFeature ⟨S, F, Fe, [], []⟩) :
    ∃ m us ps U P, construct 1 [S] [F] 1 1 (fun _ _ => Fe) none = .ok m ∧
      Typed.unaryPotentials m (oneType x) w = .ok us ∧
      Typed.pairwisePotentials m (oneType x) w = .ok ps ∧ us.length = 1 ∧ ps.length = 1 ∧
      EdgeFeature.unaryPotentials EdgeFeature.checkSizeX ⟨S, F, Fe, [], []⟩ x w = .ok U ∧
      EdgeFeature.pairwisePotentials EdgeFeature.checkSizeX ⟨S, F, Fe, [], []⟩ x w = .ok P ∧
      us.map Mat.rows = [U.rows] ∧ us.map Mat.cols = [U.cols] ∧
      (∀ i s, unaryAt us 0 i s = U.get i s) ∧
      ∀ e < x.edges.length, ∀ a < S, ∀ b < S, tenAt ps 0 e a b = P.get e a b := by
  have hm := construct_one S F Fe
  have hfit := oneType_fits hF hE hK he
  have hg := (construct_good hm).1
  have hw' : w.size = (⟨1, [S], [F], fun _ _ => Fe, [ones S]⟩ : Typed.Model).size := by
    rw [size_eq hg, hw, ← oneType_size]
  obtain ⟨us, ps, hus, hps, hl, hl', hrows, hcols, hu, hp⟩ := potentials_ok hg (x := oneType x) le_rfl
    le_rfl hfit hw'
  have hc : EdgeFeature.checkSizeX ⟨S, F, Fe, [], []⟩ x = .ok () := EdgeFeature.checkSizeX_ok hF hE hK
  obtain ⟨P, hP, _, _, _, hPg⟩ := EdgeFeature.pairwise_ok (m := ⟨S, F, Fe, [], []⟩) hc hK hpos hw
  refine ⟨_, us, ps, _, P, hm, hus, hps, hl, hl', EdgeFeature.unary_ok hc hF hw, hP, hrows, hcols, ?_, ?_⟩
  · intro i s
    rw [hu 0 Nat.one_pos i s]
    exact oneType_unary S F Fe x w.get i s
  · intro e hee a ha b hb
    rw [hPg e (by rw [hE]; exact hee) a ha b hb, ← oneType_pairwise S F Fe]
    exact hp 0 Nat.one_pos 0 Nat.one_pos e a ha b hb

/-- A graph with two vertices and one edge. -/
example : (Typed.jointFeature ⟨1, [2], [1], fun _ _ => 1, [ones 2]⟩
      (oneType ⟨⟨2, 1, fun i _ => i + 3⟩, [(0, 1)], ⟨1, 1, fun _ _ => 7⟩⟩)
      (.discrete (asInts ⟨2, fun i => i⟩))).toOption.map (fun ψ => (List.range ψ.size).map ψ.get) =
      some [3, 4, 0, 7, 0, 0] ∧
    (EdgeFeature.jointFeature EdgeFeature.checkSizeX ⟨2, 1, 1, [], []⟩
      ⟨⟨2, 1, fun i _ => i + 3⟩, [(0, 1)], ⟨1, 1, fun _ _ => 7⟩⟩
      (.discrete ⟨2, fun i => i⟩)).toOption.map (fun ψ => (List.range ψ.size).map ψ.get) =
      some [3, 4, 0, 7, 0, 0] :=
  ⟨by decide +kernel, by decide +kernel⟩

end Verif.Props
