import Verif.Props.C88
import Verif.Props.C156

/-!
# C189: chains read backwards
-/

namespace Verif.Props

open Finset Verif.Common Verif.GraphCRF Verif.Spec Verif.Learner Verif.MaxProd Verif.Lemmas

/-- rows of a matrix in opposite order. -/
def backRows (f : Mat) : Mat := ⟨f.rows, f.cols, fun i k => f.get (f.rows - 1 - i) k⟩

/-- labels in opposite order. -/
def backLabels (y : Labels) : Labels := ⟨y.size, fun i => y.get (y.size - 1 - i)⟩

/-- every sequence read backwards. -/
def backData (data : List (Mat × Labels)) : List (Mat × Labels) := data.map fun d => (backRows d.1, backLabels d.2)

/-- the transition matrix of `S` states behind `k₀` other weights transposed. -/
def transposed (k₀ S : ℕ) (w : ℕ → ℚ) (k : ℕ) : ℚ :=
  if k < k₀ then w k else w (k₀ + ((k - k₀) % S * S + (k - k₀) / S))

/-- the weights for sequences read backwards: the transition matrix of a directed chain is transposed, an undirected one keeps its weights. -/
def backWeights (S F : ℕ) (directed : Bool) (w : ℕ → ℚ) : ℕ → ℚ := if directed then transposed (S * F) S w else w

/-- one labelling is the other one read backwards. -/
def Mirrored (n : ℕ) (y y' : Labels) : Prop := y.size = n ∧ y'.size = n ∧ ∀ i < n, y'.get i = y.get (n - 1 - i)

theorem mirrored_back (y : Labels) : Mirrored y.size y (backLabels y) := ⟨rfl, rfl, fun _ _ => rfl⟩

theorem Mirrored.symm {n : ℕ} {y y' : Labels} (h : Mirrored n y y') : Mirrored n y' y :=
  ⟨h.2.1, h.1, fun i hi => by rw [h.2.2 _ (by omega)]; congr 1; omega⟩

theorem Mirrored.valid {n S : ℕ} {y y' : Labels} (h : Mirrored n y y') (hv : Valid n S y.get) : Valid n S y'.get := fun i hi => by
  rw [h.2.2 i hi]; exact hv _ (by omega)

theorem transposed_low {k₀ S k : ℕ} (w : ℕ → ℚ) (h : k < k₀) : transposed k₀ S w k = w k := if_pos h

theorem transposed_high {k₀ S a b : ℕ} (w : ℕ → ℚ) (hb : b < S) : transposed k₀ S w (k₀ + (a * S + b)) = w (k₀ + (b * S + a)) := by
  unfold transposed
  rw [if_neg (by omega), Nat.add_sub_cancel_left, flat_div hb, Nat.mul_comm a S, Nat.mul_add_mod, Nat.mod_eq_of_lt hb]

theorem backWeights_UN (m : Model) (f : Mat) (w : ℕ → ℚ) (i s : ℕ) (hs : s < m.nStates) :
    UN m f (backWeights m.nStates m.nFeatures m.directed w) i s = UN m f w i s := by
  unfold UN backWeights
  by_cases hd : m.directed = true
  · rw [if_pos hd]
    refine sum_congr rfl fun k hk => ?_
    rw [transposed_low]
    have := mem_range.mp hk
    nlinarith
  · rw [if_neg hd]

theorem backWeights_PW (m : Model) (w : ℕ → ℚ) (a b : ℕ) (hb : b < m.nStates) :
    PW m (backWeights m.nStates m.nFeatures m.directed w) a b = PW m w b a := by
  unfold PW backWeights
  by_cases hd : m.directed = true
  · rw [if_pos hd, if_pos hd, if_pos hd, transposed_high w hb]
  · rw [if_neg hd, if_neg hd, if_neg hd, Sym.symEntry_comm]

/-- **C189, norm.** -/
theorem transposed_squares (k₀ S : ℕ) (w v : ℕ → ℚ) :
    ∑ k ∈ range (k₀ + S ^ 2), transposed k₀ S w k * transposed k₀ S v k = ∑ k ∈ range (k₀ + S ^ 2), w k * v k := by
  rw [sum_range_add, sum_range_add, pow_two, sum_range_mul', sum_range_mul']
  congr 1
  · exact sum_congr rfl fun k hk => by rw [transposed_low w (mem_range.mp hk), transposed_low v (mem_range.mp hk)]
  · rw [sum_comm]
    refine sum_congr rfl fun b hb => sum_congr rfl fun a ha => ?_
    rw [transposed_high w (mem_range.mp hb), transposed_high v (mem_range.mp hb)]

theorem backWeights_squares (m : Model) (w : ℕ → ℚ) :
    ∑ k ∈ range (sizeJointFeature m), backWeights m.nStates m.nFeatures m.directed w k * backWeights m.nStates m.nFeatures m.directed w k =
      ∑ k ∈ range (sizeJointFeature m), w k * w k := by
  unfold backWeights sizeJointFeature
  by_cases hd : m.directed = true
  · rw [if_pos hd, if_pos hd]
    exact transposed_squares _ _ _ _
  · simp only [if_neg hd]

theorem chain_value {m : Model} (hS : 1 ≤ m.nStates) {f : Mat} (hF : f.cols = m.nFeatures) {y : Labels} (hy : y.size = f.rows)
    (hv : Valid f.rows m.nStates y.get) (w : ℕ → ℚ) :
    dot (sizeJointFeature m) w (graphFeature m (chainX f) (.discrete y)) =
      ∑ i ∈ range f.rows, UN m f w i (y.get i) + ∑ e ∈ range (f.rows - 1), PW m w (y.get e) (y.get (e + 1)) := by
  have he : makeChainEdges f.rows = chainEdges f.rows := makeChainEdges_eq _
  have hE : EdgesIn f.rows (makeChainEdges f.rows) := by rw [he]; exact chainEdges_in _
  rw [value_output (x := chainX f) hF hE hS (.inl ⟨y, rfl, hy, hv⟩) w]
  change outputScore f.rows m.nStates (makeChainEdges f.rows) _ _ _ = _
  rw [outputScore_labelling hE hv, he]
  unfold Spec.score
  rw [chainEdges_length]
  congr 1
  refine sum_congr rfl fun e he' => ?_
  rw [chainEdges_getD (mem_range.mp he')]

/-- **C189, scores.** -/
theorem C189_score (m : Model) (hS : 1 ≤ m.nStates) (f : Mat) (hF : f.cols = m.nFeatures) (y y' : Labels)
    (h : Mirrored f.rows y y') (hv : Valid f.rows m.nStates y.get) (w : ℕ → ℚ) :
    dot (sizeJointFeature m) w (graphFeature m (chainX (backRows f)) (.discrete y')) =
      dot (sizeJointFeature m) (backWeights m.nStates m.nFeatures m.directed w) (graphFeature m (chainX f) (.discrete y)) := by
  rw [chain_value hS (f := backRows f) hF h.2.1 (h.valid hv), chain_value hS hF h.1 hv]
  change ∑ i ∈ range f.rows, _ + ∑ e ∈ range (f.rows - 1), _ = _
  congr 1
  · rw [← sum_range_reflect]
    refine sum_congr rfl fun i hi => ?_
    have hi' := mem_range.mp hi
    rw [backWeights_UN m f w _ _ (hv i hi'), h.2.2 _ (by omega), show f.rows - 1 - (f.rows - 1 - i) = i by omega]
    unfold UN
    refine sum_congr rfl fun k _ => ?_
    change f.get (f.rows - 1 - (f.rows - 1 - i)) k * _ = _
    rw [show f.rows - 1 - (f.rows - 1 - i) = i by omega]
  · rw [← sum_range_reflect]
    refine sum_congr rfl fun e he => ?_
    have he' := mem_range.mp he
    rw [backWeights_PW m w _ _ (hv _ (by omega)), h.2.2 _ (by omega), h.2.2 _ (by omega)]
    congr 2 <;> omega

/-- the loss counts positions, in whatever order. -/
theorem loss_mirrored (cw : Vec) {n : ℕ} {t t' y y' : Labels} (ht : Mirrored n t t') (hy : Mirrored n y y')
    (hc : ∀ i < n, t.get i < cw.size) : Loss.loss (some cw) t' y' = Loss.loss (some cw) t y := by
  have hc' : ∀ i < n, t'.get i < cw.size := fun i hi => by rw [ht.2.2 i hi]; exact hc _ (by omega)
  rw [loss_some_ok ht.2.1 hy.2.1 hc', loss_some_ok ht.1 hy.1 hc]
  congr 1
  unfold weightedHamming
  rw [← sum_range_reflect]
  refine sum_congr rfl fun i hi => ?_
  have hi' := mem_range.mp hi
  rw [ht.2.2 _ (by omega), hy.2.2 _ (by omega), show n - 1 - (n - 1 - i) = i by omega]

theorem violation_mirrored (opts : Opts) (cw : Vec) (m : Model) (hS : 1 ≤ m.nStates) (hc : cw.size = m.nStates) (f : Mat)
    (hF : f.cols = m.nFeatures) (t t' y y' : Labels) (ht : Mirrored f.rows t t') (hy : Mirrored f.rows y y')
    (htv : Valid f.rows m.nStates t.get) (hyv : Valid f.rows m.nStates y.get) (w : ℕ → ℚ) :
    (chainProblem opts cw m).violation w (chainX (backRows f)) (.discrete t') (.discrete y') =
      (chainProblem opts cw m).violation (backWeights m.nStates m.nFeatures m.directed w) (chainX f) (.discrete t) (.discrete y) := by
  unfold Problem.violation
  have e1 := C189_score m hS f hF y y' hy hyv w
  have e2 := C189_score m hS f hF t t' ht htv w
  have e3 := loss_mirrored cw ht hy (by rw [hc]; exact htv)
  have e4 : (chainProblem opts cw m).loss (.discrete t') (.discrete y') = (chainProblem opts cw m).loss (.discrete t) (.discrete y) :=
    congrArg (okD 0) e3
  rw [e4]
  exact congrArg₂ (· - ·) (congrArg₂ (· + ·) rfl e1) e2

theorem chain_mem {m : Model} {f : Mat} (hn : 1 ≤ f.rows) (hF : f.cols = m.nFeatures) {v : YVal} :
    v ∈ outputsOver m (chainOutputs m.nStates) (chainX f) ↔ ∃ y, v = .discrete y ∧ y.size = f.rows ∧ Valid f.rows m.nStates y.get := by
  have he : makeChainEdges f.rows = chainEdges f.rows := makeChainEdges_eq _
  have hE : EdgesIn f.rows (makeChainEdges f.rows) := by rw [he]; exact chainEdges_in _
  exact ⟨fun h => h.2.2, fun h => ⟨⟨hn, hF, hE⟩, he, h⟩⟩

/-- **C189, hinge losses.** -/
theorem hinge_mirrored (opts : Opts) (cw : Vec) (m : Model) (hS : 1 ≤ m.nStates) (hc : cw.size = m.nStates) (f : Mat) (hn : 1 ≤ f.rows)
    (hF : f.cols = m.nFeatures) (t : Labels) (ht : t.size = f.rows) (htv : Valid f.rows m.nStates t.get) (w : ℕ → ℚ) (h : ℚ) :
    (chainProblem opts cw m).IsHinge w (chainX (backRows f)) (.discrete (backLabels t)) h ↔
      (chainProblem opts cw m).IsHinge (backWeights m.nStates m.nFeatures m.directed w) (chainX f) (.discrete t) h := by
  have hm : Mirrored f.rows t (backLabels t) := ht ▸ mirrored_back t
  unfold Problem.IsHinge
  have e : {v | ∃ ŷ ∈ (chainProblem opts cw m).outputs (chainX (backRows f)),
        v = (chainProblem opts cw m).violation w (chainX (backRows f)) (.discrete (backLabels t)) ŷ} =
      {v | ∃ ŷ ∈ (chainProblem opts cw m).outputs (chainX f),
        v = (chainProblem opts cw m).violation (backWeights m.nStates m.nFeatures m.directed w) (chainX f) (.discrete t) ŷ} := by
    ext v
    constructor
    · rintro ⟨z, hz, rfl⟩
      obtain ⟨y', rfl, h1, h2⟩ := (chain_mem (f := backRows f) hn hF).mp hz
      have hy : Mirrored f.rows (backLabels y') y' := (h1 ▸ mirrored_back y' : Mirrored f.rows y' (backLabels y')).symm
      have hv : Valid f.rows m.nStates (backLabels y').get := hy.symm.valid h2
      exact ⟨.discrete (backLabels y'), (chain_mem hn hF).mpr ⟨backLabels y', rfl, h1, hv⟩, violation_mirrored opts cw m hS hc f hF t _ _ y' hm hy htv hv w⟩
    · rintro ⟨z, hz, rfl⟩
      obtain ⟨y, rfl, h1, h2⟩ := (chain_mem hn hF).mp hz
      have hy : Mirrored f.rows y (backLabels y) := h1 ▸ mirrored_back y
      exact ⟨.discrete (backLabels y), (chain_mem (f := backRows f) hn hF).mpr ⟨backLabels y, rfl, h1, hy.valid h2⟩,
        (violation_mirrored opts cw m hS hc f hF t _ y _ hm hy htv h2 w).symm⟩
  rw [e]

/-- **C189, risk.** The risk of weights on sequences read backwards is the risk, on the sequences themselves, of the weights with the transition
matrix transposed (directed chains) or of the same weights (undirected chains). -/
theorem C189_risk (opts : Opts) (cw : Vec) (m : Model) (hS : 1 ≤ m.nStates) (hc : cw.size = m.nStates) (C : ℚ)
    (data : List (Mat × Labels)) (hd : ChainData m data) (w : ℕ → ℚ) (a : ℚ) :
    (chainProblem opts cw m).IsObjective C (chainSamples (backData data)) w a ↔
      (chainProblem opts cw m).IsObjective C (chainSamples data) (backWeights m.nStates m.nFeatures m.directed w) a := by
  unfold Problem.IsObjective
  refine exists_congr fun hs => and_congr ?_ ?_
  · unfold chainSamples backData
    rw [List.map_map, List.forall₂_map_left_iff, List.forall₂_map_left_iff]
    induction data generalizing hs with
    | nil => simp
    | cons d l ih =>
      obtain ⟨h1, h2, h3, h4⟩ := hd d List.mem_cons_self
      have ih := fun hs => ih (fun d' hd' => hd d' (List.mem_cons_of_mem _ hd')) hs
      cases hs with
      | nil => simp
      | cons h hs =>
        rw [List.forall₂_cons, List.forall₂_cons, ih]
        exact and_congr (hinge_mirrored opts cw m hS hc d.1 h1 h2 d.2 h3 h4 w h) Iff.rfl
  · change a = (∑ k ∈ range (sizeJointFeature m), w k * w k) / 2 + C * hs.sum ↔ a = (∑ k ∈ range (sizeJointFeature m), _) / 2 + C * hs.sum
    rw [backWeights_squares]

theorem backData_fits {m : Model} {data : List (Mat × Labels)} (hd : ChainData m data) : ChainData m (backData data) := by
  intro d' h
  obtain ⟨d, hd', rfl⟩ := List.mem_map.mp h
  obtain ⟨h1, h2, h3, h4⟩ := hd d hd'
  have hm : Mirrored d.1.rows d.2 (backLabels d.2) := h3 ▸ mirrored_back d.2
  exact ⟨h1, h2, h3, hm.valid h4⟩

theorem transposed_twice (k₀ S : ℕ) (w : ℕ → ℚ) (k : ℕ) (hk : k < k₀ + S ^ 2) : transposed k₀ S (transposed k₀ S w) k = w k := by
  by_cases h : k < k₀
  · rw [transposed_low _ h, transposed_low _ h]
  · have h2 : k - k₀ < S * S := by rw [← pow_two]; omega
    have h0 : 0 < S := Nat.pos_of_ne_zero fun e => by rw [e] at h2; omega
    have e : k = k₀ + ((k - k₀) / S * S + (k - k₀) % S) := by rw [Nat.mul_comm, Nat.div_add_mod]; omega
    have e1 : (k - k₀) / S < S := (Nat.div_lt_iff_lt_mul h0).mpr h2
    rw [e, transposed_high _ (Nat.mod_lt _ h0), transposed_high _ e1]

/-- weights that agree where the problem looks have the same risk. -/
theorem objective_weights_congr {X Y : Type} {P : Problem X Y} {C : ℚ} {samples : List (X × Y)} {w v : ℕ → ℚ} {a : ℚ}
    (h : ∀ k < P.dim, w k = v k) : P.IsObjective C samples w a ↔ P.IsObjective C samples v a := by
  have hv : ∀ x y z, P.value w x y z = P.value v x y z := fun x y z =>
    sum_congr rfl fun k hk => by rw [h k (mem_range.mp hk)]
  have hn : ∑ k ∈ range P.dim, w k * w k = ∑ k ∈ range P.dim, v k * v k := sum_congr rfl fun k hk => by rw [h k (mem_range.mp hk)]
  unfold Problem.IsObjective Problem.IsHinge Problem.violation
  simp only [hv, hn]

/-- **C189, learned weights.** Weights learned from sequences and weights learned from the same sequences read backwards are transposes of
each other (directed) or equal (undirected), up to the accuracy of training. -/
theorem C189_weights (opts : Opts) (cw : Vec) (m : Model) (hS : 1 ≤ m.nStates) (hc : cw.size = m.nStates) (C : ℚ) (hC : 0 < C)
    (data : List (Mat × Labels)) (hd : ChainData m data) (ε δ : ℚ) (w v : W)
    (hw : Trained (graphModel (fun _ => maxProductInfer opts) cw m) (outputsOver m (chainOutputs m.nStates)) (chainSamples data) C ε w)
    (hv : Trained (graphModel (fun _ => maxProductInfer opts) cw m) (outputsOver m (chainOutputs m.nStates)) (chainSamples (backData data))
      C δ v) :
    ∑ k ∈ range (sizeJointFeature m), (w k - backWeights m.nStates m.nFeatures m.directed v k) ^ 2 ≤ 4 * (ε + δ) := by
  have l1 := graph_exact (backend := fun _ => maxProductInfer opts) hS hc chain_relaxed true (chain_solves opts hS)
  have l2 := graph_exact (backend := fun _ => maxProductInfer opts) hS hc chain_relaxed true (chain_solves opts hS)
  have g1 := graph_labelled (backend := fun _ => maxProductInfer opts) hS hc (chainData_labelled hd)
  have g2 := graph_labelled (backend := fun _ => maxProductInfer opts) hS hc (chainData_labelled (backData_fits hd))
  have n1 := trained_near _ _ l1 _ g1 hC hw
  obtain ⟨b, b1, b2⟩ := trained_near _ _ l2 _ g2 hC hv
  refine near_close (P := chainProblem opts cw m) hC.le
    (fun s hs w => ⟨_, (C29_slack _ _ true l1 s.1 s.2 w (g1 s hs).1 (g1 s hs).2).1⟩) n1
    ⟨b, (C189_risk opts cw m hS hc C data hd v b).mp b1, fun u a ha => ?_⟩
  refine b2 (backWeights m.nStates m.nFeatures m.directed u) a ((C189_risk opts cw m hS hc C data hd _ a).mpr ?_)
  refine (objective_weights_congr (P := chainProblem opts cw m) (w := u) fun k (hk : k < sizeJointFeature m) => ?_).mp ha
  unfold backWeights
  by_cases hdir : m.directed = true
  · unfold sizeJointFeature at hk
    rw [if_pos hdir] at hk
    rw [if_pos hdir, if_pos hdir, transposed_twice _ _ _ _ hk]
  · rw [if_neg hdir, if_neg hdir]

/-- **C189, prediction.** What is predicted for a sequence read backwards, read backwards, is a best label sequence for the sequence itself
under the transposed transition matrix. -/
theorem C189_prediction (opts : Opts) (cw : Vec) (m : Model) (hS : 1 ≤ m.nStates) (w : W) (f : Mat) (hn : 1 ≤ f.rows)
    (hF : f.cols = m.nFeatures) :
    ∃ y : Labels, predict (graphModel (fun _ => maxProductInfer opts) cw m) w [chainX (backRows f)] = [.discrete y] ∧ y.size = f.rows ∧
      Valid f.rows m.nStates y.get ∧ ∀ z : Labels, z.size = f.rows → Valid f.rows m.nStates z.get →
        dot (sizeJointFeature m) (backWeights m.nStates m.nFeatures m.directed w) (graphFeature m (chainX f) (.discrete z)) ≤
          dot (sizeJointFeature m) (backWeights m.nStates m.nFeatures m.directed w)
            (graphFeature m (chainX f) (.discrete (backLabels y))) := by
  obtain ⟨y, h1, h2, h3, h4⟩ := C88_prediction opts cw m hS w (backRows f) hn hF
  have h2 : y.size = f.rows := h2
  refine ⟨y, h1, h2, h3, fun z hz hzv => ?_⟩
  have m1 : Mirrored f.rows z (backLabels z) := hz ▸ mirrored_back z
  have m2 : Mirrored f.rows (backLabels y) y := (h2 ▸ mirrored_back y : Mirrored f.rows y (backLabels y)).symm
  rw [← C189_score m hS f hF z _ m1 hzv w, ← C189_score m hS f hF _ y m2 (m2.symm.valid h3) w]
  exact h4 _ hz (m1.valid hzv)

/-! ### cases that meet the hypotheses -/

/-- two states, one feature: weights 2 to 5 are the transition matrix. -/
example : (List.range 6).map (backWeights 2 1 true fun k => k) = [0, 1, 2, 4, 3, 5] ∧
    (List.range 5).map (backWeights 2 1 false fun k => k) = [0, 1, 2, 3, 4] := by decide +kernel

/-- a sequence of three positions. -/
def threeSteps : List (Mat × Labels) := [(⟨3, 1, fun i _ => i + 1⟩, ⟨3, fun i => if i = 0 then 0 else 1⟩)]

theorem threeSteps_fits (directed : Bool) : ChainData ⟨2, 1, directed⟩ threeSteps := by
  intro d hd
  simp only [threeSteps, List.mem_cons, List.not_mem_nil, or_false] at hd
  subst hd
  refine ⟨by decide, rfl, rfl, fun i _ => ?_⟩
  change (if i = 0 then 0 else 1) < 2
  split <;> decide

example (w : ℕ → ℚ) (a : ℚ) := C189_risk {} ⟨2, fun _ => 1⟩ ⟨2, 1, true⟩ (by decide) rfl 1 threeSteps (threeSteps_fits true) w a

example (w : W) := C189_prediction {} ⟨2, fun _ => 1⟩ ⟨2, 1, true⟩ (by decide) w ⟨3, 1, fun i _ => i + 1⟩ (by decide) rfl

/-- both trainings reach any accuracy. -/
example (C ε : ℚ) (hC : 0 < C) (hε : 0 < ε) : ∃ w v : W,
    Trained (graphModel (fun _ => maxProductInfer {}) ⟨2, fun _ => 1⟩ ⟨2, 1, true⟩) (outputsOver ⟨2, 1, true⟩ (chainOutputs 2))
      (chainSamples threeSteps) C ε w ∧
    Trained (graphModel (fun _ => maxProductInfer {}) ⟨2, fun _ => 1⟩ ⟨2, 1, true⟩) (outputsOver ⟨2, 1, true⟩ (chainOutputs 2))
      (chainSamples (backData threeSteps)) C ε v := by
  have hS : 1 ≤ (⟨2, 1, true⟩ : Model).nStates := by decide
  have l := graph_exact (backend := fun _ => maxProductInfer {}) (m := ⟨2, 1, true⟩) (cw := ⟨2, fun _ => 1⟩) hS rfl chain_relaxed true
    (chain_solves {} hS)
  obtain ⟨w, hw⟩ := trained_exists _ _ l (chainSamples threeSteps) (by simp [chainSamples, threeSteps]) rfl
    (graph_labelled (backend := fun _ => maxProductInfer {}) hS rfl (chainData_labelled (threeSteps_fits true))) 1000
    (graph_range (m := ⟨2, 1, true⟩) hS chain_relaxed _ _ (by
      intro s hs
      simp only [chainSamples, threeSteps, List.map_cons, List.map_nil, List.mem_cons, List.not_mem_nil, or_false] at hs
      subst hs
      decide +kernel)) C ε hC hε
  obtain ⟨v, hv⟩ := trained_exists _ _ l (chainSamples (backData threeSteps)) (by simp [chainSamples, threeSteps, backData]) rfl
    (graph_labelled (backend := fun _ => maxProductInfer {}) hS rfl (chainData_labelled (backData_fits (threeSteps_fits true)))) 1000
    (graph_range (m := ⟨2, 1, true⟩) hS chain_relaxed _ _ (by
      intro s hs
      simp only [chainSamples, threeSteps, backData, List.map_cons, List.map_nil, List.mem_cons, List.not_mem_nil, or_false] at hs
      subst hs
      decide +kernel)) C ε hC hε
  exact ⟨w, v, hw, hv⟩

end Verif.Props
