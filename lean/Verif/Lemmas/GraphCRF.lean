import Verif.Model.GraphCRF
import Verif.Lemmas.Sym
import Verif.Spec.Labelling

namespace Verif.Common

open Finset

theorem foldl_add_range (n : ℕ) (f : ℕ → ℚ) (a : ℚ) :
    (List.range n).foldl (fun acc e => acc + f e) a = a + ∑ e ∈ range n, f e := by
  induction n with
  | zero => simp
  | succ n ih =>
    rw [List.range_succ, List.foldl_append, ih, sum_range_succ]
    simp [add_assoc]

theorem edge_mem {es : Edges} {e : ℕ} (h : e < es.length) : edge es e ∈ es := by
  unfold edge
  rw [List.getD_eq_getElem _ _ h]
  exact List.getElem_mem h

/-- value of `compute_energy` on well-formed input. -/
theorem computeEnergy_ok (U : Mat) (pw : Pairwise) (edges : Edges) (l : Labels) (t : Ten)
    (hp : validateParams U pw edges.length = .ok (U.cols, t)) (hsz : l.size = U.rows)
    (hv : Spec.Valid U.rows U.cols l.get) (he : Spec.EdgesIn U.rows edges) :
    computeEnergy U pw edges l = .ok (Spec.score U.rows edges U.get t.get l.get) := by
  unfold computeEnergy
  rw [hp]
  have h1 : ¬ U.rows < l.size := by omega
  have h2 : ∀ i < l.size, l.get i < U.cols := by rw [hsz]; exact hv
  have h3 : ∀ e ∈ edges, e.1 < l.size ∧ e.2 < l.size := by rw [hsz]; exact he
  simp only
  rw [if_neg h1, if_neg (not_not.mpr h2), if_neg (not_not.mpr h3), foldl_add_range, hsz]
  rfl

end Verif.Common

namespace Verif.GraphCRF

open Finset Verif.Common Verif.Sym

/-- entries of the pairwise potential matrix. -/
def PW (m : Model) (w : ℕ → ℚ) (a b : ℕ) : ℚ :=
  if m.directed then w (m.nStates * m.nFeatures + (a * m.nStates + b))
  else symEntry (fun k => w (m.nStates * m.nFeatures + k)) a b

/-- entries of the unary potential matrix. -/
def UN (m : Model) (x : Mat) (w : ℕ → ℚ) (i s : ℕ) : ℚ :=
  ∑ f ∈ range m.nFeatures, x.get i f * w (s * m.nFeatures + f)

theorem checkSizeW_ok {n : ℕ} {w : Vec} (h : w.size = n) : checkSizeW n w = .ok () := by
  unfold checkSizeW; simp [h]

theorem checkSizeX_ok {m : Model} {x : X} (h : x.features.cols = m.nFeatures) :
    checkSizeX m x = .ok () := by
  unfold checkSizeX; simp [h]

theorem size_ge (m : Model) : m.nStates * m.nFeatures ≤ sizeJointFeature m := by
  unfold sizeJointFeature; split <;> omega

theorem unary_ok {m : Model} {x : X} {w : Vec} (hF : x.features.cols = m.nFeatures)
    (hw : w.size = sizeJointFeature m) :
    unaryPotentials m x w = .ok ⟨x.features.rows, m.nStates, UN m x.features w.get⟩ := by
  unfold unaryPotentials
  rw [checkSizeW_ok hw, checkSizeX_ok hF]
  simp only [bind, Except.bind, Vec.slice, Vec.reshape2, Nat.sub_zero, Mat.mul, Mat.T, hF,
    if_true, Nat.zero_add]
  rfl

theorem pairwise_ok {m : Model} {x : X} {w : Vec} (hF : x.features.cols = m.nFeatures)
    (hw : w.size = sizeJointFeature m) :
    pairwisePotentials m x w = .ok ⟨m.nStates, m.nStates, PW m w.get⟩ := by
  unfold pairwisePotentials
  rw [checkSizeW_ok hw, checkSizeX_ok hF]
  simp only [bind, Except.bind]
  by_cases hd : m.directed
  · have : w.size - m.nStates * m.nFeatures = m.nStates * m.nStates := by
      rw [hw]; unfold sizeJointFeature; rw [if_pos hd, pow_two]; omega
    simp only [hd, if_true, Vec.slice, Vec.reshape2, this]
    unfold PW
    simp only [hd, if_true]
  · have : w.size - m.nStates * m.nFeatures = tri m.nStates := by
      rw [hw]; unfold sizeJointFeature tri; rw [if_neg hd]; omega
    have hd' : m.directed = false := by simpa using hd
    simp only [hd', Bool.false_eq_true, if_false]
    rw [expandSym_ok _ m.nStates (by simp [Vec.slice, this])]
    unfold PW
    simp only [hd', Bool.false_eq_true, if_false, Vec.slice]

theorem oneHot_ok {n S : ℕ} {y : Labels} (hs : y.size = n) (hv : Spec.Valid n S y.get) :
    oneHot n S y = .ok ⟨n, S, fun i s => if s = y.get i then 1 else 0⟩ := by
  unfold oneHot
  rw [if_neg (not_not.mpr hs), if_neg (not_not.mpr (show ∀ i < n, y.get i < S from hv))]

theorem takeRows_ok {a : Mat} {idx : List ℕ} (h : ∀ i ∈ idx, i < a.rows) :
    takeRows a idx = .ok ⟨idx.length, a.cols, fun e s => a.get (idx.getD e 0) s⟩ := by
  unfold takeRows; rw [if_neg (not_not.mpr h)]

theorem getD_map_fst (es : Edges) (e : ℕ) : (es.map Prod.fst).getD e 0 = (edge es e).1 := by
  unfold edge
  rcases lt_or_ge e es.length with h | h
  · rw [List.getD_eq_getElem _ _ (by simpa using h), List.getD_eq_getElem _ _ h, List.getElem_map]
  · rw [List.getD_eq_default _ _ (by simpa using h), List.getD_eq_default _ _ h]

theorem getD_map_snd (es : Edges) (e : ℕ) : (es.map Prod.snd).getD e 0 = (edge es e).2 := by
  unfold edge
  rcases lt_or_ge e es.length with h | h
  · rw [List.getD_eq_getElem _ _ (by simpa using h), List.getD_eq_getElem _ _ h, List.getElem_map]
  · rw [List.getD_eq_default _ _ (by simpa using h), List.getD_eq_default _ _ h]

/-- one-hot pairwise counts. -/
def hotPair (edges : Edges) (y : ℕ → ℕ) (a b : ℕ) : ℚ :=
  ∑ e ∈ range edges.length, (if a = y (edge edges e).1 then 1 else 0) *
    (if b = y (edge edges e).2 then 1 else 0)

theorem marginals_discrete {S : ℕ} {x : X} {y : Labels} (hs : y.size = x.features.rows)
    (hv : Spec.Valid x.features.rows S y.get) (he : Spec.EdgesIn x.features.rows x.edges) :
    marginals S x (.discrete y) =
      .ok (⟨x.features.rows, S, fun i s => if s = y.get i then 1 else 0⟩,
        ⟨S, S, hotPair x.edges y.get⟩) := by
  unfold marginals
  simp only [bind, Except.bind]
  rw [oneHot_ok hs hv]
  simp only
  rw [takeRows_ok (by
    intro i hi
    obtain ⟨e, he', rfl⟩ := List.mem_map.mp hi
    exact (he e he').1)]
  simp only
  rw [takeRows_ok (by
    intro i hi
    obtain ⟨e, he', rfl⟩ := List.mem_map.mp hi
    exact (he e he').2)]
  simp only [Mat.mul, Mat.T, List.length_map, if_true, pure, Except.pure, getD_map_fst,
    getD_map_snd]
  rfl

/-- the joint feature vector assembled from marginals. -/
def psi (m : Model) (x : Mat) (U P : ℕ → ℕ → ℚ) : Vec :=
  (Mat.ravel ⟨m.nStates, m.nFeatures, fun s f => ∑ i ∈ range x.rows, U i s * x.get i f⟩).append
    (if m.directed then (Mat.ravel ⟨m.nStates, m.nStates, P⟩)
     else ⟨tri m.nStates, fun k => mkSym P (triRow k) (triCol k)⟩)

theorem psi_size (m : Model) (x : Mat) (U P : ℕ → ℕ → ℚ) :
    (psi m x U P).size = sizeJointFeature m := by
  unfold psi sizeJointFeature Vec.append Mat.ravel tri
  split <;> simp [pow_two]

theorem jointFeature_of_marginals {m : Model} {x : X} {y : YVal} {U P : ℕ → ℕ → ℚ}
    (hF : x.features.cols = m.nFeatures)
    (hm : marginals m.nStates x y =
      .ok (⟨x.features.rows, m.nStates, U⟩, ⟨m.nStates, m.nStates, P⟩)) :
    jointFeature m x y = .ok (psi m x.features U P) := by
  unfold jointFeature
  rw [checkSizeX_ok hF, hm]
  simp only [bind, Except.bind, Mat.mul, Mat.T, if_true, hF]
  by_cases hd : m.directed
  · simp only [hd, if_true, pure, Except.pure]
    unfold psi
    simp only [hd, if_true]
  · have hd' : m.directed = false := by simpa using hd
    simp only [hd', Bool.false_eq_true, if_false]
    rw [compressSym_ok _ m.nStates rfl rfl]
    simp only [pure, Except.pure]
    unfold psi
    simp only [hd', Bool.false_eq_true, if_false]

theorem dot_psi (m : Model) (x : Mat) (U P : ℕ → ℕ → ℚ) (w : ℕ → ℚ) :
    dot (sizeJointFeature m) w (psi m x U P).get =
      ∑ i ∈ range x.rows, ∑ s ∈ range m.nStates, U i s * UN m x w i s +
      ∑ a ∈ range m.nStates, ∑ b ∈ range m.nStates, PW m w a b * P a b := by
  rw [← psi_size m x U P]
  unfold psi
  rw [dot_append, dot_ravel]
  congr 1
  · simp only
    rw [sum_comm]
    simp only [mul_sum, UN]
    rw [sum_congr rfl fun s _ => sum_comm, sum_comm]
    apply sum_congr rfl; intro i _
    rw [sum_comm]
    apply sum_congr rfl; intro s _
    apply sum_congr rfl; intro f _
    ring
  · unfold PW
    by_cases hd : m.directed
    · simp only [hd, if_true]
      rw [dot_ravel]
      simp only [Mat.ravel]
    · have hd' : m.directed = false := by simpa using hd
      simp only [hd', Bool.false_eq_true, if_false, Mat.ravel]
      rw [dot_compress]

theorem sum_hotPair (S : ℕ) (edges : Edges) (y : ℕ → ℕ) (n : ℕ) (hv : Spec.Valid n S y)
    (he : Spec.EdgesIn n edges) (W : ℕ → ℕ → ℚ) :
    ∑ a ∈ range S, ∑ b ∈ range S, W a b * hotPair edges y a b =
      ∑ e ∈ range edges.length, W (y (edge edges e).1) (y (edge edges e).2) := by
  unfold hotPair
  simp only [mul_sum]
  rw [sum_congr rfl fun a _ => sum_comm, sum_comm]
  apply sum_congr rfl; intro e he'
  have hm := he _ (edge_mem (mem_range.mp he'))
  have h1 := hv _ hm.1
  have h2 := hv _ hm.2
  have : ∀ a, ∑ b ∈ range S, W a b * ((if a = y (edge edges e).1 then 1 else 0) *
      (if b = y (edge edges e).2 then 1 else 0)) =
      W a (y (edge edges e).2) * (if a = y (edge edges e).1 then 1 else 0) := by
    intro a
    rw [← sum_onehot' S _ h2 (fun b => W a b * (if a = y (edge edges e).1 then 1 else 0))]
    apply sum_congr rfl; intro b _; ring
  simp only [this]
  exact sum_onehot' S _ h1 (fun a => W a (y (edge edges e).2))

/-- energy identity on the level of entries. -/
theorem dot_psi_discrete (m : Model) (x : Mat) (edges : Edges) (y : ℕ → ℕ) (w : ℕ → ℚ)
    (hv : Spec.Valid x.rows m.nStates y) (he : Spec.EdgesIn x.rows edges) :
    dot (sizeJointFeature m) w
      (psi m x (fun i s => if s = y i then 1 else 0) (hotPair edges y)).get =
    Spec.score x.rows edges (UN m x w) (fun _ => PW m w) y := by
  rw [dot_psi, sum_hotPair m.nStates edges y x.rows hv he]
  unfold Spec.score
  congr 1
  apply sum_congr rfl; intro i hi
  exact sum_onehot m.nStates _ (hv i (mem_range.mp hi)) _

end Verif.GraphCRF
