import Verif.Model.LatentNode
import Verif.Lemmas.EdgeFeature
import Verif.Props.C13

/-!
# Lemmas on models with latent nodes
-/

namespace Verif.LatentNode

open Finset Verif.Common Verif.GraphCRF Verif.Sym

/-- unary score of node `i` in state `s`. -/
def LU (m : Model) (x : Mat) (w : ℕ → ℚ) (i s : ℕ) : ℚ :=
  ∑ f ∈ range m.nFeatures, x.get i f * w (s * m.nFeatures + f)

theorem checkSizeX_ok {m : Model} {x : X} (h : x.features.cols = m.nFeatures) :
    checkSizeX m x = .ok () := by
  unfold checkSizeX; simp [h]

theorem visibleStop_eq (nv nh : ℕ) : visibleStop (nv + nh) nh = nv := by
  unfold visibleStop; rw [if_pos (by omega)]; omega

theorem forbid_ok {L nv : ℕ} {U : Mat} (hpos : 0 < U.rows * U.cols) :
    ∃ U' M, forbid L nv U = .ok U' ∧ U'.rows = U.rows ∧ U'.cols = U.cols ∧ 1 ≤ M ∧
      (∀ i < U.rows, ∀ s < U.cols, U.get i s ≤ M) ∧
      (∀ i < nv, ∀ s < L, U'.get i s = U.get i s) ∧
      (∀ i, nv ≤ i → ∀ s, L ≤ s → U'.get i s = U.get i s) ∧
      (∀ i < nv, ∀ s, L ≤ s → U'.get i s = -100 * M) ∧
      (∀ i, nv ≤ i → ∀ s < L, U'.get i s = -100 * M) := by
  refine ⟨⟨U.rows, U.cols, fun i s =>
      if i < nv then (if L ≤ s then -100 * max (LatentGraph.matMax U) 1 else U.get i s)
      else if s < L then -100 * max (LatentGraph.matMax U) 1 else U.get i s⟩,
    max (LatentGraph.matMax U) 1, by unfold forbid; rw [if_neg (by omega)], rfl, rfl,
    le_max_right _ _, ?_, ?_, ?_, ?_, ?_⟩
  · intro i hi s hs
    refine le_trans ?_ (le_max_left _ _)
    have := le_maxN (fun k => U.get (k / U.cols) (k % U.cols)) (flat_lt hi hs)
    simp only [flat_div hs, flat_mod hs] at this
    exact this
  · intro i hi s hs
    simp only
    rw [if_pos hi, if_neg (by omega)]
  · intro i hi s hs
    simp only
    rw [if_neg (by omega), if_neg (by omega)]
  · intro i hi s hs
    simp only
    rw [if_pos hi, if_pos hs]
  · intro i hi s hs
    simp only
    rw [if_neg (by omega), if_pos hs]

/-- what the unary potentials of a latent-node model look like. -/
structure UnarySpec (m : Model) (x : Mat) (w : ℕ → ℚ) (nv nh : ℕ) (U : Mat) (M : ℚ) : Prop where
  rows : U.rows = nv + nh
  cols : U.cols = m.nStates
  one_le : 1 ≤ M
  visible : ∀ i < nv, ∀ s < m.nLabels, U.get i s = LU m x w i s
  hidden : ∀ i, nv ≤ i → i < nv + nh → ∀ s, m.nLabels ≤ s → s < m.nStates →
    U.get i s = if m.latentFeatures then LU m x w i s else 0
  visible_le : ∀ i < nv, ∀ s < m.nLabels, U.get i s ≤ M
  hidden_le : ∀ i, nv ≤ i → i < nv + nh → ∀ s, m.nLabels ≤ s → s < m.nStates → U.get i s ≤ M
  forbidden_visible : ∀ i < nv, ∀ s, m.nLabels ≤ s → U.get i s = -100 * M
  forbidden_hidden : ∀ i, nv ≤ i → ∀ s < m.nLabels, U.get i s = -100 * M

theorem unaryCore_ok {m : Model} {x : Mat} {w : ℕ → ℚ} {nv nh : ℕ}
    (hF : x.cols = m.nFeatures) (hr : x.rows = if m.latentFeatures then nv + nh else nv)
    (hn : 0 < nv + nh) (hS : 0 < m.nStates) :
    ∃ U M, unaryCore m x nh ⟨m.nInput, m.nFeatures, fun i j => w (i * m.nFeatures + j)⟩ = .ok U ∧
      UnarySpec m x w nv nh U M := by
  have hL : m.nLabels ≤ m.nStates := by unfold Model.nStates; omega
  unfold unaryCore
  simp only [bind, Except.bind, Mat.mul, Mat.T, hF, if_true]
  by_cases hl : m.latentFeatures
  · simp only [hl, if_true] at hr ⊢
    have hI : m.nInput = m.nStates := by unfold Model.nInput; simp [hl]
    rw [hr, visibleStop_eq]
    obtain ⟨U', M, h0, h1, h2, h3, h4, h5, h6, h7, h8⟩ :=
      forbid_ok (L := m.nLabels) (nv := nv)
        (U := ⟨nv + nh, m.nInput, fun i s => ∑ f ∈ range m.nFeatures,
          x.get i f * w (s * m.nFeatures + f)⟩) (by rw [hI]; exact Nat.mul_pos hn hS)
    refine ⟨U', M, h0, h1, h2.trans hI, h3, ?_, ?_, ?_, ?_, h7, h8⟩
    · intro i hi s hs; exact h5 i hi s hs
    · intro i hi _ s hs _; simp only [hl, if_true]; exact h6 i hi s hs
    · intro i hi s hs; rw [h5 i hi s hs]; exact h4 i (by simp only; omega) s (by simp only; omega)
    · intro i hi hi' s hs hs'; rw [h6 i hi s hs]; exact h4 i hi' s (by simp only; omega)
  · simp only [hl, if_false, Bool.false_eq_true] at hr ⊢
    rw [hr]
    obtain ⟨U', M, h0, h1, h2, h3, h4, h5, h6, h7, h8⟩ :=
      forbid_ok (L := m.nLabels) (nv := nv)
        (U := ⟨nv + nh, m.nStates, fun i s => if i < nv ∧ s < m.nLabels then
          ∑ f ∈ range m.nFeatures, x.get i f * w (s * m.nFeatures + f) else 0⟩)
        (Nat.mul_pos hn hS)
    refine ⟨U', M, h0, h1, h2, h3, ?_, ?_, ?_, ?_, h7, h8⟩
    · intro i hi s hs; rw [h5 i hi s hs]; simp only; rw [if_pos ⟨hi, hs⟩]; rfl
    · intro i hi _ s hs _
      simp only [hl, if_false, Bool.false_eq_true]
      rw [h6 i hi s hs]; simp only
      rw [if_neg (by omega)]
    · intro i hi s hs; rw [h5 i hi s hs]; exact h4 i (by simp only; omega) s (by simp only; omega)
    · intro i hi hi' s hs hs'; rw [h6 i hi s hs]; exact h4 i hi' s hs'

theorem size_ge (m : Model) : m.nInput * m.nFeatures ≤ sizeJointFeature m := by
  unfold sizeJointFeature; omega

theorem unary_ok {m : Model} {x : X} {w : Vec} {nv : ℕ}
    (hF : x.features.cols = m.nFeatures)
    (hr : x.features.rows = if m.latentFeatures then nv + x.nHidden else nv)
    (hn : 0 < nv + x.nHidden) (hS : 0 < m.nStates) (hw : w.size = sizeJointFeature m) :
    ∃ U M, unaryPotentials m x w = .ok U ∧ UnarySpec m x.features w.get nv x.nHidden U M := by
  obtain ⟨U, M, h, hs⟩ := unaryCore_ok (w := w.get) hF hr hn hS
  refine ⟨U, M, ?_, hs⟩
  unfold unaryPotentials
  rw [checkSizeW_ok hw, checkSizeX_ok hF]
  simp only [bind, Except.bind, Vec.slice, Vec.reshape2, Nat.sub_zero, Nat.zero_add, if_true]
  exact h

/-- entries of the pairwise potentials. -/
def LP (m : Model) (w : ℕ → ℚ) (a b : ℕ) : ℚ :=
  symEntry (fun k => w (m.nInput * m.nFeatures + k)) a b

theorem pairwise_ok {m : Model} {x : X} {w : Vec} (hF : x.features.cols = m.nFeatures)
    (hw : w.size = sizeJointFeature m) :
    pairwisePotentials m x w = .ok ⟨m.nStates, m.nStates, LP m w.get⟩ := by
  unfold pairwisePotentials
  rw [checkSizeW_ok hw, checkSizeX_ok hF]
  simp only [bind, Except.bind]
  rw [expandSym_ok _ m.nStates (by
    simp only [Vec.slice, hw, sizeJointFeature, tri]; omega)]
  rfl

/-! ### joint features -/

theorem marginals_ok {S : ℕ} {edges : Edges} {h : Labels} (hv : Spec.Valid h.size S h.get)
    (he : Spec.EdgesIn h.size edges) :
    marginals S edges (.discrete h) =
      .ok (⟨h.size, S, fun i s => if s = h.get i then 1 else 0⟩, ⟨S, S, hotPair edges h.get⟩) :=
  GraphCRF.marginals_discrete (x := ⟨⟨h.size, 0, fun _ _ => 0⟩, edges⟩) rfl hv he

theorem accumulate_ok {U : Mat} {c : ℕ} {x : Mat} (hr : x.rows ≤ U.rows) (hc : c ≤ U.cols) :
    accumulate U c x = .ok ⟨c, x.cols, fun s f => ∑ i ∈ range x.rows, U.get i s * x.get i f⟩ := by
  unfold accumulate Mat.mul Mat.T
  simp only [Nat.min_eq_left hr, Nat.min_eq_left hc, if_true]

/-- the unary part of the inner product. -/
theorem dot_unary (I F : ℕ) (x : Mat) (hF : x.cols = F) (U : ℕ → ℕ → ℚ) (w : ℕ → ℚ) :
    dot (I * F) w (Mat.ravel ⟨I, x.cols, fun s f => ∑ i ∈ range x.rows, U i s * x.get i f⟩).get =
      ∑ i ∈ range x.rows, ∑ s ∈ range I, U i s *
        ∑ f ∈ range F, x.get i f * w (s * F + f) := by
  subst hF
  have := dot_ravel ⟨I, x.cols, fun s f => ∑ i ∈ range x.rows, U i s * x.get i f⟩ w
  simp only [Mat.ravel] at this ⊢
  rw [this]
  rw [sum_comm]
  simp only [mul_sum]
  rw [sum_congr rfl fun s _ => sum_comm, sum_comm]
  apply sum_congr rfl; intro i _
  rw [sum_comm]
  apply sum_congr rfl; intro s _
  apply sum_congr rfl; intro f _
  ring

theorem dot_append_size (a b : Vec) (w : ℕ → ℚ) (n k : ℕ) (ha : a.size = n) (hb : b.size = k) :
    dot (n + k) w (a.append b).get = dot n w a.get + dot k (fun j => w (n + j)) b.get := by
  subst ha hb
  exact dot_append a b w

end Verif.LatentNode
