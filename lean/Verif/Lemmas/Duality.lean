import Verif.Spec.Duality
import Verif.Props.C29

/-!
# Weak duality
-/

namespace Verif

open Finset Verif.Spec

variable {X Y : Type}

/-- a list sum commutes with a finite sum. -/
theorem list_sum_finset {α : Type} (n : ℕ) (l : List α) (f : ℕ → α → ℚ) :
    ∑ k ∈ range n, (l.map (f k)).sum = (l.map fun a => ∑ k ∈ range n, f k a).sum := by
  induction l with
  | nil => simp
  | cons a l ih => simp only [List.map_cons, List.sum_cons, sum_add_distrib, ih]

theorem list_sum_mul_left {α : Type} (l : List α) (c : ℚ) (f : α → ℚ) :
    (l.map fun a => c * f a).sum = c * (l.map f).sum := by
  induction l with
  | nil => simp
  | cons a l ih => simp only [List.map_cons, List.sum_cons, ih]; ring

theorem list_sum_add {α : Type} (l : List α) (f g : α → ℚ) :
    (l.map fun a => f a + g a).sum = (l.map f).sum + (l.map g).sum := by
  induction l with
  | nil => simp
  | cons a l ih => simp only [List.map_cons, List.sum_cons, ih]; ring

/-- dual points give lower bounds on the hinge loss. -/
theorem mix_le_hinge (P : Problem X Y) {x : X} {y : Y} {a : ℕ → ℚ} {b : ℚ} (h : P.Mix x y a b)
    (w : ℕ → ℚ) {v : ℚ} (hv : P.IsHinge w x y v) : b - dot P.dim w a ≤ v := by
  obtain ⟨cs, h1, h2, h3, h4⟩ := h
  have hle : (cs.map fun c => c.1 * P.violation w x y c.2).sum ≤ (cs.map fun c => c.1 * v).sum := by
    apply Props.list_sum_le
    intro c hc
    exact mul_le_mul_of_nonneg_left (hv.2 ⟨c.2, (h1 c hc).2, rfl⟩) (h1 c hc).1
  have e1 : (cs.map fun c => c.1 * v).sum = v := by
    have : (cs.map fun c : ℚ × Y => c.1 * v) = cs.map fun c => v * c.1 := by
      congr 1; funext c; ring
    rw [this, list_sum_mul_left, h2, mul_one]
  have e2 : (cs.map fun c => c.1 * P.violation w x y c.2).sum = b - dot P.dim w a := by
    have hd : dot P.dim w a =
        (cs.map fun c => c.1 * (P.value w x y y - P.value w x y c.2)).sum := by
      unfold dot
      have : ∀ k ∈ range P.dim, w k * a k =
          (cs.map fun c => w k * (c.1 * (P.feat x y y k - P.feat x c.2 y k))).sum := by
        intro k hk
        rw [h3 k (mem_range.mp hk), list_sum_mul_left]
      rw [sum_congr rfl this, list_sum_finset]
      congr 1
      apply List.map_congr_left
      intro c _
      unfold Problem.value
      rw [← sum_sub_distrib, mul_sum]
      apply sum_congr rfl; intro k _; ring
    rw [hd, h4, sub_eq_add_neg, ← neg_one_mul, ← list_sum_mul_left, ← list_sum_add]
    congr 1
    apply List.map_congr_left
    intro c _
    unfold Problem.violation; ring
  rw [e2, e1] at hle
  exact hle

theorem sum_sq_mul (d : ℕ) (w : ℕ → ℚ) : ∑ k ∈ range d, w k * w k = dot d w w := rfl

/-- **weak duality**: the value of a dual point is at most the regularised risk of any weights. -/
theorem weak_duality (P : Problem X Y) {C : ℚ} (hC : 0 ≤ C) {samples : List (X × Y)} {w : ℕ → ℚ}
    {b : ℚ} (h : P.DualPoint C samples w b) {w' : ℕ → ℚ} {obj : ℚ}
    (ho : P.IsObjective C samples w' obj) : P.dualValue C w b ≤ obj := by
  obtain ⟨blocks, hb, hw, hbs⟩ := h
  obtain ⟨hs, hh, hobj⟩ := ho
  have key : b - (blocks.map fun p => dot P.dim w' p.1).sum ≤ hs.sum := by
    rw [hbs]
    clear hbs hw hobj
    induction hb generalizing hs with
    | nil => cases hh; simp
    | cons hm _ ih =>
      cases hh with
      | cons hv ht =>
        have := ih _ ht
        have h1 := mix_le_hinge P hm w' hv
        simp only [List.map_cons, List.sum_cons]
        linarith
  have hdot : dot P.dim w' w = C * (blocks.map fun p => dot P.dim w' p.1).sum := by
    unfold dot
    rw [← list_sum_finset, mul_sum]
    apply sum_congr rfl
    intro k hk
    rw [hw k (mem_range.mp hk), list_sum_mul_left]; ring
  have hsq : 0 ≤ dot P.dim (fun k => w' k - w k) (fun k => w' k - w k) := dot_self_nonneg _ _
  rw [dot_sub_left, dot_sub_right, dot_sub_right, dot_comm _ w w'] at hsq
  have := mul_le_mul_of_nonneg_left key hC
  unfold Problem.dualValue
  rw [sum_sq_mul]
  rw [sum_sq_mul] at hobj
  rw [hobj]
  rw [mul_sub, ← hdot] at this
  linarith

/-- the true outputs are a dual point with zero weights. -/
theorem mix_true (P : Problem X Y) {x : X} {y : Y} (hy : y ∈ P.outputs x) (h0 : P.loss y y = 0) :
    P.Mix x y (fun _ => 0) 0 :=
  ⟨[(1, y)], by simpa using hy, by simp, by simp, by simp [h0]⟩

/-- a single output is a distribution. -/
theorem mix_single (P : Problem X Y) {x : X} {y ŷ : Y} (hy : ŷ ∈ P.outputs x) :
    P.Mix x y (fun k => P.feat x y y k - P.feat x ŷ y k) (P.loss y ŷ) :=
  ⟨[(1, ŷ)], by simpa using hy, by simp, by simp, by simp⟩

/-- distributions can be mixed. -/
theorem mix_convex {P : Problem X Y} {x : X} {y : Y} {a a' : ℕ → ℚ} {b b' : ℚ}
    (h : P.Mix x y a b) (h' : P.Mix x y a' b') {γ : ℚ} (h0 : 0 ≤ γ) (h1 : γ ≤ 1) :
    P.Mix x y (fun k => (1 - γ) * a k + γ * a' k) ((1 - γ) * b + γ * b') := by
  obtain ⟨cs, c1, c2, c3, c4⟩ := h
  obtain ⟨ds, d1, d2, d3, d4⟩ := h'
  have smap : ∀ (γ : ℚ) (cs : List (ℚ × Y)) (f : Y → ℚ),
      ((cs.map fun c => (γ * c.1, c.2)).map fun c => c.1 * f c.2).sum =
        γ * (cs.map fun c => c.1 * f c.2).sum := by
    intro γ cs f
    rw [List.map_map, ← list_sum_mul_left]
    congr 1
    apply List.map_congr_left
    intro c _
    simp only [Function.comp]
    ring
  refine ⟨cs.map (fun c => ((1 - γ) * c.1, c.2)) ++ ds.map (fun c => (γ * c.1, c.2)), ?_, ?_, ?_, ?_⟩
  · intro c hc
    rcases List.mem_append.mp hc with hc | hc
    · obtain ⟨c', hc', rfl⟩ := List.mem_map.mp hc
      exact ⟨mul_nonneg (by linarith) (c1 c' hc').1, (c1 c' hc').2⟩
    · obtain ⟨c', hc', rfl⟩ := List.mem_map.mp hc
      exact ⟨mul_nonneg h0 (d1 c' hc').1, (d1 c' hc').2⟩
  · rw [List.map_append, List.sum_append]
    have e1 := smap (1 - γ) cs (fun _ => 1)
    have e2 := smap γ ds (fun _ => 1)
    simp only [mul_one] at e1 e2
    have e1' : ((cs.map fun c => ((1 - γ) * c.1, c.2)).map Prod.fst).sum =
        (1 - γ) * (cs.map Prod.fst).sum := e1
    have e2' : ((ds.map fun c => (γ * c.1, c.2)).map Prod.fst).sum = γ * (ds.map Prod.fst).sum := e2
    rw [e1', e2', c2, d2]; ring
  · intro k hk
    rw [List.map_append, List.sum_append, smap _ _ (fun ŷ => P.feat x y y k - P.feat x ŷ y k),
      smap _ _ (fun ŷ => P.feat x y y k - P.feat x ŷ y k), ← c3 k hk, ← d3 k hk]
  · rw [List.map_append, List.sum_append, smap _ _ (P.loss y), smap _ _ (P.loss y), ← c4, ← d4]

/-- dual points can be mixed. -/
theorem dualPoint_convex {P : Problem X Y} {C : ℚ} {samples : List (X × Y)}
    {w w' : ℕ → ℚ} {b b' : ℚ} (h : P.DualPoint C samples w b) (h' : P.DualPoint C samples w' b')
    {γ : ℚ} (h0 : 0 ≤ γ) (h1 : γ ≤ 1) :
    P.DualPoint C samples (fun k => (1 - γ) * w k + γ * w' k) ((1 - γ) * b + γ * b') := by
  obtain ⟨bs, b1, b2, b3⟩ := h
  obtain ⟨ds, d1, d2, d3⟩ := h'
  have : ∃ es : List ((ℕ → ℚ) × ℚ),
      List.Forall₂ (fun s p => P.Mix s.1 s.2 p.1 p.2) samples es ∧
      (∀ k, (es.map fun p => p.1 k).sum =
        (1 - γ) * (bs.map fun p => p.1 k).sum + γ * (ds.map fun p => p.1 k).sum) ∧
      (es.map Prod.snd).sum = (1 - γ) * (bs.map Prod.snd).sum + γ * (ds.map Prod.snd).sum := by
    clear b2 b3 d2 d3
    induction b1 generalizing ds with
    | nil => cases d1; exact ⟨[], List.Forall₂.nil, by simp, by simp⟩
    | @cons s p _ _ hm _ ih =>
      cases d1 with
      | @cons _ q _ _ hv ht =>
        obtain ⟨es, e1, e2, e3⟩ := ih _ ht
        refine ⟨(fun k => (1 - γ) * p.1 k + γ * q.1 k, (1 - γ) * p.2 + γ * q.2) :: es,
          List.Forall₂.cons (mix_convex hm hv h0 h1) e1, ?_, ?_⟩
        · intro k
          simp only [List.map_cons, List.sum_cons, e2 k]; ring
        · simp only [List.map_cons, List.sum_cons, e3]; ring
  obtain ⟨es, e1, e2, e3⟩ := this
  refine ⟨es, e1, ?_, ?_⟩
  · intro k hk
    simp only
    rw [e2 k, b2 k hk, d2 k hk]; ring
  · rw [e3, b3, d3]

/-- the regularised risk is determined by the weights. -/
theorem isObjective_unique {P : Problem X Y} {C : ℚ} {samples : List (X × Y)} {w : ℕ → ℚ} {a b : ℚ}
    (ha : P.IsObjective C samples w a) (hb : P.IsObjective C samples w b) : a = b := by
  obtain ⟨hs1, f1, e1⟩ := ha
  obtain ⟨hs2, f2, e2⟩ := hb
  have : hs1 = hs2 := by
    clear e1 e2
    induction f1 generalizing hs2 with
    | nil => cases f2; rfl
    | cons a _ ih =>
      cases f2 with
      | cons b t => exact congrArg₂ _ (a.unique b) (ih _ t)
  rw [e1, e2, this]

/-- the true outputs form a dual point. -/
theorem dualPoint_true (P : Problem X Y) (C : ℚ) (samples : List (X × Y)) (h : P.Labelled samples) :
    P.DualPoint C samples (fun _ => 0) 0 := by
  refine ⟨samples.map fun _ => (fun _ => 0, 0), ?_, ?_, ?_⟩
  · induction samples with
    | nil => exact List.Forall₂.nil
    | cons s l ih =>
      rw [List.map_cons]
      refine List.Forall₂.cons ?_ (ih fun t ht => h t (by simp [ht]))
      obtain ⟨h1, h2⟩ := h s (by simp)
      exact mix_true P h1 h2
  · intro k _; simp
  · simp

end Verif
