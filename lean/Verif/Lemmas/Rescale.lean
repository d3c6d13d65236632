import Verif.Spec.Rescaled
import Verif.Lemmas.Viterbi
import Verif.Lemmas.TreeBP
import Verif.Lemmas.GraphCRF
import Verif.Props.C84

/-!
# Helper lemmas: message passing with rescaled potentials
-/

namespace Verif.Lemmas

open Finset Verif.Common Verif.MaxProd Verif.Spec

theorem argmaxN_order {α β : Type*} [LinearOrder α] [LinearOrder β] {f : ℕ → α} {g : ℕ → β} {n : ℕ}
    (h : ∀ i < n, ∀ j < n, f i < f j ↔ g i < g j) : argmaxN g n = argmaxN f n := by
  rcases Nat.eq_zero_or_pos n with rfl | hn
  · rfl
  · have hl := argmaxN_lt f hn
    apply argmaxN_eq_of g hl
    · intro j hj
      exact not_lt.mp fun hlt => absurd ((h _ hl j hj).mpr hlt) (not_lt.mpr (le_argmaxN f hj))
    · intro j hj
      exact (h j (hj.trans hl) _ hl).mp (argmaxN_first f hj)

theorem argmaxN_rescaled {a c : ℚ} (ha : 0 < a) {f g : ℕ → ℚ} {n : ℕ} (h : ∀ i < n, g i = a * f i + c) :
    argmaxN g n = argmaxN f n := by
  refine argmaxN_order fun i hi j hj => ?_
  rw [h i hi, h j hj, add_lt_add_iff_right]
  exact (mul_lt_mul_iff_right₀ ha).symm

theorem maxN_rescaled {a c : ℚ} (ha : 0 < a) {f g : ℕ → ℚ} {n : ℕ} (hn : 0 < n) (h : ∀ i < n, g i = a * f i + c) :
    maxN g n = a * maxN f n + c := by
  unfold maxN
  rw [argmaxN_rescaled ha h]
  exact h _ (argmaxN_lt f hn)

theorem argmaxN_coe (f : ℕ → ℚ) (n : ℕ) : argmaxN (fun i => ((f i : ℚ) : WithBot ℚ)) n = argmaxN f n :=
  argmaxN_order fun _ _ _ _ => WithBot.coe_lt_coe.symm

theorem maxN_coe (f : ℕ → ℚ) (n : ℕ) : maxN (fun i => ((f i : ℚ) : WithBot ℚ)) n = ((maxN f n : ℚ) : WithBot ℚ) := by
  unfold maxN
  rw [argmaxN_coe]

/-- constants by which rescaled potentials are shifted. -/
theorem rescaled_shift {n S m : ℕ} {a : ℚ} {U U' : ℕ → ℕ → ℚ} {P P' : ℕ → ℕ → ℕ → ℚ} (h : Rescaled n S m a U U' P P') :
    (∃ c : ℕ → ℚ, ∀ v < n, ∀ s < S, U' v s = a * U v s + c v) ∧
      ∃ d : ℕ → ℚ, ∀ e < m, ∀ s < S, ∀ t < S, P' e s t = a * P e s t + d e := by
  refine ⟨⟨fun v => U' v 0 - a * U v 0, fun v hv s hs => ?_⟩, ⟨fun e => P' e 0 0 - a * P e 0 0, fun e he s hs t ht => ?_⟩⟩
  · have := h.unary v hv s hs 0 (by omega)
    linarith
  · have := h.pairwise e he s hs t ht 0 (by omega) 0 (by omega)
    linarith

section

variable {n S m : ℕ} {a : ℚ} {U U' : ℕ → ℕ → ℚ} {P P' : ℕ → ℕ → ℕ → ℚ}

/-! ### chains -/

/-- the forward recursion on numbers. -/
def rowQ (S : ℕ) (U : ℕ → ℕ → ℚ) (T : ℕ → ℕ → ℕ → ℚ) : ℕ → ℕ → ℚ
  | 0 => U 0
  | i + 1 => fun k => maxN (fun j => rowQ S U T i j + U (i + 1) k + T i j k) S

theorem row_coe (S : ℕ) (U : ℕ → ℕ → ℚ) (T : ℕ → ℕ → ℕ → ℚ) (i : ℕ) : Viterbi.row S
    (fun i s => ((U i s : ℚ) : WithBot ℚ)) (fun e a b => ((T e a b : ℚ) : WithBot ℚ)) i = fun k => ((rowQ S U T i k : ℚ) : WithBot ℚ) := by
  induction i with
  | zero => rfl
  | succ i ih =>
    funext k
    rw [Viterbi.row, ih]
    exact maxN_coe (fun j => rowQ S U T i j + U (i + 1) k + T i j k) S

theorem row_rescaled (hS : 0 < S) (h : Rescaled n S m a U U' P P') (hm : n - 1 ≤ m) (i : ℕ) (hi : i < n) :
    ∃ c, ∀ k < S, rowQ S U' P' i k = a * rowQ S U P i k + c := by
  obtain ⟨⟨c, hc⟩, ⟨d, hd⟩⟩ := rescaled_shift h
  induction i with
  | zero => exact ⟨c 0, fun k hk => hc 0 hi k hk⟩
  | succ i ih =>
    obtain ⟨r, hr⟩ := ih (by omega)
    refine ⟨r + c (i + 1) + d i, fun k hk => ?_⟩
    rw [rowQ, rowQ]
    refine maxN_rescaled h.pos hS fun j hj => ?_
    rw [hr j hj, hc _ hi k hk, hd i (by omega) j hj k hk]
    ring

theorem viterbi_rescaled (h : Rescaled n S m a U U' P P') :
    ∃ r r' : Except PyErr (ℕ → ℕ), Viterbi.viterbi n S m (fun i s => ((U i s : ℚ) : WithBot ℚ))
        (fun e a b => ((P e a b : ℚ) : WithBot ℚ)) = r ∧
      Viterbi.viterbi n S m (fun i s => ((U' i s : ℚ) : WithBot ℚ)) (fun e a b => ((P' e a b : ℚ) : WithBot ℚ)) = r' ∧
      ((∃ err, r = .error err ∧ r' = .error err) ∨ ∃ y y' : ℕ → ℕ, r = .ok y ∧ r' = .ok y' ∧ ∀ i < n, y' i = y i) := by
  refine ⟨_, _, rfl, rfl, ?_⟩
  unfold Viterbi.viterbi
  by_cases hn : n = 0
  · exact Or.inl ⟨.indexError, by rw [if_pos hn], by rw [if_pos hn]⟩
  rw [if_neg hn, if_neg hn]
  by_cases hS : S = 0
  · exact Or.inl ⟨.valueError, by rw [if_pos hS], by rw [if_pos hS]⟩
  rw [if_neg hS, if_neg hS]
  by_cases hm : m < n - 1
  · exact Or.inl ⟨.undefinedRead, by rw [if_pos hm], by rw [if_pos hm]⟩
  rw [if_neg hm, if_neg hm]
  refine Or.inr ⟨_, _, rfl, rfl, ?_⟩
  obtain ⟨l1, a1, b1⟩ := Viterbi.backtrack_lt n S (by omega) (by omega) (fun i s => ((U i s : ℚ) : WithBot ℚ))
    (fun e a b => ((P e a b : ℚ) : WithBot ℚ))
  obtain ⟨l2, a2, b2⟩ := Viterbi.backtrack_lt n S (by omega) (by omega) (fun i s => ((U' i s : ℚ) : WithBot ℚ))
    (fun e a b => ((P' e a b : ℚ) : WithBot ℚ))
  obtain ⟨⟨c, hc⟩, ⟨d, hd⟩⟩ := rescaled_shift h
  generalize Viterbi.backtrack n S (Viterbi.forward n S (fun i s => ((U i s : ℚ) : WithBot ℚ))
    (fun e a b => ((P e a b : ℚ) : WithBot ℚ))) = y at l1 a1 b1 ⊢
  generalize Viterbi.backtrack n S (Viterbi.forward n S (fun i s => ((U' i s : ℚ) : WithBot ℚ))
    (fun e a b => ((P' e a b : ℚ) : WithBot ℚ))) = y' at l2 a2 b2 ⊢
  have key : ∀ k, ∀ i, i + k = n - 1 → y' i = y i := by
    intro k
    induction k with
    | zero =>
      intro i hi
      obtain rfl : i = n - 1 := by omega
      obtain ⟨r, hr⟩ := row_rescaled (by omega) h (by omega) (n - 1) (by omega)
      rw [a1, a2, row_coe, row_coe, argmaxN_coe, argmaxN_coe]
      exact argmaxN_rescaled h.pos hr
    | succ k ih =>
      intro i hi
      have hnext := ih (i + 1) (by omega)
      obtain ⟨r, hr⟩ := row_rescaled (by omega) h (by omega) i (by omega)
      rw [b1 i (by omega), b2 i (by omega), hnext]
      have hk := l1 (i + 1) (by omega)
      unfold Viterbi.bp
      rw [row_coe, row_coe]
      have e1 := argmaxN_coe (fun j => rowQ S U P i j + U (i + 1) (y (i + 1)) + P i j (y (i + 1))) S
      have e2 := argmaxN_coe (fun j => rowQ S U' P' i j + U' (i + 1) (y (i + 1)) + P' i j (y (i + 1))) S
      refine e2.trans (Eq.trans ?_ e1.symm)
      refine argmaxN_rescaled h.pos (c := r + c (i + 1) + d i) fun j hj => ?_
      rw [hr j hj, hc _ (by omega) _ hk, hd i (by omega) j hj _ hk]
      ring
  exact fun i hi => key (n - 1 - i) i (by omega)

/-! ### forests -/

theorem pwForward_rescaled {edges : Edges} {st : St} {d : ℕ → ℚ} (hd : ∀ e < edges.length, ∀ s < S, ∀ t < S, P' e s t = a * P e s t + d e)
    {v q : ℕ} (hv : ViaOk edges st v q) {s t : ℕ} (hs : s < S) (ht : t < S) :
    pwForward P' st v s t = a * pwForward P st v s t + d (st.via v).1 := by
  unfold pwForward
  split
  · exact hd _ hv.1 t ht s hs
  · exact hd _ hv.1 s hs t ht

/-- messages of the one run are `a` times those of the other. -/
def Times (n S : ℕ) (a : ℚ) (B B' : ℕ → ℕ → ℚ) : Prop := ∀ v < n, ∀ s < S, B' v s = a * B v s

theorem upMax_rescaled {edges : Edges} {st : St} (hT : IsTree edges n st) (hS : 0 < S)
    (h : Rescaled n S edges.length a U U' P P') {B B' : ℕ → ℕ → ℚ} (hB : Times n S a B B') {v q : ℕ}
    (hp : st.parents v = some q) : ∃ c, ∀ s < S, upMax S U' P' st B' v s = a * upMax S U P st B v s + c := by
  obtain ⟨⟨c, hc⟩, ⟨d, hd⟩⟩ := rescaled_shift h
  obtain ⟨hv, hq, hvia, _⟩ := hT.par v q hp
  refine ⟨c v + d (st.via v).1, fun s hs => ?_⟩
  unfold upMax
  refine maxN_rescaled h.pos hS fun t ht => ?_
  rw [hB v hv t ht, hc v hv t ht, pwForward_rescaled hd hvia hs ht]
  ring

theorem upStep_rescaled {edges : Edges} {st : St} (hT : IsTree edges n st) (hS : 0 < S)
    (h : Rescaled n S edges.length a U U' P P') {B B' : ℕ → ℕ → ℚ} (hB : Times n S a B B') (v : ℕ) :
    Times n S a (upStep S U P st B v) (upStep S U' P' st B' v) := by
  intro v' hv' s hs
  unfold upStep
  cases hp : st.parents v with
  | none => exact hB v' hv' s hs
  | some q =>
    simp only
    obtain ⟨c, hc⟩ := upMax_rescaled hT hS h hB hp
    rw [maxN_rescaled h.pos hS hc, hc s hs]
    by_cases he : v' = q
    · rw [if_pos he, if_pos he, hB v' hv' s hs]; ring
    · rw [if_neg he, if_neg he, hB v' hv' s hs]

theorem downStep_rescaled {edges : Edges} {st : St} (hT : IsTree edges n st) (hS : 0 < S)
    (h : Rescaled n S edges.length a U U' P P') {B B' F F' : ℕ → ℕ → ℚ} (hB : Times n S a B B') (hF : Times n S a F F')
    (v : ℕ) : Times n S a (downStep S U P st B F v) (downStep S U' P' st B' F' v) := by
  intro v' hv' s hs
  unfold downStep
  cases hp : st.parents v with
  | none => exact hF v' hv' s hs
  | some q =>
    simp only
    obtain ⟨r, hr⟩ := upMax_rescaled hT hS h hB hp
    obtain ⟨⟨c, hc⟩, ⟨d, hd⟩⟩ := rescaled_shift h
    obtain ⟨hv, hq, hvia, _⟩ := hT.par v q hp
    have hmsg : ∀ t < S, maxN (fun s => F' q s + U' q s + pwForward P' st v s t + (B' q s - upMax S U' P' st B' v s)) S =
        a * maxN (fun s => F q s + U q s + pwForward P st v s t + (B q s - upMax S U P st B v s)) S +
          (c q + d (st.via v).1 - r) := by
      intro t ht
      refine maxN_rescaled h.pos hS fun s hs => ?_
      rw [hF q hq s hs, hc q hq s hs, pwForward_rescaled hd hvia hs ht, hB q hq s hs, hr s hs]
      ring
    rw [maxN_rescaled h.pos hS hmsg, hmsg s hs]
    by_cases he : v' = v
    · rw [if_pos he, if_pos he, hF v' hv' s hs]; ring
    · rw [if_neg he, if_neg he, hF v' hv' s hs]

theorem foldl_times {f g : (ℕ → ℕ → ℚ) → ℕ → ℕ → ℕ → ℚ} (hstep : ∀ B B' v, Times n S a B B' → Times n S a (f B v) (g B' v))
    (l : List ℕ) : ∀ B B', Times n S a B B' → Times n S a (l.foldl f B) (l.foldl g B') := by
  induction l with
  | nil => intro B B' h; exact h
  | cons v l ih => intro B B' h; exact ih _ _ (hstep B B' v h)

theorem tree_rescaled (edges : Edges) (h : Rescaled n S edges.length a U U' P P') :
    SameAnswer (treeMaxProduct ⟨n, S, U⟩ P edges) (treeMaxProduct ⟨n, S, U'⟩ P' edges) := by
  unfold treeMaxProduct
  by_cases hE : ∀ e ∈ edges, e.1 < n ∧ e.2 < n
  swap
  · exact Or.inl ⟨.indexError, by rw [if_pos hE], by rw [if_pos hE]⟩
  rw [if_neg (not_not.mpr hE), if_neg (not_not.mpr hE)]
  simp only
  cases hst : explore true edges n with
  | none => exact Or.inl ⟨.valueError, rfl, rfl⟩
  | some st =>
    simp only
    by_cases hS : S = 0
    · exact Or.inl ⟨.valueError, by rw [if_pos hS], by rw [if_pos hS]⟩
    rw [if_neg hS, if_neg hS]
    have hT := explore_tree true hE hst
    have hS' : 0 < S := by omega
    have hz : Times n S a (fun _ _ => 0) (fun _ _ => 0) := fun _ _ _ _ => by ring
    have hB := foldl_times (fun B B' v hB => upStep_rescaled hT hS' h hB v) st.traversal.reverse _ _ hz
    have hF := foldl_times (fun F F' v hF => downStep_rescaled hT hS' h hB hF v) st.traversal _ _ hz
    refine Or.inr ⟨_, _, rfl, rfl, rfl, fun v hv => ?_⟩
    obtain ⟨⟨c, hc⟩, -⟩ := rescaled_shift h
    refine argmaxN_rescaled h.pos (c := c v) fun s hs => ?_
    rw [hc v hv s hs, hF v hv s hs, hB v hv s hs]
    ring

/-! ### loops -/

/-- the states of two runs of loopy message passing. -/
def LoopyRel (n S m : ℕ) (a : ℚ) (st st' : LSt) : Prop :=
  (∀ e < m, ∀ s < S, st'.msg0 e s = a * st.msg0 e s) ∧
    (∃ κ : ℕ → ℚ, ∀ e < m, ∀ s < S, st'.msg1 e s = a * st.msg1 e s + κ e) ∧
    ∃ μ : ℕ → ℚ, ∀ v < n, ∀ s < S, st'.inc v s = a * st.inc v s + μ v

variable {edges : Edges} {damping : ℚ}

theorem half0_rescaled (hE : EdgesIn n edges) (hS : 0 < S) (h : Rescaled n S edges.length a U U' P P') {st st' : LSt}
    (hR : LoopyRel n S edges.length a st st') {e : ℕ} (he : e < edges.length) :
    LoopyRel n S edges.length a (loopyHalf0 S U P edges damping st e) (loopyHalf0 S U' P' edges damping st' e) := by
  obtain ⟨h0, ⟨κ, h1⟩, ⟨μ, h2⟩⟩ := hR
  obtain ⟨⟨c, hc⟩, ⟨d, hd⟩⟩ := rescaled_shift h
  obtain ⟨ha, hb⟩ := hE _ (edge_mem he)
  set p := (edge edges e).1 with hp
  set q := (edge edges e).2 with hq
  have hraw : ∀ t < S, maxN (fun s => st'.inc p s + P' e s t + U' p s - st'.msg1 e s) S =
      a * maxN (fun s => st.inc p s + P e s t + U p s - st.msg1 e s) S + (μ p + d e + c p - κ e) := by
    intro t ht
    refine maxN_rescaled h.pos hS fun s hs => ?_
    rw [h2 p ha s hs, hd e he s hs t ht, hc p ha s hs, h1 e he s hs]
    ring
  have hnew : ∀ t < S, damping * st'.msg0 e t + (1 - damping) *
      (maxN (fun s => st'.inc p s + P' e s t + U' p s - st'.msg1 e s) S -
        maxN (fun t => maxN (fun s => st'.inc p s + P' e s t + U' p s - st'.msg1 e s) S) S) =
      a * (damping * st.msg0 e t + (1 - damping) * (maxN (fun s => st.inc p s + P e s t + U p s - st.msg1 e s) S -
        maxN (fun t => maxN (fun s => st.inc p s + P e s t + U p s - st.msg1 e s) S) S)) := by
    intro t ht
    rw [maxN_rescaled h.pos hS hraw, hraw t ht, h0 e he t ht]
    ring
  refine ⟨fun e' he' s hs => ?_, ⟨κ, h1⟩, ⟨μ, fun v hv s hs => ?_⟩⟩
  · simp only [loopyHalf0]
    by_cases hee : e' = e
    · rw [if_pos hee, if_pos hee]; exact hnew s hs
    · rw [if_neg hee, if_neg hee]; exact h0 e' he' s hs
  · simp only [loopyHalf0]
    by_cases hvq : v = q
    · rw [if_pos hvq, if_pos hvq]
      have := hnew s hs
      rw [← hp]
      rw [this, h0 e he s hs, h2 v hv s hs]
      ring
    · rw [if_neg hvq, if_neg hvq]; exact h2 v hv s hs

theorem half1_rescaled (hE : EdgesIn n edges) (hS : 0 < S) (h : Rescaled n S edges.length a U U' P P') {st st' : LSt}
    (hR : LoopyRel n S edges.length a st st') {e : ℕ} (he : e < edges.length) :
    LoopyRel n S edges.length a (loopyHalf1 S U P edges damping st e) (loopyHalf1 S U' P' edges damping st' e) := by
  obtain ⟨h0, ⟨κ, h1⟩, ⟨μ, h2⟩⟩ := hR
  obtain ⟨⟨c, hc⟩, ⟨d, hd⟩⟩ := rescaled_shift h
  obtain ⟨ha, hb⟩ := hE _ (edge_mem he)
  set p := (edge edges e).1 with hp
  set q := (edge edges e).2 with hq
  have hraw : ∀ s < S, maxN (fun t => st'.inc q t + P' e s t + U' q t - st'.msg0 e t) S =
      a * maxN (fun t => st.inc q t + P e s t + U q t - st.msg0 e t) S + (μ q + d e + c q) := by
    intro s hs
    refine maxN_rescaled h.pos hS fun t ht => ?_
    rw [h2 q hb t ht, hd e he s hs t ht, hc q hb t ht, h0 e he t ht]
    ring
  have hmx : maxN (st'.msg1 e) S = a * maxN (st.msg1 e) S + κ e := maxN_rescaled h.pos hS (h1 e he)
  have hnew : ∀ s < S, damping * st'.msg1 e s + (1 - damping) *
      (maxN (fun t => st'.inc q t + P' e s t + U' q t - st'.msg0 e t) S - maxN (st'.msg1 e) S) =
      a * (damping * st.msg1 e s + (1 - damping) * (maxN (fun t => st.inc q t + P e s t + U q t - st.msg0 e t) S -
        maxN (st.msg1 e) S)) + (damping * κ e + (1 - damping) * (μ q + d e + c q - κ e)) := by
    intro s hs
    rw [hmx, hraw s hs, h1 e he s hs]
    ring
  refine ⟨h0, ⟨fun e' => if e' = e then damping * κ e + (1 - damping) * (μ q + d e + c q - κ e) else κ e', fun e' he' s hs => ?_⟩,
    ⟨fun v => if v = p then μ v + (damping * κ e + (1 - damping) * (μ q + d e + c q - κ e)) - κ e else μ v, fun v hv s hs => ?_⟩⟩
  · simp only [loopyHalf1]
    by_cases hee : e' = e
    · rw [if_pos hee, if_pos hee, if_pos hee]; exact hnew s hs
    · rw [if_neg hee, if_neg hee, if_neg hee]; exact h1 e' he' s hs
  · simp only [loopyHalf1]
    by_cases hvp : v = p
    · rw [if_pos hvp, if_pos hvp, if_pos hvp]
      have := hnew s hs
      rw [← hq]
      rw [this, h1 e he s hs, h2 v hv s hs]
      ring
    · rw [if_neg hvp, if_neg hvp, if_neg hvp]; exact h2 v hv s hs

theorem pass_rescaled (hE : EdgesIn n edges) (hS : 0 < S) (h : Rescaled n S edges.length a U U' P P') {st st' : LSt}
    (hR : LoopyRel n S edges.length a st st') :
    LoopyRel n S edges.length a (loopyPass S U P edges damping st) (loopyPass S U' P' edges damping st') := by
  unfold loopyPass
  have key : ∀ (l : List ℕ), (∀ e ∈ l, e < edges.length) → ∀ s s' : LSt, LoopyRel n S edges.length a s s' →
      LoopyRel n S edges.length a
        (l.foldl (fun st e => loopyHalf1 S U P edges damping (loopyHalf0 S U P edges damping st e) e) s)
        (l.foldl (fun st e => loopyHalf1 S U' P' edges damping (loopyHalf0 S U' P' edges damping st e) e) s') := by
    intro l
    induction l with
    | nil => intro _ s s' hs; exact hs
    | cons e l ih =>
      intro hl s s' hs
      have he := hl e (by simp)
      exact ih (fun e' he' => hl e' (by simp [he'])) _ _ (half1_rescaled hE hS h (half0_rescaled hE hS h hs he) he)
  exact key _ (fun e he => List.mem_range.mp he) _ _ ⟨hR.1, hR.2.1, hR.2.2⟩

theorem iter_rescaled (hE : EdgesIn n edges) (hS : 0 < S) (h : Rescaled n S edges.length a U U' P P') {tol : ℚ}
    (htol : tol ≤ 0) (k : ℕ) : ∀ {st st' : LSt}, LoopyRel n S edges.length a st st' →
    LoopyRel n S edges.length a (loopyIter S U P edges damping tol k st) (loopyIter S U' P' edges damping tol k st') := by
  induction k with
  | zero => intro st st' hR; exact hR
  | succ k ih =>
    intro st st' hR
    simp only [loopyIter]
    rw [if_neg (not_lt.mpr (htol.trans (Props.passDiff_nonneg st))), if_neg (not_lt.mpr (htol.trans (Props.passDiff_nonneg st')))]
    exact ih (pass_rescaled hE hS h hR)

end

end Verif.Lemmas
