import Verif.Model.Viterbi
import Verif.Spec.Labelling

/-!
# Helper lemmas for Viterbi
-/

namespace Verif.Viterbi

open Finset Verif.Spec

/-- functional version of the forward recursion: value of row `i`. -/
def row (S : ℕ) (U : ℕ → ℕ → WithBot ℚ) (T : ℕ → ℕ → ℕ → WithBot ℚ) : ℕ → ℕ → WithBot ℚ
  | 0 => U 0
  | i + 1 => fun k => maxN (fun j => row S U T i j + U (i + 1) k + T i j k) S

/-- functional version of the back pointers. -/
def bp (S : ℕ) (U : ℕ → ℕ → WithBot ℚ) (T : ℕ → ℕ → ℕ → WithBot ℚ) (i k : ℕ) : ℕ :=
  argmaxN (fun j => row S U T i j + U (i + 1) k + T i j k) S

theorem fold_best (f : ℕ → WithBot ℚ) (S : ℕ) (hS : 0 < S) :
    (List.range S).foldl (fun acc j => if acc.2 < f j then (j, f j) else acc) ((0 : ℕ), ⊥)
      = (argmaxN f S, maxN f S) := by
  induction S with
  | zero => exact absurd hS (lt_irrefl 0)
  | succ S ih =>
    rw [List.range_succ, List.foldl_append, List.foldl_cons, List.foldl_nil]
    rcases Nat.eq_zero_or_pos S with rfl | hS'
    · have e : argmaxN f (0 + 1) = 0 := by simp [argmaxN]
      rw [maxN, e]
      change (if (⊥ : WithBot ℚ) < f 0 then ((0 : ℕ), f 0) else (0, ⊥)) = (0, f 0)
      by_cases h : ⊥ < f 0
      · rw [if_pos h]
      · rw [if_neg h]
        rw [not_lt, le_bot_iff] at h
        rw [h]
    · rw [ih hS']
      simp only [maxN, argmaxN]
      by_cases h : f (argmaxN f S) < f S <;> simp [h]

theorem bestPrev_eq (S : ℕ) (hS : 0 < S) (score : ℕ → ℕ → WithBot ℚ)
    (T : ℕ → ℕ → ℕ → WithBot ℚ) (i k : ℕ) :
    bestPrev S score T i k =
      (argmaxN (fun j => score (i - 1) j + score i k + T (i - 1) j k) S,
       maxN (fun j => score (i - 1) j + score i k + T (i - 1) j k) S) :=
  fold_best _ S hS

/-- state invariant inside the row loop: cells below `k` are updated. -/
theorem stepRow_prefix (S : ℕ) (T : ℕ → ℕ → ℕ → WithBot ℚ) (st : State) (i : ℕ) (hi : 0 < i)
    (m : ℕ) :
    (List.range m).foldl (stepCell S T i) st =
      { score := fun i' k' => if i' = i ∧ k' < m then (bestPrev S st.score T i k').2
          else st.score i' k',
        backp := fun i' k' => if i' = i ∧ k' < m then (bestPrev S st.score T i k').1
          else st.backp i' k' } := by
  induction m with
  | zero => simp
  | succ m ih =>
    rw [List.range_succ, List.foldl_append, List.foldl_cons, List.foldl_nil, ih]
    have key : bestPrev S
        (fun i' k' => if i' = i ∧ k' < m then (bestPrev S st.score T i k').2 else st.score i' k')
        T i m = bestPrev S st.score T i m := by
      unfold bestPrev
      have h1 : ¬ (i - 1 = i) := by omega
      simp only [h1, false_and, if_false, lt_self_iff_false, and_false]
    unfold stepCell
    rw [key]
    simp only [State.mk.injEq]
    constructor
    · funext i' k'
      simp only [upd2]
      by_cases h1 : i' = i
      · subst h1
        by_cases h2 : k' = m
        · subst h2; simp
        · have : k' < m + 1 ↔ k' < m := by omega
          simp [h2, this]
      · simp [h1]
    · funext i' k'
      simp only [upd2]
      by_cases h1 : i' = i
      · subst h1
        by_cases h2 : k' = m
        · subst h2; simp
        · have : k' < m + 1 ↔ k' < m := by omega
          simp [h2, this]
      · simp [h1]

theorem forward_prefix (S : ℕ) (hS : 0 < S) (U : ℕ → ℕ → WithBot ℚ)
    (T : ℕ → ℕ → ℕ → WithBot ℚ) (m : ℕ) :
    let st := ((List.range m).map (· + 1)).foldl (stepRow S T) ⟨U, fun _ _ => 0⟩
    (∀ i ≤ m, ∀ k < S, st.score i k = row S U T i k) ∧
    (∀ i > m, ∀ k, st.score i k = U i k) ∧
    (∀ i < m, ∀ k < S, st.backp (i + 1) k = bp S U T i k) := by
  induction m with
  | zero =>
    refine ⟨?_, ?_, ?_⟩
    · intro i hi k _
      obtain rfl : i = 0 := by omega
      rfl
    · intro i _ k; rfl
    · intro i hi; omega
  | succ m ih =>
    simp only at ih ⊢
    rw [List.range_succ, List.map_append, List.foldl_append, List.map_cons, List.map_nil,
      List.foldl_cons, List.foldl_nil]
    set st := ((List.range m).map (· + 1)).foldl (stepRow S T) ⟨U, fun _ _ => 0⟩ with hst
    obtain ⟨ih1, ih2, ih3⟩ := ih
    unfold stepRow
    rw [stepRow_prefix S T st (m + 1) (Nat.succ_pos m) S]
    have hb : ∀ k < S, bestPrev S st.score T (m + 1) k = (bp S U T m k, row S U T (m + 1) k) := by
      intro k hk
      rw [bestPrev_eq S hS]
      have hc : ∀ j < S, st.score (m + 1 - 1) j + st.score (m + 1) k + T (m + 1 - 1) j k
          = row S U T m j + U (m + 1) k + T m j k := by
        intro j hj
        rw [Nat.add_sub_cancel, ih1 m le_rfl j hj, ih2 (m + 1) (by omega) k]
      rw [argmaxN_congr hc, maxN_congr hS hc]
      rfl
    refine ⟨?_, ?_, ?_⟩
    · intro i hi k hk
      by_cases h : i = m + 1
      · subst h
        simp only [hk, and_self, if_true]
        rw [hb k hk]
      · simp only [h, false_and, if_false]
        exact ih1 i (by omega) k hk
    · intro i hi k
      have : i ≠ m + 1 := by omega
      simp only [this, false_and, if_false]
      exact ih2 i (by omega) k
    · intro i hi k hk
      by_cases h : i + 1 = m + 1
      · obtain rfl : i = m := by omega
        simp only [hk, and_self, if_true]
        rw [hb k hk]
      · simp only [h, false_and, if_false]
        exact ih3 i (by omega) k hk

/-- score of the prefix `0 … i`. -/
def prefixScore (U : ℕ → ℕ → WithBot ℚ) (T : ℕ → ℕ → ℕ → WithBot ℚ) (y : ℕ → ℕ) :
    ℕ → WithBot ℚ
  | 0 => U 0 (y 0)
  | i + 1 => prefixScore U T y i + U (i + 1) (y (i + 1)) + T i (y i) (y (i + 1))

theorem chainScore_eq_prefix (U : ℕ → ℕ → WithBot ℚ) (T : ℕ → ℕ → ℕ → WithBot ℚ) (y : ℕ → ℕ)
    (m : ℕ) : chainScore (m + 1) U T y = prefixScore U T y m := by
  induction m with
  | zero => simp [chainScore, prefixScore]
  | succ m ih =>
    rw [prefixScore, ← ih]
    unfold chainScore
    rw [sum_range_succ _ (m + 1)]
    have e1 : m + 1 + 1 - 1 = m + 1 := by omega
    have e2 : m + 1 - 1 = m := by omega
    rw [e1, e2, sum_range_succ (fun i => T i (y i) (y (i + 1))) m]
    abel

theorem prefix_le_row (S : ℕ) (U : ℕ → ℕ → WithBot ℚ) (T : ℕ → ℕ → ℕ → WithBot ℚ) (y : ℕ → ℕ)
    (m : ℕ) (hy : ∀ i ≤ m, y i < S) : prefixScore U T y m ≤ row S U T m (y m) := by
  induction m with
  | zero => exact le_rfl
  | succ m ih =>
    have h := ih fun i hi => hy i (by omega)
    rw [prefixScore, row]
    refine le_trans ?_ (le_maxN (fun j => row S U T m j + U (m + 1) (y (m + 1)) +
      T m j (y (m + 1))) (hy m (by omega)))
    gcongr

theorem prefix_eq_row (S : ℕ) (U : ℕ → ℕ → WithBot ℚ) (T : ℕ → ℕ → ℕ → WithBot ℚ)
    (y : ℕ → ℕ) (m : ℕ) (hy : ∀ i < m, y i = bp S U T i (y (i + 1))) :
    prefixScore U T y m = row S U T m (y m) := by
  induction m with
  | zero => rfl
  | succ m ih =>
    rw [prefixScore, ih fun i hi => hy i (by omega), row]
    unfold maxN
    have h := hy m (by omega)
    unfold bp at h
    simp only
    rw [← h]

/-- the backtracking loop: entries from `n-1-m` on. -/
theorem backtrack_spec (n S : ℕ) (st : State) :
    backtrack n S st (n - 1) = argmaxN (st.score (n - 1)) S ∧
    ∀ i < n - 1, backtrack n S st i = st.backp (i + 1) (backtrack n S st (i + 1)) := by
  unfold backtrack
  generalize hinit : (fun i' => if i' = n - 1 then argmaxN (st.score (n - 1)) S else 0) = init
  have h0 : init (n - 1) = argmaxN (st.score (n - 1)) S := by rw [← hinit]; simp
  rw [← h0]
  clear hinit h0
  generalize n - 1 = m
  induction m generalizing init with
  | zero => exact ⟨rfl, by intro i hi; omega⟩
  | succ m ih =>
    rw [List.range_succ, List.reverse_append, List.reverse_singleton, List.singleton_append,
      List.foldl_cons]
    set init' := (fun i' => if i' = m then st.backp (m + 1) (init (m + 1)) else init i') with hi'
    obtain ⟨h1, h2⟩ := ih init'
    -- entries above m are never touched again
    have hkeep : ∀ (l : List ℕ) (p : ℕ → ℕ) (q : ℕ), (∀ a ∈ l, a ≠ q) →
        (l.foldl (fun path i => fun i' => if i' = i then st.backp (i + 1) (path (i + 1))
          else path i') p) q = p q := by
      intro l
      induction l with
      | nil => intro p q _; rfl
      | cons a l ihl =>
        intro p q hq
        rw [List.foldl_cons, ihl _ _ fun b hb => hq b (List.mem_cons_of_mem a hb)]
        have : q ≠ a := fun h => hq a List.mem_cons_self h.symm
        simp [this]
    have hk : ((List.range m).reverse.foldl (fun path i => fun i' =>
        if i' = i then st.backp (i + 1) (path (i + 1)) else path i') init') (m + 1)
        = init (m + 1) := by
      rw [hkeep]
      · simp [hi']
      · intro a ha
        rw [List.mem_reverse, List.mem_range] at ha
        omega
    refine ⟨hk, ?_⟩
    intro i hi
    by_cases him : i = m
    · subst him
      rw [hk, h1, hi']
      simp
    · exact h2 i (by omega)

theorem backtrack_lt (n S : ℕ) (hn : 0 < n) (hS : 0 < S) (U : ℕ → ℕ → WithBot ℚ)
    (T : ℕ → ℕ → ℕ → WithBot ℚ) :
    let y := backtrack n S (forward n S U T)
    (∀ i < n, y i < S) ∧ y (n - 1) = argmaxN (row S U T (n - 1)) S ∧
      ∀ i < n - 1, y i = bp S U T i (y (i + 1)) := by
  simp only
  obtain ⟨f1, _, f3⟩ := forward_prefix S hS U T (n - 1)
  change (∀ i ≤ n - 1, ∀ k < S, (forward n S U T).score i k = row S U T i k) at f1
  change (∀ i < n - 1, ∀ k < S, (forward n S U T).backp (i + 1) k = bp S U T i k) at f3
  obtain ⟨b1, b2⟩ := backtrack_spec n S (forward n S U T)
  set y := backtrack n S (forward n S U T) with hy
  have hlast : y (n - 1) = argmaxN (row S U T (n - 1)) S := by
    rw [b1]; exact argmaxN_congr fun k hk => f1 (n - 1) le_rfl k hk
  have hval : ∀ d, ∀ i, i + d = n - 1 → y i < S := by
    intro d
    induction d with
    | zero => intro i hi; obtain rfl : i = n - 1 := by omega
              rw [hlast]; exact argmaxN_lt _ hS
    | succ d ih =>
      intro i hi
      have h1 := ih (i + 1) (by omega)
      rw [b2 i (by omega), f3 i (by omega) _ h1]
      exact argmaxN_lt _ hS
  refine ⟨fun i hi => hval (n - 1 - i) i (by omega), hlast, ?_⟩
  intro i hi
  have h1 := hval (n - 1 - (i + 1)) (i + 1) (by omega)
  rw [b2 i hi, f3 i hi _ h1]

end Verif.Viterbi
