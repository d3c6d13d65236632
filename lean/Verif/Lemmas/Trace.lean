import Verif.Model.Common
import Mathlib.Tactic.Ring

/-!
# Loops with early exit

All learners have a loop `for iteration in range(max_iter)` whose body may end the loop.
-/

namespace Verif.Lemmas

open Verif.Common

variable {σ : Type}

/-- A loop over iterations; the flag of a step says whether the loop goes on. -/
def iter (step : ℕ → σ → Except PyErr (σ × Bool)) : ℕ → ℕ → σ → Except PyErr σ
  | 0, _, s => .ok s
  | n + 1, it, s =>
    match step it s with
    | .error err => .error err
    | .ok (s, false) => .ok s
    | .ok (s, true) => iter step n (it + 1) s

/-- A run that ends without exception consists of `K` complete iterations, possibly followed by one that ends the loop; with fewer
iterations allowed, the loop ends in the states in between. -/
theorem iter_trace (step : ℕ → σ → Except PyErr (σ × Bool)) (n it : ℕ) (s s' : σ) (h : iter step n it s = .ok s') :
    ∃ (K : ℕ) (tr : ℕ → σ), tr 0 = s ∧ (∀ i < K, step (it + i) (tr i) = .ok (tr (i + 1), true)) ∧
      (∀ i ≤ K, iter step i it s = .ok (tr i)) ∧
      (K = n ∧ s' = tr K ∨ K < n ∧ step (it + K) (tr K) = .ok (s', false) ∧ iter step (K + 1) it s = .ok s') := by
  induction n generalizing it s with
  | zero =>
    simp only [iter, Except.ok.injEq] at h
    refine ⟨0, fun _ => s, rfl, fun i hi => absurd hi (by omega), fun i hi => ?_, .inl ⟨rfl, h.symm⟩⟩
    rw [Nat.le_zero.mp hi]
    rfl
  | succ n ih =>
    cases hs : step it s with
    | error err =>
      unfold iter at h
      rw [hs] at h
      cases h
    | ok r =>
      obtain ⟨s1, b⟩ := r
      cases b with
      | false =>
        have h1 : ∀ j, iter step (j + 1) it s = .ok s1 := by
          intro j
          unfold iter
          rw [hs]
        rw [h1, Except.ok.injEq] at h
        subst h
        refine ⟨0, fun _ => s, rfl, fun i hi => absurd hi (by omega), fun i hi => ?_, .inr ⟨by omega, hs, h1 0⟩⟩
        rw [Nat.le_zero.mp hi]
        rfl
      | true =>
        have h1 : ∀ j, iter step (j + 1) it s = iter step j (it + 1) s1 := by
          intro j
          conv_lhs => unfold iter
          rw [hs]
        rw [h1] at h
        obtain ⟨K, tr, t0, t1, t2, t3⟩ := ih (it + 1) s1 h
        refine ⟨K + 1, fun i => match i with
          | 0 => s
          | j + 1 => tr j, rfl, ?_, ?_, ?_⟩
        · intro i hi
          cases i with
          | zero =>
            change step (it + 0) s = .ok (tr 0, true)
            rw [t0]
            exact hs
          | succ j =>
            have := t1 j (by omega)
            rw [show it + (j + 1) = it + 1 + j by ring]
            exact this
        · intro i hi
          cases i with
          | zero => rfl
          | succ j => exact (h1 j).trans (t2 j (by omega))
        · rcases t3 with ⟨a, b⟩ | ⟨a, b, c⟩
          · exact .inl ⟨by omega, b⟩
          · refine .inr ⟨by omega, ?_, (h1 _).trans c⟩
            rw [show it + (K + 1) = it + 1 + K by ring]
            exact b

/-- A list that grows in some iterations. -/
theorem grown {α : Type} (c : ℕ → List α) (p : ℕ → Bool) (f : ℕ → α) (K : ℕ)
    (h : ∀ i < K, c (i + 1) = if p i then c i ++ [f i] else c i) :
    c K = c 0 ++ ((List.range K).filter p).map f := by
  induction K with
  | zero => simp
  | succ K ih =>
    rw [h K (by omega), ih fun i hi => h i (by omega), List.range_succ, List.filter_append, List.map_append]
    by_cases hp : p K <;> simp [hp]

end Verif.Lemmas
