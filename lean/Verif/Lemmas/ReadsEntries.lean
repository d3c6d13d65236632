import Verif.Model.Dispatch
import Verif.Lemmas.Rescale
import Verif.Spec.Reordered

/-!
# Max-product looks at nothing but the entries of the arrays
-/

namespace Verif.Lemmas

open Finset Verif.MaxProd Verif.Common Verif.Spec

/-- two families of rows that agree on the first `S` entries. -/
def AgreeRows (S : ℕ) {α : Type} (A A' : ℕ → ℕ → α) : Prop := ∀ v, ∀ s < S, A' v s = A v s

/-- the same for families of matrices. -/
def AgreeMats (S : ℕ) {α : Type} (P P' : ℕ → ℕ → ℕ → α) : Prop := ∀ e, ∀ a < S, ∀ b < S, P' e a b = P e a b

theorem foldl_invariant {α β : Type} {R : β → β → Prop} {g g' : β → α → β} (hg : ∀ b b' a, R b b' → R (g b a) (g' b' a)) (l : List α) :
    ∀ b b', R b b' → R (l.foldl g b) (l.foldl g' b') := by
  induction l with
  | nil => exact fun _ _ h => h
  | cons a r ih => exact fun b b' h => ih _ _ (hg b b' a h)

variable {S : ℕ} {U U' : ℕ → ℕ → ℚ} {P P' : ℕ → ℕ → ℕ → ℚ}

theorem maxN_agree [NeZero S] {f g : ℕ → ℚ} (h : ∀ s < S, f s = g s) : maxN f S = maxN g S := maxN_congr (Nat.pos_of_neZero S) h

theorem pwForward_agree (hP : AgreeMats S P P') (st : St) (v : ℕ) {a b : ℕ} (ha : a < S) (hb : b < S) :
    pwForward P' st v a b = pwForward P st v a b := by
  unfold pwForward
  rw [hP _ _ hb _ ha, hP _ _ ha _ hb]

theorem upMax_agree [NeZero S] (hU : AgreeRows S U U') (hP : AgreeMats S P P') (st : St) {B B' : ℕ → ℕ → ℚ} (hB : AgreeRows S B B') (v : ℕ) {s : ℕ}
    (hs : s < S) : upMax S U' P' st B' v s = upMax S U P st B v s := by
  unfold upMax
  exact maxN_agree fun t ht => by rw [hB v t ht, hU v t ht, pwForward_agree hP st v hs ht]

theorem upStep_agree [NeZero S] (hU : AgreeRows S U U') (hP : AgreeMats S P P') (st : St) (B B' : ℕ → ℕ → ℚ) (v : ℕ) (hB : AgreeRows S B B') :
    AgreeRows S (upStep S U P st B v) (upStep S U' P' st B' v) := by
  unfold upStep
  cases st.parents v with
  | none => exact hB
  | some p =>
    intro v' s hs
    simp only
    rw [maxN_agree fun t ht => upMax_agree hU hP st hB v ht, upMax_agree hU hP st hB v hs, hB v' s hs]

theorem downStep_agree [NeZero S] (hU : AgreeRows S U U') (hP : AgreeMats S P P') (st : St) {B B' : ℕ → ℕ → ℚ} (hB : AgreeRows S B B')
    (F F' : ℕ → ℕ → ℚ) (v : ℕ) (hF : AgreeRows S F F') : AgreeRows S (downStep S U P st B F v) (downStep S U' P' st B' F' v) := by
  unfold downStep
  cases st.parents v with
  | none => exact hF
  | some p =>
    intro v' t ht
    simp only
    have e : ∀ t < S, maxN (fun s => F' p s + U' p s + pwForward P' st v s t + (B' p s - upMax S U' P' st B' v s)) S =
        maxN (fun s => F p s + U p s + pwForward P st v s t + (B p s - upMax S U P st B v s)) S := fun t ht =>
      maxN_agree fun s hs => by rw [hF p s hs, hU p s hs, pwForward_agree hP st v hs ht, hB p s hs, upMax_agree hU hP st hB v hs]
    rw [maxN_agree e, e t ht, hF v' t ht]

theorem treeMaxProduct_agree {n : ℕ} (hU : AgreeRows S U U') (hP : AgreeMats S P P') (edges : Edges) :
    treeMaxProduct ⟨n, S, U'⟩ P' edges = treeMaxProduct ⟨n, S, U⟩ P edges := by
  unfold treeMaxProduct
  simp only
  by_cases h1 : ¬ ∀ e ∈ edges, e.1 < n ∧ e.2 < n
  · rw [if_pos h1, if_pos h1]
  rw [if_neg h1, if_neg h1]
  cases explore true edges n with
  | none => rfl
  | some st =>
    simp only
    by_cases h2 : S = 0
    · rw [if_pos h2, if_pos h2]
    rw [if_neg h2, if_neg h2]
    have : NeZero S := ⟨h2⟩
    have hB := foldl_invariant (R := AgreeRows S) (fun b b' a h => upStep_agree hU hP st b b' a h) st.traversal.reverse
      (fun _ _ => 0) (fun _ _ => 0) fun _ _ _ => rfl
    have hF := foldl_invariant (R := AgreeRows S) (fun b b' a h => downStep_agree hU hP st hB b b' a h) st.traversal
      (fun _ _ => 0) (fun _ _ => 0) fun _ _ _ => rfl
    congr 2
    exact funext fun v => argmaxN_congr fun s hs => by rw [hU v s hs, hF v s hs, hB v s hs]

/-- the states of loopy message passing agree. -/
def AgreeLoopy (S : ℕ) (a b : LSt) : Prop :=
  AgreeRows S a.msg0 b.msg0 ∧ AgreeRows S a.msg1 b.msg1 ∧ AgreeRows S a.inc b.inc ∧ b.diff = a.diff

theorem loopyHalf0_agree [NeZero S] (hU : AgreeRows S U U') (hP : AgreeMats S P P') (edges : Edges) (damping : ℚ) (st st' : LSt) (e : ℕ)
    (h : AgreeLoopy S st st') : AgreeLoopy S (loopyHalf0 S U P edges damping st e) (loopyHalf0 S U' P' edges damping st' e) := by
  obtain ⟨h0, h1, h2, h3⟩ := h
  have hr : ∀ t < S, maxN (fun s => st'.inc (edge edges e).1 s + P' e s t + U' (edge edges e).1 s - st'.msg1 e s) S =
      maxN (fun s => st.inc (edge edges e).1 s + P e s t + U (edge edges e).1 s - st.msg1 e s) S := fun t ht =>
    maxN_agree fun s hs => by rw [h2 _ s hs, hP e s hs t ht, hU _ s hs, h1 e s hs]
  unfold loopyHalf0
  refine ⟨fun v s hs => ?_, h1, fun v s hs => ?_, ?_⟩
  · simp only
    rw [maxN_agree hr, hr s hs, h0 e s hs, h0 v s hs]
  · simp only
    rw [maxN_agree hr, hr s hs, h0 e s hs, h2 v s hs]
  · simp only
    rw [h3]
    congr 1
    exact sum_congr rfl fun t ht => by rw [maxN_agree hr, hr t (mem_range.mp ht), h0 e t (mem_range.mp ht)]

theorem loopyHalf1_agree [NeZero S] (hU : AgreeRows S U U') (hP : AgreeMats S P P') (edges : Edges) (damping : ℚ) (st st' : LSt) (e : ℕ)
    (h : AgreeLoopy S st st') : AgreeLoopy S (loopyHalf1 S U P edges damping st e) (loopyHalf1 S U' P' edges damping st' e) := by
  obtain ⟨h0, h1, h2, h3⟩ := h
  have hr : ∀ s < S, maxN (fun t => st'.inc (edge edges e).2 t + P' e s t + U' (edge edges e).2 t - st'.msg0 e t) S =
      maxN (fun t => st.inc (edge edges e).2 t + P e s t + U (edge edges e).2 t - st.msg0 e t) S := fun s hs =>
    maxN_agree fun t ht => by rw [h2 _ t ht, hP e s hs t ht, hU _ t ht, h0 e t ht]
  have hm : maxN (st'.msg1 e) S = maxN (st.msg1 e) S := maxN_agree fun s hs => h1 e s hs
  unfold loopyHalf1
  refine ⟨h0, fun v s hs => ?_, fun v s hs => ?_, ?_⟩
  · simp only
    rw [hm, hr s hs, h1 e s hs, h1 v s hs]
  · simp only
    rw [hm, hr s hs, h1 e s hs, h2 v s hs]
  · simp only
    rw [h3]
    congr 1
    exact sum_congr rfl fun t ht => by rw [hm, hr t (mem_range.mp ht), h1 e t (mem_range.mp ht)]

theorem loopyPass_agree [NeZero S] (hU : AgreeRows S U U') (hP : AgreeMats S P P') (edges : Edges) (damping : ℚ) (st st' : LSt)
    (h : AgreeLoopy S st st') : AgreeLoopy S (loopyPass S U P edges damping st) (loopyPass S U' P' edges damping st') := by
  unfold loopyPass
  exact foldl_invariant (R := AgreeLoopy S) (fun b b' a hb => loopyHalf1_agree hU hP edges damping _ _ a
    (loopyHalf0_agree hU hP edges damping b b' a hb)) _ _ _ ⟨h.1, h.2.1, h.2.2.1, rfl⟩

theorem loopyIter_agree [NeZero S] (hU : AgreeRows S U U') (hP : AgreeMats S P P') (edges : Edges) (damping tol : ℚ) (k : ℕ) :
    ∀ st st', AgreeLoopy S st st' → AgreeLoopy S (loopyIter S U P edges damping tol k st) (loopyIter S U' P' edges damping tol k st') := by
  induction k with
  | zero => exact fun _ _ h => h
  | succ k ih =>
    intro st st' h
    have hp := loopyPass_agree hU hP edges damping st st' h
    unfold loopyIter
    simp only
    rw [hp.2.2.2]
    by_cases hd : (loopyPass S U P edges damping st).diff < tol
    · rw [if_pos hd, if_pos hd]; exact hp
    · rw [if_neg hd, if_neg hd]; exact ih _ _ hp

theorem iterativeMaxProduct_agree {n : ℕ} (hU : AgreeRows S U U') (hP : AgreeMats S P P') (edges : Edges) (maxIter : ℕ) (damping tol : ℚ) :
    iterativeMaxProduct ⟨n, S, U'⟩ P' edges maxIter damping tol = iterativeMaxProduct ⟨n, S, U⟩ P edges maxIter damping tol := by
  unfold iterativeMaxProduct
  simp only
  by_cases h1 : S = 0
  · rw [if_pos h1, if_pos h1]
  rw [if_neg h1, if_neg h1]
  have : NeZero S := ⟨h1⟩
  by_cases h2 : ¬ ∀ e ∈ edges, e.1 < n ∧ e.2 < n
  · rw [if_pos h2, if_pos h2]
    by_cases h3 : maxIter = 0
    · rw [if_pos h3, if_pos h3]
      congr 2
      exact funext fun v => argmaxN_congr fun s hs => by rw [hU v s hs]
    · rw [if_neg h3, if_neg h3]
  · rw [if_neg h2, if_neg h2]
    have hl := (loopyIter_agree hU hP edges damping tol maxIter ⟨fun _ _ => 0, fun _ _ => 0, fun _ _ => 0, 0⟩
      ⟨fun _ _ => 0, fun _ _ => 0, fun _ _ => 0, 0⟩ ⟨fun _ _ _ => rfl, fun _ _ _ => rfl, fun _ _ _ => rfl, rfl⟩).2.2.1
    congr 2
    exact funext fun v => argmaxN_congr fun s hs => by rw [hU v s hs, hl v s hs]

open Viterbi in
theorem bestPrev_agree {sc sc' : ℕ → ℕ → WithBot ℚ} {tr tr' : ℕ → ℕ → ℕ → WithBot ℚ} (hs : AgreeRows S sc sc') (ht : AgreeMats S tr tr')
    (i : ℕ) {k : ℕ} (hk : k < S) : bestPrev S sc' tr' i k = bestPrev S sc tr i k := by
  unfold bestPrev
  refine List.foldl_ext _ _ _ fun acc j hj => ?_
  have hj' := List.mem_range.mp hj
  simp only
  rw [hs _ j hj', hs _ k hk, ht _ j hj' k hk]

/-- the states of the forward recursion agree. -/
def AgreeViterbi (S : ℕ) (a b : Viterbi.State) : Prop := AgreeRows S a.score b.score ∧ b.backp = a.backp

open Viterbi in
theorem stepRow_agree {tr tr' : ℕ → ℕ → ℕ → WithBot ℚ} (ht : AgreeMats S tr tr') (st st' : State) (i : ℕ) (h : AgreeViterbi S st st') :
    AgreeViterbi S (stepRow S tr st i) (stepRow S tr' st' i) := by
  unfold stepRow
  have key : ∀ l : List ℕ, (∀ k ∈ l, k < S) → ∀ st st', AgreeViterbi S st st' →
      AgreeViterbi S (l.foldl (stepCell S tr i) st) (l.foldl (stepCell S tr' i) st') := by
    intro l
    induction l with
    | nil => exact fun _ _ _ h => h
    | cons k r ih =>
      intro hl st st' h
      refine ih (fun k' hk => hl k' (List.mem_cons_of_mem _ hk)) _ _ ?_
      have e := bestPrev_agree h.1 ht i (hl k List.mem_cons_self)
      unfold stepCell
      refine ⟨fun v s hs => ?_, ?_⟩
      · simp only [upd2]
        rw [e, h.1 v s hs]
      · simp only
        rw [e, h.2]
  exact key _ (fun k hk => List.mem_range.mp hk) _ _ h

open Viterbi in
theorem viterbi_agree {n nTrans : ℕ} {sc sc' : ℕ → ℕ → WithBot ℚ} {tr tr' : ℕ → ℕ → ℕ → WithBot ℚ} (hs : AgreeRows S sc sc')
    (ht : AgreeMats S tr tr') : viterbi n S nTrans sc' tr' = viterbi n S nTrans sc tr := by
  have hf : AgreeViterbi S (forward n S sc tr) (forward n S sc' tr') := by
    unfold forward
    exact foldl_invariant (R := AgreeViterbi S) (fun b b' a h => stepRow_agree ht b b' a h) _ _ _ ⟨hs, rfl⟩
  unfold viterbi backtrack
  rw [hf.2, argmaxN_congr fun s hs => hf.1 (n - 1) s hs]

theorem inferenceMaxProduct_agree (opts : Opts) {n : ℕ} (hU : AgreeRows S U U') {p p' : Mat} (h : SameArray p p') (edges : Edges) :
    inferenceMaxProduct opts ⟨n, S, U'⟩ (.mat p') edges = inferenceMaxProduct opts ⟨n, S, U⟩ (.mat p) edges := by
  obtain ⟨h1, h2, h3⟩ := h
  unfold inferenceMaxProduct validateParams
  simp only [h1, h2]
  by_cases hp : p.rows = S ∧ p.cols = S
  · have hP : AgreeMats S (fun _ a b => p.get a b) (fun _ a b => p'.get a b) := fun _ a ha b hb =>
      h3 a (by rw [hp.1]; exact ha) b (by rw [hp.2]; exact hb)
    rw [if_pos hp, if_pos hp]
    simp only
    rw [viterbi_agree (S := S) (sc := fun i s => ((U i s : ℚ) : WithBot ℚ)) (tr := fun _ a b => ((p.get a b : ℚ) : WithBot ℚ))
      (fun v s hs => by rw [hU v s hs]) (fun e a ha b hb => congrArg (fun q : ℚ => (q : WithBot ℚ)) (hP e a ha b hb)), treeMaxProduct_agree hU hP,
      iterativeMaxProduct_agree hU hP]
  · rw [if_neg hp, if_neg hp]

/-- inference by max-product looks at nothing but the entries. -/
theorem maxProductInfer_reads (opts : Opts) : ReadsEntries (maxProductInfer opts) := by
  rintro ⟨n, S, U⟩ ⟨n', S', U'⟩ p p' E ⟨h1, h2, h3⟩ h
  simp only at h1 h2 h3
  subst h1 h2
  unfold maxProductInfer
  rw [inferenceMaxProduct_agree opts h3 h]

theorem inferenceMaxProduct_agree_ten (opts : Opts) {n : ℕ} (hU : AgreeRows S U U') {t t' : Ten} (h : SameTensor t t') (edges : Edges) :
    inferenceMaxProduct opts ⟨n, S, U'⟩ (.ten t') edges = inferenceMaxProduct opts ⟨n, S, U⟩ (.ten t) edges := by
  obtain ⟨h0, h1, h2, h3⟩ := h
  unfold inferenceMaxProduct validateParams
  simp only [h0, h1, h2]
  by_cases hp : t.d0 = edges.length ∧ t.d1 = S ∧ t.d2 = S
  · have hP : AgreeMats S t.get t'.get := fun e a ha b hb =>
      h3 e a (by rw [hp.2.1]; exact ha) b (by rw [hp.2.2]; exact hb)
    rw [if_pos hp, if_pos hp]
    simp only
    rw [viterbi_agree (S := S) (sc := fun i s => ((U i s : ℚ) : WithBot ℚ)) (tr := fun e a b => ((t.get e a b : ℚ) : WithBot ℚ))
      (fun v s hs => by rw [hU v s hs]) (fun e a ha b hb => congrArg (fun q : ℚ => (q : WithBot ℚ)) (hP e a ha b hb)), treeMaxProduct_agree hU hP,
      iterativeMaxProduct_agree hU hP, h0]
  · rw [if_neg hp, if_neg hp]

/-- inference by max-product looks at nothing but the entries, given one matrix per edge. -/
theorem maxProductInfer_reads_ten (opts : Opts) : ReadsTensors (maxProductInfer opts) := by
  rintro ⟨n, S, U⟩ ⟨n', S', U'⟩ t t' E ⟨h1, h2, h3⟩ h
  simp only at h1 h2 h3
  subst h1 h2
  unfold maxProductInfer
  rw [inferenceMaxProduct_agree_ten opts h3 h]

end Verif.Lemmas
