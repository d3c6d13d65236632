import Verif.Model.Memory
import Verif.Model.InitMore
import Verif.Lemmas.Viterbi
import Mathlib.Data.Int.Interval
import Mathlib.Order.Interval.Finset.Basic

/-!
# C146: the compiled parts stay inside their arrays
-/

namespace Verif.Props

open Finset Verif.Unstructured Verif.Viterbi Verif.Memory Verif.Common

/-! ### checked loops -/

/-- A loop whose steps only fail for certain indices. -/
theorem foldlM_guard {σ α : Type} (e : PyErr) (g : α → Prop) [DecidablePred g] (h : σ → α → σ)
    (f : σ → α → Except PyErr σ) : ∀ (l : List α), (∀ s, ∀ a ∈ l, f s a = if g a then .ok (h s a) else .error e) →
      ∀ s, l.foldlM f s = if ∀ a ∈ l, g a then .ok (l.foldl h s) else .error e
  | [], _, s => by
    rw [if_pos (by simp)]; rfl
  | a :: l, hf, s => by
    rw [List.foldlM_cons, hf s a (by simp)]
    by_cases ha : g a
    · rw [if_pos ha]
      have := foldlM_guard e g h f l (fun s b hb => hf s b (by simp [hb])) (h s a)
      change l.foldlM f (h s a) = _
      rw [this]
      simp only [List.forall_mem_cons, ha, true_and, List.foldl_cons]
    · rw [if_neg ha, if_neg (fun hall => ha (hall a (by simp)))]
      rfl

/-! ### `crammer_singer_joint_feature` -/

theorem csRow_eq (X : Mat) (rows cols : ℕ) (Y : ILabels) (out : ℕ → ℕ → ℚ) (i : ℕ) (hi : i < X.rows) :
    csRow X rows cols Y out i =
      if i < Y.size ∧ ∀ j < X.cols, Inside (Y.get i) rows ∧ j < cols then
        .ok ((List.range X.cols).foldl (fun o j => upd2 o (Y.get i).toNat j (o (Y.get i).toNat j + X.get i j)) out)
      else .error .undefinedRead := by
  unfold csRow
  by_cases hy : i < Y.size
  · rw [if_pos hy, foldlM_guard .undefinedRead (fun j => i < X.rows ∧ j < X.cols ∧ Inside (Y.get i) rows ∧ j < cols)
      (fun o j => upd2 o (Y.get i).toNat j (o (Y.get i).toNat j + X.get i j))
      (csCell X rows cols (Y.get i) i) _ (fun _ _ _ => rfl)]
    simp only [List.mem_range]
    congr 1
    apply propext
    constructor
    · exact fun h => ⟨hy, fun j hj => (h j hj).2.2⟩
    · exact fun h j hj => ⟨hi, hj, h.2 j hj⟩
  · rw [if_neg hy, if_neg (fun h => hy h.1)]

theorem csFold (x : ℕ → ℚ) (y : ℕ) (out : ℕ → ℕ → ℚ) (m : ℕ) :
    (List.range m).foldl (fun o j => upd2 o y j (o y j + x j)) out =
      fun s j => if s = y ∧ j < m then out s j + x j else out s j := by
  induction m with
  | zero => simp
  | succ m ih =>
    rw [List.range_succ, List.foldl_append, List.foldl_cons, List.foldl_nil, ih]
    funext s j
    simp only [upd2]
    by_cases h : s = y ∧ j = m
    · obtain ⟨rfl, rfl⟩ := h
      rw [if_pos ⟨rfl, rfl⟩, if_neg (by omega), if_pos ⟨rfl, by omega⟩]
    · rw [if_neg h]
      by_cases h2 : s = y ∧ j < m
      · rw [if_pos h2, if_pos ⟨h2.1, by omega⟩]
      · rw [if_neg h2, if_neg (fun h3 => h2 ⟨h3.1, by
          have : j ≠ m := fun e => h ⟨h3.1, e⟩
          omega⟩)]

theorem csRun_eq (X : Mat) (Y : ILabels) (out : Mat) :
    csRun X Y out =
      if ∀ i < X.rows, i < Y.size ∧ ∀ j < X.cols, Inside (Y.get i) out.rows ∧ j < out.cols then
        .ok ((List.range X.rows).foldl
          (fun o i => fun s j => if s = (Y.get i).toNat ∧ j < X.cols then o s j + X.get i j else o s j) out.get)
      else .error .undefinedRead := by
  unfold csRun
  rw [foldlM_guard .undefinedRead (fun i => i < Y.size ∧ ∀ j < X.cols, Inside (Y.get i) out.rows ∧ j < out.cols)
    (fun o i => fun s j => if s = (Y.get i).toNat ∧ j < X.cols then o s j + X.get i j else o s j)]
  · simp only [List.mem_range]
  · intro o i hi
    rw [csRow_eq X _ _ Y o i (List.mem_range.mp hi), csFold (fun j => X.get i j)]

/-- **C146, `crammer_singer_joint_feature`.** Given a label for every row and room for every column, the function stays
inside its arrays exactly if every label is a row of `out`. Then it adds to every row of `out` the rows of `X` with this
label. -/
theorem C146_crammer_singer (X : Mat) (Y : ILabels) (out : Mat) (hY : X.rows ≤ Y.size) (hc : X.cols ≤ out.cols)
    (hpos : 0 < X.cols) :
    (csRun X Y out = .error .undefinedRead ↔ ∃ i < X.rows, ¬ (0 ≤ Y.get i ∧ Y.get i < out.rows)) ∧
    ((∀ i < X.rows, 0 ≤ Y.get i ∧ Y.get i < out.rows) → ∃ r, csRun X Y out = .ok r ∧
      ∀ s, ∀ j < X.cols, r s j = out.get s j + ∑ i ∈ range X.rows with Y.get i = s, X.get i j) := by
  have hiff : (∀ i < X.rows, i < Y.size ∧ ∀ j < X.cols, Inside (Y.get i) out.rows ∧ j < out.cols) ↔
      ∀ i < X.rows, 0 ≤ Y.get i ∧ Y.get i < out.rows :=
    ⟨fun h i hi => ((h i hi).2 0 hpos).1, fun h i hi => ⟨by omega, fun j hj => ⟨h i hi, by omega⟩⟩⟩
  rw [csRun_eq]
  constructor
  · by_cases h : ∀ i < X.rows, 0 ≤ Y.get i ∧ Y.get i < out.rows
    · rw [if_pos (hiff.mpr h)]
      constructor
      · intro h'; cases h'
      · rintro ⟨i, hi, hn⟩; exact absurd (h i hi) hn
    · rw [if_neg (fun h' => h (hiff.mp h'))]
      simp only [true_iff]
      push Not at h
      obtain ⟨i, hi, hn⟩ := h
      exact ⟨i, hi, fun h' => absurd h'.2 (not_lt.mpr (hn h'.1))⟩
  · intro h
    rw [if_pos (hiff.mpr h)]
    refine ⟨_, rfl, ?_⟩
    intro s j hj
    have key : ∀ m ≤ X.rows, (List.range m).foldl
        (fun o i => fun s j => if s = (Y.get i).toNat ∧ j < X.cols then o s j + X.get i j else o s j) out.get s j =
        out.get s j + ∑ i ∈ range m with Y.get i = s, X.get i j := by
      intro m
      induction m with
      | zero => intro _; simp
      | succ m ih =>
        intro hm
        rw [List.range_succ, List.foldl_append, List.foldl_cons, List.foldl_nil, Finset.range_add_one,
          Finset.filter_insert]
        have hi := ih (by omega)
        have hy := h m (by omega)
        by_cases hs : Y.get m = s
        · rw [if_pos ⟨by omega, hj⟩, if_pos hs, Finset.sum_insert (by simp), hi]
          ring
        · rw [if_neg (fun h' => hs (by have := h'.1; omega)), if_neg hs, hi]
    exact key _ le_rfl

/-- On non-negative labels this is the function used in the other models. -/
theorem C146_crammer_singer_model (X : Mat) (Y : Labels) (out : Mat) (hY : X.rows ≤ Y.size) (hc : X.cols ≤ out.cols)
    (hpos : 0 < X.cols) :
    csRun X ⟨Y.size, fun i => Y.get i⟩ out = (crammerSinger X Y out).map Mat.get := by
  rw [csRun_eq]
  unfold crammerSinger
  have hiff : (∀ i < X.rows, i < Y.size ∧ ∀ j < X.cols, Inside ((Y.get i : ℕ) : ℤ) out.rows ∧ j < out.cols) ↔
      ∀ i < X.rows, Y.get i < out.rows :=
    ⟨fun h i hi => by have := ((h i hi).2 0 hpos).1.2; omega,
      fun h i hi => ⟨by omega, fun j hj => ⟨⟨by omega, by have := h i hi; omega⟩, by omega⟩⟩⟩
  by_cases h : ∀ i < X.rows, Y.get i < out.rows
  · rw [if_pos (hiff.mpr h), if_neg (not_not.mpr h)]
    rfl
  · rw [if_neg (fun h' => h (hiff.mp h')), if_pos h]
    rfl

/-! ### `loss_augment_unaries` -/

theorem laRow_eq (rows cols : ℕ) (y : ILabels) (cw : Vec) (U : ℕ → ℕ → ℚ) (i : ℕ) (hi : i < rows) :
    laRow rows cols y cw U i =
      if ∀ s < cols, i < y.size ∧ ((s : ℤ) = y.get i ∨ Inside (y.get i) cw.size) then
        .ok ((List.range cols).foldl
          (fun (U : ℕ → ℕ → ℚ) (s : ℕ) => if (s : ℤ) = y.get i then U else upd2 U i s (U i s + cw.get (y.get i).toNat)) U)
      else .error .undefinedRead := by
  unfold laRow
  rw [foldlM_guard .undefinedRead (fun s : ℕ => i < y.size ∧ ((s : ℤ) = y.get i ∨ Inside (y.get i) cw.size))
    (fun (U : ℕ → ℕ → ℚ) (s : ℕ) => if (s : ℤ) = y.get i then U else upd2 U i s (U i s + cw.get (y.get i).toNat))]
  · simp only [List.mem_range]
  · intro U s hs
    have hs := List.mem_range.mp hs
    unfold laCell
    by_cases h1 : i < y.size
    · by_cases h2 : (s : ℤ) = y.get i
      · simp [h1, h2]
      · by_cases h3 : Inside (y.get i) cw.size
        · simp [h1, h2, h3, hi, hs]
        · simp [h1, h2, h3]
    · simp [h1]

theorem laFold (y : ℤ) (c : ℚ) (U : ℕ → ℕ → ℚ) (i m : ℕ) :
    (List.range m).foldl (fun (U : ℕ → ℕ → ℚ) (s : ℕ) => if (s : ℤ) = y then U else upd2 U i s (U i s + c)) U =
      fun i' s => if i' = i ∧ s < m ∧ (s : ℤ) ≠ y then U i' s + c else U i' s := by
  induction m with
  | zero => simp
  | succ m ih =>
    rw [List.range_succ, List.foldl_append, List.foldl_cons, List.foldl_nil, ih]
    funext i' s
    by_cases hm : (m : ℤ) = y
    · rw [if_pos hm]
      by_cases h : i' = i ∧ s < m ∧ (s : ℤ) ≠ y
      · rw [if_pos h, if_pos ⟨h.1, by omega, h.2.2⟩]
      · rw [if_neg h, if_neg]
        rintro ⟨h1, h2, h3⟩
        exact h ⟨h1, by have : s ≠ m := (by rintro rfl; exact h3 hm); omega, h3⟩
    · rw [if_neg hm]
      simp only [upd2]
      by_cases h : i' = i ∧ s = m
      · obtain ⟨rfl, rfl⟩ := h
        rw [if_pos ⟨rfl, rfl⟩, if_neg (by omega), if_pos ⟨rfl, by omega, hm⟩]
      · rw [if_neg h]
        by_cases h2 : i' = i ∧ s < m ∧ (s : ℤ) ≠ y
        · rw [if_pos h2, if_pos ⟨h2.1, by omega, h2.2.2⟩]
        · rw [if_neg h2, if_neg]
          rintro ⟨a, b, c⟩
          exact h2 ⟨a, by have : s ≠ m := fun e => h ⟨a, e⟩; omega, c⟩

theorem laRun_eq (U : Mat) (y : ILabels) (cw : Vec) :
    laRun U y cw =
      if ∀ i < U.rows, ∀ s < U.cols, i < y.size ∧ ((s : ℤ) = y.get i ∨ Inside (y.get i) cw.size) then
        .ok ((List.range U.rows).foldl (fun (V : ℕ → ℕ → ℚ) (i : ℕ) => fun (i' s : ℕ) =>
          if i' = i ∧ s < U.cols ∧ (s : ℤ) ≠ y.get i then V i' s + cw.get (y.get i).toNat else V i' s) U.get)
      else .error .undefinedRead := by
  unfold laRun
  rw [foldlM_guard .undefinedRead
    (fun i => ∀ s < U.cols, i < y.size ∧ ((s : ℤ) = y.get i ∨ Inside (y.get i) cw.size))
    (fun (V : ℕ → ℕ → ℚ) (i : ℕ) => fun (i' s : ℕ) =>
      if i' = i ∧ s < U.cols ∧ (s : ℤ) ≠ y.get i then V i' s + cw.get (y.get i).toNat else V i' s)]
  · simp only [List.mem_range]
  · intro V i hi
    rw [laRow_eq U.rows U.cols y cw V i (List.mem_range.mp hi), laFold]

theorem laValue (cols : ℕ) (y : ℕ → ℤ) (c : ℕ → ℚ) (U : ℕ → ℕ → ℚ) (m i s : ℕ) :
    (List.range m).foldl (fun (V : ℕ → ℕ → ℚ) (i : ℕ) => fun (i' s : ℕ) =>
      if i' = i ∧ s < cols ∧ (s : ℤ) ≠ y i then V i' s + c i else V i' s) U i s =
      if i < m ∧ s < cols ∧ (s : ℤ) ≠ y i then U i s + c i else U i s := by
  induction m with
  | zero => simp
  | succ m ih =>
    rw [List.range_succ, List.foldl_append, List.foldl_cons, List.foldl_nil, ih]
    by_cases h : i = m
    · subst h
      simp
    · by_cases h2 : i < m
      · simp [h, h2, Nat.lt_succ_of_lt h2]
      · have : ¬ i < m + 1 := by omega
        simp [h, h2, this]

/-- **C146, `loss_augment_unaries`.** The function leaves its arrays exactly if there is a row without label, or a row
whose label has no class weight and some state that is not this label. Otherwise it adds the class weight of the label
to all states but the label. -/
theorem C146_loss_augment (U : Mat) (y : ILabels) (cw : Vec) :
    (laRun U y cw = .error .undefinedRead ↔ ∃ i < U.rows, ∃ s < U.cols,
      y.size ≤ i ∨ ((s : ℤ) ≠ y.get i ∧ ¬ (0 ≤ y.get i ∧ y.get i < cw.size))) ∧
    ((∀ i < U.rows, i < y.size ∧ 0 ≤ y.get i ∧ y.get i < cw.size) → ∃ r, laRun U y cw = .ok r ∧
      ∀ i < U.rows, ∀ s < U.cols,
        r i s = U.get i s + if (s : ℤ) = y.get i then 0 else cw.get (y.get i).toNat) := by
  rw [laRun_eq]
  constructor
  · by_cases h : ∀ i < U.rows, ∀ s < U.cols, i < y.size ∧ ((s : ℤ) = y.get i ∨ Inside (y.get i) cw.size)
    · rw [if_pos h]
      constructor
      · intro h'; cases h'
      · rintro ⟨i, hi, s, hs, h1 | ⟨h1, h2⟩⟩
        · have := (h i hi s hs).1; omega
        · exact absurd ((h i hi s hs).2.resolve_left h1) h2
    · rw [if_neg h]
      simp only [true_iff]
      push Not at h
      obtain ⟨i, hi, s, hs, h1⟩ := h
      refine ⟨i, hi, s, hs, ?_⟩
      by_cases h2 : i < y.size
      · exact .inr (h1 h2)
      · exact .inl (by omega)
  · intro h
    rw [if_pos (fun i hi s hs => ⟨(h i hi).1, .inr (h i hi).2⟩)]
    refine ⟨_, rfl, ?_⟩
    intro i hi s hs
    rw [laValue U.cols (fun i => y.get i) (fun i => cw.get (y.get i).toNat)]
    by_cases he : (s : ℤ) = y.get i
    · rw [if_neg (fun h' => h'.2.2 he), if_pos he, add_zero]
    · rw [if_pos ⟨hi, hs, he⟩, if_neg he]

/-- Labels that have a class weight give the function used in the other models. -/
theorem C146_loss_augment_model (U : Mat) (y : Labels) (cw : Vec) (A : Mat)
    (h : Loss.lossAugmentUnaries U y cw = .ok A) :
    ∃ r, laRun U ⟨y.size, fun i => y.get i⟩ cw = .ok r ∧ ∀ i < U.rows, ∀ s < U.cols, r i s = A.get i s := by
  unfold Loss.lossAugmentUnaries at h
  by_cases h1 : y.size < U.rows
  · rw [if_pos h1] at h; cases h
  · rw [if_neg h1] at h
    by_cases h2 : ∀ i < U.rows, y.get i < cw.size
    · rw [if_neg (not_not.mpr h2)] at h
      simp only [Except.ok.injEq] at h
      obtain ⟨r, hr, hv⟩ := (C146_loss_augment U ⟨y.size, fun i => y.get i⟩ cw).2
        (fun i hi => ⟨by simp only; omega, by simp only; omega, by simp only; have := h2 i hi; omega⟩)
      refine ⟨r, hr, fun i hi s hs => ?_⟩
      rw [hv i hi s hs, ← h]
      simp only [Nat.cast_inj, Int.toNat_natCast]
      by_cases he : s = y.get i
      · rw [if_pos he, if_pos he, add_zero]
      · rw [if_neg he, if_neg he]
    · rw [if_pos h2] at h; cases h

/-! ### `viterbi` -/

/-- the relation between the state of the model and the memory: `backp` of rows `1, …, m` is written. -/
structure Mirrors (S m : ℕ) (st : Viterbi.State) (v : VState) : Prop where
  score : v.score = st.score
  backp : ∀ i, 1 ≤ i → i ≤ m → ∀ k < S, v.backp i k = some (st.backp i k)

theorem vPrev_eq (z : VShape) (score : ℕ → ℕ → WithBot ℚ) (T : ℕ → ℕ → ℕ → WithBot ℚ) (i k : ℕ) (hi : 1 ≤ i)
    (hn : i < z.n) (hk : k < z.S) :
    vPrev z score T i k = if i ≤ z.t0 ∧ z.S ≤ z.t1 ∧ k < z.t2 then .ok (bestPrev z.S score T i k)
      else .error .undefinedRead := by
  unfold vPrev
  rw [foldlM_guard .undefinedRead (VRead z i k) (fun acc j =>
    if acc.2 < score (i - 1) j + score i k + T (i - 1) j k then
        (j, score (i - 1) j + score i k + T (i - 1) j k) else acc) _ _ (fun _ _ _ => rfl)]
  have hiff : (∀ j ∈ List.range z.S, VRead z i k j) ↔ i ≤ z.t0 ∧ z.S ≤ z.t1 ∧ k < z.t2 := by
    simp only [List.mem_range, VRead, Inside]
    constructor
    · intro h
      have h0 := h (z.S - 1) (by omega)
      omega
    · intro h j hj
      omega
  by_cases h : i ≤ z.t0 ∧ z.S ≤ z.t1 ∧ k < z.t2
  · rw [if_pos (hiff.mpr h), if_pos h]; rfl
  · rw [if_neg (fun h' => h (hiff.mp h')), if_neg h]

theorem vRow_eq (z : VShape) (T : ℕ → ℕ → ℕ → WithBot ℚ) (i : ℕ) (hi : 1 ≤ i) (hn : i < z.n) (hS : 1 ≤ z.S)
    (st : VState) :
    vRow z T st i = if i ≤ z.t0 ∧ z.S ≤ z.t1 ∧ z.S ≤ z.t2 then
        .ok ((List.range z.S).foldl (fun (st : VState) k => ⟨upd2 st.score i k (bestPrev z.S st.score T i k).2,
          upd2 st.backp i k (some (bestPrev z.S st.score T i k).1)⟩) st)
      else .error .undefinedRead := by
  unfold vRow
  rw [foldlM_guard .undefinedRead (fun k => i ≤ z.t0 ∧ z.S ≤ z.t1 ∧ k < z.t2)
    (fun (st : VState) k => ⟨upd2 st.score i k (bestPrev z.S st.score T i k).2,
          upd2 st.backp i k (some (bestPrev z.S st.score T i k).1)⟩)]
  · have hiff : (∀ k ∈ List.range z.S, i ≤ z.t0 ∧ z.S ≤ z.t1 ∧ k < z.t2) ↔ i ≤ z.t0 ∧ z.S ≤ z.t1 ∧ z.S ≤ z.t2 := by
      simp only [List.mem_range]
      constructor
      · intro h
        have h0 := h (z.S - 1) (by omega)
        omega
      · intro h j hj
        omega
    by_cases h : i ≤ z.t0 ∧ z.S ≤ z.t1 ∧ z.S ≤ z.t2
    · rw [if_pos (hiff.mpr h), if_pos h]
    · rw [if_neg (fun h' => h (hiff.mp h')), if_neg h]
  · intro st k hk
    have hk := List.mem_range.mp hk
    unfold vCell
    rw [vPrev_eq z st.score T i k hi hn hk]
    by_cases h : i ≤ z.t0 ∧ z.S ≤ z.t1 ∧ k < z.t2
    · rw [if_pos h, if_pos h]
      simp only
      rw [if_pos ⟨hn, hk⟩]
    · rw [if_neg h, if_neg h]

/-- a row keeps the relation. -/
theorem mirrors_row (S m : ℕ) (T : ℕ → ℕ → ℕ → WithBot ℚ) (st : Viterbi.State) (v : VState) (h : Mirrors S m st v) :
    Mirrors S (m + 1) (stepRow S T st (m + 1)) ((List.range S).foldl (fun (st : VState) k =>
      ⟨upd2 st.score (m + 1) k (bestPrev S st.score T (m + 1) k).2,
          upd2 st.backp (m + 1) k (some (bestPrev S st.score T (m + 1) k).1)⟩) v) := by
  have key : ∀ p : ℕ, (let st' := (List.range p).foldl (stepCell S T (m + 1)) st
      let v' := (List.range p).foldl (fun (st : VState) k =>
        ⟨upd2 st.score (m + 1) k (bestPrev S st.score T (m + 1) k).2,
          upd2 st.backp (m + 1) k (some (bestPrev S st.score T (m + 1) k).1)⟩) v
      v'.score = st'.score ∧ (∀ i, 1 ≤ i → i ≤ m → ∀ k < S, v'.backp i k = some (st'.backp i k)) ∧
      ∀ k < p, v'.backp (m + 1) k = some (st'.backp (m + 1) k)) := by
    intro p
    induction p with
    | zero => exact ⟨h.score, h.backp, by intro k hk; omega⟩
    | succ p ih =>
      obtain ⟨h1, h2, h3⟩ := ih
      simp only [List.range_succ, List.foldl_append, List.foldl_cons, List.foldl_nil]
      generalize (List.range p).foldl (stepCell S T (m + 1)) st = a at h1 h2 h3 ⊢
      generalize (List.range p).foldl (fun (st : VState) k =>
        ⟨upd2 st.score (m + 1) k (bestPrev S st.score T (m + 1) k).2,
          upd2 st.backp (m + 1) k (some (bestPrev S st.score T (m + 1) k).1)⟩) v = b at h1 h2 h3 ⊢
      simp only [stepCell, h1, true_and, upd2]
      refine ⟨fun i hi him k hk => ?_, fun k hk => ?_⟩
      · rw [if_neg (by omega), if_neg (by omega), h2 i hi him k hk]
      · by_cases he : k = p
        · rw [if_pos he, if_pos he]
        · rw [if_neg he, if_neg he, h3 k (by omega)]
  obtain ⟨h1, h2, h3⟩ := key S
  refine ⟨h1, fun i hi him k hk => ?_⟩
  by_cases he : i = m + 1
  · subst he; exact h3 k hk
  · exact h2 i hi (by omega) k hk

theorem vForward_ok (z : VShape) (U : ℕ → ℕ → WithBot ℚ) (T : ℕ → ℕ → ℕ → WithBot ℚ) (hS : 1 ≤ z.S)
    (h0 : z.n - 1 ≤ z.t0) (h12 : 2 ≤ z.n → z.S ≤ z.t1 ∧ z.S ≤ z.t2) :
    ∃ v, vForward z U T = .ok v ∧ Mirrors z.S (z.n - 1) (forward z.n z.S U T) v := by
  unfold vForward forward
  have key : ∀ m ≤ z.n - 1, ∃ v, ((List.range m).map (· + 1)).foldlM (vRow z T) ⟨U, fun _ _ => none⟩ = .ok v ∧
      Mirrors z.S m (((List.range m).map (· + 1)).foldl (stepRow z.S T) ⟨U, fun _ _ => 0⟩) v := by
    intro m
    induction m with
    | zero => exact fun _ => ⟨_, rfl, rfl, by intro i h1 h2; omega⟩
    | succ m ih =>
      intro hm
      obtain ⟨v, hv, hmir⟩ := ih (by omega)
      have hb := h12 (by omega)
      simp only [List.range_succ, List.map_append, List.map_cons, List.map_nil, List.foldl_append, List.foldl_cons,
        List.foldl_nil, List.foldlM_append, hv]
      have hrow := vRow_eq z T (m + 1) (by omega) (by omega) hS v
      rw [if_pos ⟨by omega, hb.1, hb.2⟩] at hrow
      refine ⟨_, ?_, mirrors_row z.S m T _ v hmir⟩
      change ([m + 1].foldlM (vRow z T) v) = _
      rw [List.foldlM_cons, hrow]
      rfl
  exact key _ le_rfl

theorem vForward_error (z : VShape) (U : ℕ → ℕ → WithBot ℚ) (T : ℕ → ℕ → ℕ → WithBot ℚ) (hS : 1 ≤ z.S)
    (hn : 2 ≤ z.n) (h : ¬ (z.n - 1 ≤ z.t0 ∧ z.S ≤ z.t1 ∧ z.S ≤ z.t2)) :
    vForward z U T = .error .undefinedRead := by
  unfold vForward
  have key : ∀ m ≤ z.n - 1, (((List.range m).map (· + 1)).foldlM (vRow z T) ⟨U, fun _ _ => none⟩ =
      .error .undefinedRead) ∨ ((m ≤ z.t0 ∧ (1 ≤ m → z.S ≤ z.t1 ∧ z.S ≤ z.t2)) ∧
        ∃ v, ((List.range m).map (· + 1)).foldlM (vRow z T) ⟨U, fun _ _ => none⟩ = .ok v) := by
    intro m
    induction m with
    | zero => exact fun _ => .inr ⟨⟨by omega, by omega⟩, _, rfl⟩
    | succ m ih =>
      intro hm
      simp only [List.range_succ, List.map_append, List.map_cons, List.map_nil, List.foldlM_append]
      rcases ih (by omega) with he | ⟨hb, v, hv⟩
      · rw [he]; exact .inl rfl
      · rw [hv]
        have hrow := vRow_eq z T (m + 1) (by omega) (by omega) hS v
        change ([m + 1].foldlM (vRow z T) v) = _ ∨ _ ∧ ∃ v', ([m + 1].foldlM (vRow z T) v) = _
        by_cases hg : m + 1 ≤ z.t0 ∧ z.S ≤ z.t1 ∧ z.S ≤ z.t2
        · rw [if_pos hg] at hrow
          refine .inr ⟨⟨hg.1, fun _ => hg.2⟩, ?_⟩
          rw [List.foldlM_cons, hrow]
          exact ⟨_, rfl⟩
        · rw [if_neg hg] at hrow
          left
          rw [List.foldlM_cons, hrow]
          rfl
  rcases key _ le_rfl with h' | ⟨⟨h1, h2⟩, -⟩
  · exact h'
  · exact absurd ⟨h1, h2 (by omega)⟩ h

/-- the backtracking stays inside `backp` and reads only cells that were written. -/
theorem vBack_ok (z : VShape) (U : ℕ → ℕ → WithBot ℚ) (T : ℕ → ℕ → ℕ → WithBot ℚ) (hn : 1 ≤ z.n) (hS : 1 ≤ z.S)
    (v : VState) (hv : Mirrors z.S (z.n - 1) (forward z.n z.S U T) v) :
    ∃ path, (List.range (z.n - 1)).reverse.foldlM (vBack z v)
      (fun i' => if i' = z.n - 1 then some (argmaxN (v.score (z.n - 1)) z.S) else none) = .ok path ∧
      ∀ i < z.n, path i = some (backtrack z.n z.S (forward z.n z.S U T) i) := by
  obtain ⟨hlt, -, -⟩ := backtrack_lt z.n z.S hn hS U T
  obtain ⟨hlast, hstep⟩ := backtrack_spec z.n z.S (forward z.n z.S U T)
  set y := backtrack z.n z.S (forward z.n z.S U T) with hy
  have key : ∀ m ≤ z.n - 1, ∀ path : ℕ → Option ℕ, (∀ i, m ≤ i → i < z.n → path i = some (y i)) →
      ∃ path', (List.range m).reverse.foldlM (vBack z v) path = .ok path' ∧
        ∀ i < z.n, path' i = some (y i) := by
    intro m
    induction m with
    | zero => exact fun _ path h => ⟨path, rfl, fun i hi => h i (by omega) hi⟩
    | succ m ih =>
      intro hm path h
      rw [List.range_succ, List.reverse_append, List.reverse_singleton, List.singleton_append, List.foldlM_cons]
      have hb : vBack z v path m = .ok fun i' => if i' = m then some (y m) else path i' := by
        unfold vBack
        rw [if_pos (by omega), h (m + 1) (by omega) (by omega)]
        simp only
        rw [if_pos ⟨by omega, hlt (m + 1) (by omega)⟩, hv.backp (m + 1) (by omega) (by omega) _ (hlt (m + 1) (by omega)),
          ← hstep m (by omega)]
      rw [hb]
      refine ih (by omega) _ ?_
      intro i h1 h2
      by_cases he : i = m
      · rw [if_pos he, he]
      · rw [if_neg he]; exact h i (by omega) h2
  refine key _ le_rfl _ ?_
  intro i h1 h2
  have : i = z.n - 1 := by omega
  rw [if_pos this, this, hlast, hv.score]

/-- **C146, `viterbi`.** For at least one row and one state, `viterbi` stays inside its arrays, and reads no cell that was
not written, exactly if there is a table of transitions between all states for all neighbouring rows. Then the path it
returns is that of the model used in C01. -/
theorem C146_viterbi (z : VShape) (U : ℕ → ℕ → WithBot ℚ) (T : ℕ → ℕ → ℕ → WithBot ℚ) (hn : 1 ≤ z.n) (hS : 1 ≤ z.S) :
    (vRun z U T = .error .undefinedRead ↔ 2 ≤ z.n ∧ ¬ (z.n - 1 ≤ z.t0 ∧ z.S ≤ z.t1 ∧ z.S ≤ z.t2)) ∧
    ((2 ≤ z.n → z.n - 1 ≤ z.t0 ∧ z.S ≤ z.t1 ∧ z.S ≤ z.t2) → ∃ path y, vRun z U T = .ok path ∧
      viterbi z.n z.S z.t0 U T = .ok y ∧ ∀ i < z.n, path i = some (y i)) := by
  have hok : (2 ≤ z.n → z.n - 1 ≤ z.t0 ∧ z.S ≤ z.t1 ∧ z.S ≤ z.t2) → ∃ path y, vRun z U T = .ok path ∧
      viterbi z.n z.S z.t0 U T = .ok y ∧ ∀ i < z.n, path i = some (y i) := by
    intro h
    have h0 : z.n - 1 ≤ z.t0 := by
      by_cases h2 : 2 ≤ z.n
      · exact (h h2).1
      · omega
    obtain ⟨v, hv, hm⟩ := vForward_ok z U T hS h0 (fun h2 => (h h2).2)
    obtain ⟨path, hp, hpy⟩ := vBack_ok z U T hn hS v hm
    refine ⟨path, backtrack z.n z.S (forward z.n z.S U T), ?_, ?_, hpy⟩
    · unfold vRun
      rw [hv]
      simp only
      rw [if_neg (by omega), if_neg (by omega), hp]
    · unfold viterbi
      rw [if_neg (by omega), if_neg (by omega), if_neg (by omega)]
  refine ⟨⟨fun h => ?_, fun ⟨h2, h⟩ => ?_⟩, hok⟩
  · by_contra hc
    obtain ⟨path, y, hp, -⟩ := hok (by tauto)
    rw [hp] at h; cases h
  · unfold vRun
    rw [vForward_error z U T hS h2 h]

/-! ### the callers -/

/-- `k` different labels that all lie in `0, …, k - 1` are all of these. -/
theorem labels_fill (l : List ℤ) (k : ℕ) (hk : l.dedup.length = k) (h : ∀ a ∈ l, 0 ≤ a ∧ a < k) :
    ∀ a, a ∈ l ↔ 0 ≤ a ∧ a < k := by
  have hsub : l.toFinset ⊆ Finset.Ico (0 : ℤ) k := by
    intro a ha
    simp only [List.mem_toFinset] at ha
    simpa using h a ha
  have heq : l.toFinset = Finset.Ico (0 : ℤ) k := by
    refine Finset.eq_of_subset_of_card_le hsub ?_
    rw [List.card_toFinset, hk]
    simp
  intro a
  rw [← List.mem_toFinset, heq]
  simp

theorem reconcile_found {own : Option ℕ} {found n : ℕ} (h : Init.reconcile own found = .ok n) : n = found := by
  unfold Init.reconcile at h
  cases own with
  | none => simpa using h.symm
  | some m =>
    simp only at h
    by_cases hne : m ≠ found
    · rw [if_pos hne] at h; cases h
    · rw [if_neg hne] at h
      simp only [Except.ok.injEq] at h
      rw [← h]; exact not_not.mp hne

theorem takeLabels_ok {own : Option ℕ} {Y : List (List ℤ)} {k : ℕ} (h : Init.takeLabels own Y = .ok k) :
    Y.flatten.dedup.length = k := by
  unfold Init.takeLabels Init.countLabels at h
  by_cases hY : Y = []
  · rw [if_pos hY] at h; cases h
  · rw [if_neg hY] at h
    simp only [Init.reconcile] at h
    cases own with
    | none => simpa using h
    | some n =>
      simp only at h
      by_cases hne : n ≠ Y.flatten.dedup.length
      · rw [if_pos hne] at h; cases h
      · rw [if_neg hne] at h
        simp only [Except.ok.injEq] at h
        rw [← h]; exact (not_not.mp hne).symm

/-- the labels as an array. -/
def asArray (l : List ℤ) : ILabels := ⟨l.length, fun i => l.getD i 0⟩

theorem asArray_forall (l : List ℤ) (p : ℤ → Prop) : (∀ i < l.length, p ((asArray l).get i)) ↔ ∀ a ∈ l, p a := by
  constructor
  · intro h a ha
    obtain ⟨i, hi, rfl⟩ := List.mem_iff_getElem.mp ha
    have := h i hi
    unfold asArray at this
    simp only at this
    rwa [List.getD_eq_getElem _ _ hi] at this
  · intro h i hi
    unfold asArray
    simp only
    rw [List.getD_eq_getElem _ _ hi]
    exact h _ (List.getElem_mem hi)

/-- **C146, MultiClassClf.** After `initialize(X, Y)`, `batch_joint_feature(X, Y)` (called by OneSlackSSVM.fit) writes
outside the array of its result exactly if the labels are not `0, …, k - 1`. -/
theorem C146_multi_class_partial (st st' : Init.MCState) (cols : ℕ) (hc : 0 < cols) (Y : List (List ℤ))
    (h : Init.mcInitialize st cols Y = .ok st') :
    ∃ k, st'.nStates = some k ∧ st'.nFeatures = some cols ∧
      ∀ X : Mat, X.rows = Y.flatten.length → X.cols = cols →
        ((∃ r, csRun X (asArray Y.flatten) ⟨k, cols, fun _ _ => 0⟩ = .ok r) ↔ ∀ a, a ∈ Y.flatten ↔ 0 ≤ a ∧ a < k) := by
  unfold Init.mcInitialize at h
  cases hr : Init.reconcile st.nFeatures cols with
  | error e => rw [hr] at h; cases h
  | ok f =>
    have hf : f = cols := reconcile_found hr
    subst hf
    rw [hr] at h
    simp only at h
    cases ht : Init.takeLabels st.nStates Y with
    | error e => rw [ht] at h; cases h
    | ok k =>
      rw [ht] at h
      simp only [Init.mcSetSize, Init.mcSetClassWeight] at h
      cases hd : Init.deriveWeights { st.derived with size := some (k * f) } (some k) with
      | error e => rw [hd] at h; cases h
      | ok d =>
        rw [hd] at h
        simp only [Except.ok.injEq] at h
        subst h
        refine ⟨k, rfl, rfl, fun X hX hXc => ?_⟩
        have hcs := C146_crammer_singer X (asArray Y.flatten) ⟨k, f, fun _ _ => 0⟩ (by rw [hX]; rfl) hXc.le (by omega)
        rw [hX] at hcs
        constructor
        · rintro ⟨r, hr⟩
          refine labels_fill _ k (takeLabels_ok ht) ?_
          rw [← asArray_forall Y.flatten (fun a => 0 ≤ a ∧ a < (k : ℤ))]
          intro i hi
          by_contra hcon
          have := hcs.1.mpr ⟨i, hi, hcon⟩
          rw [hr] at this; cases this
        · intro hall
          obtain ⟨r, hr, -⟩ := hcs.2 ((asArray_forall Y.flatten (fun a => 0 ≤ a ∧ a < (k : ℤ))).mpr
            fun a ha => (hall a).mp ha)
          exact ⟨r, hr⟩

/-- **C146 is violated by MultiClassClf**: with the labels 1 and 2 `initialize` finds two classes, and
`batch_joint_feature` writes to a third row of its result. -/
theorem C146_violated_multi_class :
    ∃ st st', Init.mcConstruct none none none = .ok st ∧ Init.mcInitialize st 1 [[1], [2]] = .ok st' ∧
      st'.nStates = some 2 ∧
      ∀ X : Mat, X.rows = 2 → X.cols = 1 →
        csRun X (asArray [1, 2]) ⟨2, 1, fun _ _ => 0⟩ = .error .undefinedRead := by
  refine ⟨_, _, rfl, rfl, rfl, fun X hr hc => ?_⟩
  exact (C146_crammer_singer X (asArray [1, 2]) ⟨2, 1, fun _ _ => 0⟩ (by rw [hr]; rfl) hc.le (by omega)).1.mpr
    ⟨1, by omega, by decide⟩

/-- **C146, CRFs.** After `initialize(X, Y)` of a GraphCRF or ChainCRF, loss augmentation of the training samples reads
outside the class weights exactly if the labels are not `0, …, k - 1`. -/
theorem C146_crf_partial (st st' : Init.State) (X : List ℕ) (Y : List (List ℤ))
    (h : Init.initializeCRF st X Y = .ok st') :
    ∃ k cw, st'.nStates = some k ∧ st'.classWeight = some cw ∧
      ((∀ y ∈ Y, ∀ U : Mat, U.rows = y.length → U.cols = k → ∃ r, laRun U (asArray y) cw = .ok r) ↔
        (∀ a, a ∈ Y.flatten ↔ 0 ≤ a ∧ a < k)) := by
  unfold Init.initializeCRF at h
  cases X with
  | nil => cases h
  | cons f X =>
    simp only at h
    cases hr : Init.reconcile st.nFeatures f with
    | error e => rw [hr] at h; cases h
    | ok nf =>
      rw [hr] at h
      simp only at h
      cases hcl : Init.countLabels Y with
      | error e => rw [hcl] at h; cases h
      | ok found =>
        rw [hcl] at h
        simp only at h
        cases hrs : Init.reconcile st.nStates found with
        | error e => rw [hrs] at h; cases h
        | ok k =>
          have hk : Y.flatten.dedup.length = k := by
            apply takeLabels_ok (own := st.nStates)
            unfold Init.takeLabels
            rw [hcl]
            exact hrs
          rw [hrs] at h
          simp only [Init.setSize, Init.setClassWeight] at h
          have hcw : ∃ cw : Vec, st'.nStates = some k ∧ st'.classWeight = some cw ∧ cw.size = k := by
            cases hc : st.classWeight with
            | none =>
              rw [hc] at h
              simp only [Except.ok.injEq] at h
              subst h
              exact ⟨_, rfl, rfl, rfl⟩
            | some c =>
              rw [hc] at h
              simp only at h
              by_cases hne : k = c.size
              · have hne' : ¬ (some k ≠ some c.size) := by simp [hne]
                have h : Except.ok _ = Except.ok st' := (if_neg hne').symm.trans h
                simp only [Except.ok.injEq] at h
                subst h
                exact ⟨c, rfl, rfl, hne.symm⟩
              · have hne' : some k ≠ some c.size := by simpa using hne
                have h : Except.error _ = Except.ok st' := (if_pos hne').symm.trans h
                cases h
          obtain ⟨cw, e1, e2, e3⟩ := hcw
          refine ⟨k, cw, e1, e2, ?_⟩
          constructor
          · intro hall
            refine labels_fill _ k hk ?_
            intro a ha
            obtain ⟨y, hy, hay⟩ := List.mem_flatten.mp ha
            by_contra hcon
            obtain ⟨i, hi, rfl⟩ := List.mem_iff_getElem.mp hay
            have hkpos : 0 < k := by
              rw [← hk, List.length_pos_iff]
              intro hnil
              rw [List.dedup_eq_nil] at hnil
              rw [hnil] at ha
              cases ha
            obtain ⟨r, hrun⟩ := hall y hy ⟨y.length, k, fun _ _ => 0⟩ rfl rfl
            have hg : (asArray y).get i = y[i] := by
              unfold asArray
              simp only
              rw [List.getD_eq_getElem _ _ hi]
            have := (C146_loss_augment ⟨y.length, k, fun _ _ => 0⟩ (asArray y) cw).1.mpr
              ⟨i, hi, 0, hkpos, .inr ⟨by
                rw [hg]
                intro h0
                exact hcon ⟨by omega, by omega⟩, by rw [hg, e3]; exact hcon⟩⟩
            rw [hrun] at this; cases this
          · intro hall y hy U hU hUc
            obtain ⟨r, hr, -⟩ := (C146_loss_augment U (asArray y) cw).2 (by
              intro i hi
              rw [hU] at hi
              refine ⟨hi, ?_⟩
              rw [e3]
              exact (asArray_forall y (fun a => 0 ≤ a ∧ a < (k : ℤ))).mpr
                (fun a ha => (hall a).mp (List.mem_flatten.mpr ⟨y, hy, ha⟩)) i hi)
            exact ⟨r, hr⟩

/-- **C146, MultiLabelClf.** There is a class weight for every label, though they are indexed with the states 0 and 1 of
a label. Loss augmentation stays inside its arrays exactly if there are two labels or the sample has no label. -/
theorem C146_multi_label_partial (st st' : Init.MLState) (xCols yCols : ℕ)
    (h : Init.mlInitialize st xCols yCols = .ok st') :
    ∃ cw, st'.nLabels = some yCols ∧ st'.classWeight = some cw ∧
      ∀ y : List ℤ, y.length = yCols → (∀ a ∈ y, a = 0 ∨ a = 1) → ∀ U : Mat, U.rows = yCols → U.cols = 2 →
        ((∃ r, laRun U (asArray y) cw = .ok r) ↔ 2 ≤ yCols ∨ ∀ a ∈ y, a = 0) := by
  have hcw : ∃ cw : Vec, st'.nLabels = some yCols ∧ st'.classWeight = some cw ∧ cw.size = yCols := by
    unfold Init.mlInitialize at h
    cases hr : Init.reconcile st.nFeatures xCols with
    | error e => rw [hr] at h; cases h
    | ok nf =>
      rw [hr] at h
      simp only at h
      cases hl : Init.reconcile st.nLabels yCols with
      | error e => rw [hl] at h; cases h
      | ok nl =>
        have hnl : nl = yCols := reconcile_found hl
        subst hnl
        rw [hl] at h
        simp only [Init.mlSetSize, Init.mlSetClassWeight, Init.setClassWeight] at h
        cases hc : st.classWeight with
        | none =>
          rw [hc] at h
          simp only [Except.ok.injEq] at h
          subst h
          exact ⟨_, rfl, rfl, rfl⟩
        | some c =>
          rw [hc] at h
          simp only at h
          by_cases hne : nl = c.size
          · have hne' : ¬ (some nl ≠ some c.size) := by simp [hne]
            rw [if_neg hne'] at h
            simp only [Except.ok.injEq] at h
            subst h
            exact ⟨c, rfl, rfl, hne.symm⟩
          · have hne' : some nl ≠ some c.size := by simpa using hne
            rw [if_pos hne'] at h
            cases h
  obtain ⟨cw, e1, e2, e3⟩ := hcw
  refine ⟨cw, e1, e2, fun y hy hbin U hU hUc => ?_⟩
  constructor
  · rintro ⟨r, hr⟩
    by_contra hcon
    push Not at hcon
    obtain ⟨hlt, a, ha, hne⟩ := hcon
    obtain ⟨i, hi, rfl⟩ := List.mem_iff_getElem.mp ha
    have h1 : y[i] = 1 := (hbin _ ha).resolve_left hne
    have hg : (asArray y).get i = 1 := by
      unfold asArray
      simp only
      rw [List.getD_eq_getElem _ _ hi, h1]
    have := (C146_loss_augment U (asArray y) cw).1.mpr ⟨i, by omega, 0, by omega, .inr ⟨by rw [hg]; decide, by
      rw [hg, e3]; omega⟩⟩
    rw [hr] at this; cases this
  · intro hall
    obtain ⟨r, hr, -⟩ := (C146_loss_augment U (asArray y) cw).2 (by
      intro i hi
      rw [hU, ← hy] at hi
      refine ⟨hi, ?_⟩
      refine (asArray_forall y (fun a => 0 ≤ a ∧ a < (cw.size : ℤ))).mpr ?_ i hi
      intro a ha
      rw [e3]
      rcases hall with h2 | h0
      · rcases hbin a ha with rfl | rfl <;> omega
      · rw [h0 a ha]; omega)
    exact ⟨r, hr⟩

/-- **C146 is violated by MultiLabelClf** with a single label: loss augmentation relative to the label 1 reads a class
weight that does not exist. -/
theorem C146_violated_single_label :
    ∃ st st' cw, Init.mlConstruct none none none = .ok st ∧ Init.mlInitialize st 1 1 = .ok st' ∧
      st'.classWeight = some cw ∧
      ∀ U : Mat, U.rows = 1 → U.cols = 2 → laRun U (asArray [1]) cw = .error .undefinedRead := by
  refine ⟨_, _, _, rfl, rfl, rfl, fun U hr hc => ?_⟩
  exact (C146_loss_augment U (asArray [1]) _).1.mpr ⟨0, by omega, 0, by omega, .inr ⟨by decide, by decide⟩⟩

/-- **C146 is violated by GraphCRF** if the labels are 1 and 2: there are two class weights, that of label 2 is read
outside the array. -/
theorem C146_violated_crf :
    ∃ st st' cw, Init.construct none none none false = .ok st ∧ Init.initializeCRF st [1] [[1, 2]] = .ok st' ∧
      st'.classWeight = some cw ∧
      ∀ U : Mat, U.rows = 2 → U.cols = 2 → laRun U (asArray [1, 2]) cw = .error .undefinedRead := by
  refine ⟨_, _, _, rfl, rfl, rfl, fun U hr hc => ?_⟩
  exact (C146_loss_augment U (asArray [1, 2]) _).1.mpr ⟨1, by omega, 0, by omega, .inr ⟨by decide, by decide⟩⟩

/-! ### cases that meet the hypotheses -/

example : ∃ r, csRun ⟨2, 2, fun i j => 1 + i + 2 * j⟩ (asArray [1, 0]) ⟨2, 2, fun _ _ => 0⟩ = .ok r ∧
    r 1 1 = 3 ∧ r 0 1 = 4 := by
  obtain ⟨r, hr, hv⟩ := (C146_crammer_singer ⟨2, 2, fun i j => 1 + i + 2 * j⟩ (asArray [1, 0]) ⟨2, 2, fun _ _ => 0⟩
    le_rfl le_rfl (by decide)).2 (by decide)
  exact ⟨r, hr, by rw [hv 1 1 (by decide)]; decide +kernel, by rw [hv 0 1 (by decide)]; decide +kernel⟩

example : (vRun ⟨2, 2, 1, 2, 2⟩ (fun i s => ((i + s : ℕ) : ℚ)) (fun _ _ _ => ((0 : ℚ) : WithBot ℚ))).toOption.map
    (fun path => (path 0, path 1)) = some (some 1, some 1) := by decide +kernel

example : ∃ st st', Init.mcConstruct none none none = .ok st ∧ Init.mcInitialize st 1 [[0], [1]] = .ok st' ∧
    st'.nStates = some 2 := ⟨_, _, rfl, rfl, rfl⟩

example : ∃ st st', Init.construct none none none false = .ok st ∧
    Init.initializeCRF st [1, 1] [[0, 1], [1]] = .ok st' ∧ st'.nStates = some 2 := ⟨_, _, rfl, rfl, rfl⟩

example : ∃ st st', Init.mlConstruct none none none = .ok st ∧ Init.mlInitialize st 3 2 = .ok st' ∧
    st'.nLabels = some 2 := ⟨_, _, rfl, rfl, rfl⟩

end Verif.Props
