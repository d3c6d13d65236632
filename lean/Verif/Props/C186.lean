import Verif.Model.Dispatch
import Verif.Model.LatentSSVM
import Verif.Model.SubgradientLatent
import Verif.Props.C29

/-!
# C186: the score of a data set is an average
-/

namespace Verif.Props

open Verif.Common Verif.Learner Verif.Unstructured

variable {X Y : Type}

/-- `score(X, Y)` of a learner with the weights `w` on a list of samples. -/
def scoreOn (m : SModel X Y) (w : W) (d : List (X × Y)) : ℚ :=
  Learner.score m (d.map Prod.snd) (Learner.predict m w (d.map Prod.fst))

/-- the largest possible loss on a list of samples. -/
def worst (m : SModel X Y) (d : List (X × Y)) : ℚ := (d.map fun s => m.maxLoss s.2).sum

/-- the loss of the outputs of inference on a list of samples. -/
def suffered (m : SModel X Y) (w : W) (d : List (X × Y)) : ℚ := (d.map fun s => m.loss s.2 (m.inference s.1 w)).sum

theorem scoreOn_eq (m : SModel X Y) (w : W) (d : List (X × Y)) : scoreOn m w d = 1 - suffered m w d / worst m d := by
  have : ∀ d : List (X × Y), (((d.map Prod.snd).zip (Learner.predict m w (d.map Prod.fst))).map fun p => m.loss p.1 p.2).sum = suffered m w d := by
    intro d
    induction d with
    | nil => rfl
    | cons s d ih =>
      simp only [Learner.predict, suffered, List.map_cons, List.zip_cons_cons, List.sum_cons] at ih ⊢
      rw [ih]
  unfold scoreOn Learner.score
  rw [this, List.map_map]
  rfl

/-- **C186, order.** The order of the samples does not matter for the score. -/
theorem C186_order (m : SModel X Y) (w : W) {d d' : List (X × Y)} (h : d.Perm d') :
    Learner.score m (d'.map Prod.snd) (Learner.predict m w (d'.map Prod.fst)) =
      Learner.score m (d.map Prod.snd) (Learner.predict m w (d.map Prod.fst)) := by
  change scoreOn m w d' = scoreOn m w d
  rw [scoreOn_eq, scoreOn_eq]
  unfold suffered worst
  rw [(h.map _).sum_eq, (h.map fun s => m.maxLoss s.2).sum_eq]

/-- **C186, parts.** The score of two data sets together is the mean of their scores, weighted by their largest possible losses; so it lies
between them. -/
theorem C186_parts (m : SModel X Y) (w : W) (d e : List (X × Y)) (hd : 0 < (d.map fun s => m.maxLoss s.2).sum)
    (he : 0 < (e.map fun s => m.maxLoss s.2).sum) :
    let score (l : List (X × Y)) := Learner.score m (l.map Prod.snd) (Learner.predict m w (l.map Prod.fst))
    score (d ++ e) * ((d.map fun s => m.maxLoss s.2).sum + (e.map fun s => m.maxLoss s.2).sum) =
      score d * (d.map fun s => m.maxLoss s.2).sum + score e * (e.map fun s => m.maxLoss s.2).sum ∧
    min (score d) (score e) ≤ score (d ++ e) ∧ score (d ++ e) ≤ max (score d) (score e) := by
  intro score
  change 0 < worst m d at hd
  change 0 < worst m e at he
  have key : score (d ++ e) * (worst m d + worst m e) = score d * worst m d + score e * worst m e := by
    change scoreOn m w (d ++ e) * _ = scoreOn m w d * _ + scoreOn m w e * _
    rw [scoreOn_eq, scoreOn_eq, scoreOn_eq]
    have h1 : suffered m w (d ++ e) = suffered m w d + suffered m w e := by
      unfold suffered
      rw [List.map_append, List.sum_append]
    have h2 : worst m (d ++ e) = worst m d + worst m e := by
      unfold worst
      rw [List.map_append, List.sum_append]
    rw [h1, h2]
    have h3 : worst m d + worst m e ≠ 0 := by linarith
    field_simp
    ring
  refine ⟨key, ?_, ?_⟩
  · have a := min_le_left (score d) (score e)
    have b := min_le_right (score d) (score e)
    by_contra h
    push Not at h
    nlinarith [mul_le_mul_of_nonneg_right a hd.le, mul_le_mul_of_nonneg_right b he.le, mul_lt_mul_of_pos_right h (add_pos hd he)]
  · have a := le_max_left (score d) (score e)
    have b := le_max_right (score d) (score e)
    by_contra h
    push Not at h
    nlinarith [mul_le_mul_of_nonneg_right a hd.le, mul_le_mul_of_nonneg_right b he.le, mul_lt_mul_of_pos_right h (add_pos hd he)]

/-- **C186, copies.** A data set that is given several times has the score of the data set. -/
theorem C186_copies (m : SModel X Y) (w : W) (d : List (X × Y)) (k : ℕ) :
    let e := (List.replicate (k + 1) d).flatten
    Learner.score m (e.map Prod.snd) (Learner.predict m w (e.map Prod.fst)) =
      Learner.score m (d.map Prod.snd) (Learner.predict m w (d.map Prod.fst)) := by
  intro e
  change scoreOn m w e = scoreOn m w d
  have h : ∀ (f : X × Y → ℚ) (n : ℕ), ((List.replicate n d).flatten.map f).sum = n * (d.map f).sum := by
    intro f n
    induction n with
    | zero => simp
    | succ n ih =>
      rw [List.replicate_succ, List.flatten_cons, List.map_append, List.sum_append, ih]
      push_cast
      ring
  rw [scoreOn_eq, scoreOn_eq]
  unfold suffered worst
  rw [h, h, mul_div_mul_left]
  positivity

/-- **C186, better predictions.** If the weights `w'` lose at most what `w` loses on every sample, their score is at least as high; it is
higher if they lose less on one sample. -/
theorem C186_better (m : SModel X Y) (w w' : W) (d : List (X × Y)) (hd : 0 < (d.map fun s => m.maxLoss s.2).sum)
    (h : ∀ s ∈ d, m.loss s.2 (m.inference s.1 w') ≤ m.loss s.2 (m.inference s.1 w)) :
    Learner.score m (d.map Prod.snd) (Learner.predict m w (d.map Prod.fst)) ≤
      Learner.score m (d.map Prod.snd) (Learner.predict m w' (d.map Prod.fst)) ∧
    ((∃ s ∈ d, m.loss s.2 (m.inference s.1 w') < m.loss s.2 (m.inference s.1 w)) →
      Learner.score m (d.map Prod.snd) (Learner.predict m w (d.map Prod.fst)) <
        Learner.score m (d.map Prod.snd) (Learner.predict m w' (d.map Prod.fst))) := by
  change scoreOn m w d ≤ scoreOn m w' d ∧ (_ → scoreOn m w d < scoreOn m w' d)
  change 0 < worst m d at hd
  rw [scoreOn_eq, scoreOn_eq]
  refine ⟨?_, fun hs => ?_⟩
  · have : suffered m w' d ≤ suffered m w d := List.sum_le_sum h
    exact sub_le_sub_left (div_le_div_of_nonneg_right this hd.le) 1
  · have : suffered m w' d < suffered m w d := List.sum_lt_sum _ _ h hs
    exact sub_lt_sub_left (div_lt_div_of_pos_right this hd) 1

/-- **C186 is violated** for lists of unequal lengths (models that inherit `batch_loss`): labels without an instance raise nothing and count
as predicted without loss. So leaving out instances never lowers the score, and without any instance it is 1. Instances without a label do
not count. -/
theorem C186_violated_lengths (m : SModel X Y) (w : W) (Xs : List X) (Ys : List Y) :
    Learner.score m Ys (Learner.predict m w []) = 1 ∧
    (Xs.length = Ys.length → (∀ p ∈ Xs.zip Ys, 0 ≤ m.loss p.2 (m.inference p.1 w)) → 0 < (Ys.map m.maxLoss).sum →
      ∀ k, Learner.score m Ys (Learner.predict m w Xs) ≤ Learner.score m Ys (Learner.predict m w (Xs.take k))) ∧
    (∀ more, Xs.length = Ys.length → Learner.score m Ys (Learner.predict m w (Xs ++ more)) = Learner.score m Ys (Learner.predict m w Xs)) := by
  refine ⟨?_, fun hl h hd k => ?_, fun more hl => ?_⟩
  · simp [Learner.score, Learner.predict]
  · unfold Learner.score
    refine sub_le_sub_left (div_le_div_of_nonneg_right ?_ hd.le) 1
    clear hd
    induction Xs generalizing Ys k with
    | nil => simp [Learner.predict]
    | cons x Xs ih =>
      cases Ys with
      | nil => simp [Learner.predict]
      | cons y Ys =>
        have h0 := h (x, y) (by simp)
        have hr : ∀ p ∈ Xs.zip Ys, 0 ≤ m.loss p.2 (m.inference p.1 w) := fun p hp => h p (by simp [hp])
        have hl' : Xs.length = Ys.length := by simpa using hl
        cases k with
        | zero =>
          have := ih Ys hl' hr 0
          simp only [Learner.predict, List.take_zero, List.map_nil, List.zip_nil_right, List.sum_nil, List.map_cons, List.zip_cons_cons,
            List.sum_cons] at this ⊢
          linarith
        | succ k =>
          have := ih Ys hl' hr k
          simp only [Learner.predict, List.take_succ_cons, List.map_cons, List.zip_cons_cons, List.sum_cons] at this ⊢
          linarith
  · unfold Learner.score Learner.predict
    rw [List.map_append, ← List.append_nil Ys, List.zip_append (by simp [hl])]
    simp

/-! ### latent learners -/

/-- What the order of samples, data sets put together, and copies do to the score `f` with largest losses `g`. -/
def Averages {S : Type} (f : List S → ℚ) (g : S → ℚ) : Prop :=
  (∀ d d' : List S, d.Perm d' → f d' = f d) ∧
  (∀ d e : List S, 0 < (d.map g).sum → 0 < (e.map g).sum →
    f (d ++ e) * ((d.map g).sum + (e.map g).sum) = f d * (d.map g).sum + f e * (e.map g).sum) ∧
  ∀ (d : List S) (k : ℕ), f (List.replicate (k + 1) d).flatten = f d

theorem ratio_averages {S : Type} (l g : S → ℚ) : Averages (fun d => 1 - (d.map l).sum / (d.map g).sum) g := by
  refine ⟨fun d d' h => ?_, fun d e hd he => ?_, fun d k => ?_⟩
  · simp only
    rw [(h.map l).sum_eq, (h.map g).sum_eq]
  · simp only [List.map_append, List.sum_append]
    have h3 : (d.map g).sum + (e.map g).sum ≠ 0 := by linarith
    field_simp
    ring
  · have h : ∀ (f : S → ℚ) (n : ℕ), ((List.replicate n d).flatten.map f).sum = n * (d.map f).sum := by
      intro f n
      induction n with
      | zero => simp
      | succ n ih =>
        rw [List.replicate_succ, List.flatten_cons, List.map_append, List.sum_append, ih]
        push_cast
        ring
    simp only
    rw [h, h, mul_div_mul_left]
    positivity

/-- **C186, latent learners.** The same holds for the scores of `LatentSSVM` and `SubgradientLatentSSVM`. -/
theorem C186_latent {H : Type} (L : LatentSSVM.LModel X Y H) (M : SubgradientLatent.SLModel X Y H) (w : W) :
    Averages (LatentSSVM.score L w) (fun s => L.maxLoss s.2) ∧ Averages (SubgradientLatent.score M w) (fun s => M.maxLoss s.2) := by
  refine ⟨?_, ratio_averages _ _⟩
  have : LatentSSVM.score L w = fun d =>
      1 - (d.map fun s => L.baseLoss s.2 (L.labelFromLatent (L.m.inference s.1 w))).sum / (d.map fun s => L.maxLoss s.2).sum := by
    funext d
    unfold LatentSSVM.score LatentSSVM.predict Learner.predict
    congr 2
    induction d with
    | nil => rfl
    | cons s d ih =>
      simp only [List.map_cons, List.zip_cons_cons, List.sum_cons] at ih ⊢
      rw [ih]
  rw [this]
  exact ratio_averages _ _

/-! ### examples -/

/-- A classifier with two classes, the second of weight 3. -/
def scoredClf : MultiClass := ⟨2, 1, ⟨2, fun c => if c = 0 then 1 else 3⟩, true, false⟩

/-- Two data sets, the second of which is predicted wrongly: the scores are 1, 0 and 1/4. -/
example := C186_parts (multiClassModel scoredClf) (fun _ => 0) [(fun _ => 1, 0)] [(fun _ => 2, 1)] (by decide +kernel) (by decide +kernel)

example : let score (l : List ((ℕ → ℚ) × ℕ)) :=
      Learner.score (multiClassModel scoredClf) (l.map Prod.snd) (Learner.predict (multiClassModel scoredClf) (fun _ => 0) (l.map Prod.fst))
    score [(fun _ => 1, 0)] = 1 ∧ score [(fun _ => 2, 1)] = 0 ∧ score ([(fun _ => 1, 0)] ++ [(fun _ => 2, 1)]) = 1 / 4 := by
  decide +kernel

/-- Better weights. -/
example := (C186_better (multiClassModel scoredClf) (fun _ => 0) (fun k => k) [(fun _ => 1, 1)] (by decide +kernel) (by decide +kernel)).2
  (by decide +kernel)

/-- A `GraphCRF` and two labels, both predicted wrongly; without the second instance half of the loss is gone. -/
example : let m := graphModel (fun _ => MaxProd.maxProductInfer ⟨5, 1 / 2, 1 / 100000⟩) ⟨2, fun _ => 1⟩ ⟨2, 1, false⟩
    let x : GraphCRF.X := ⟨⟨1, 1, fun _ _ => 1⟩, []⟩
    let y : YVal := .discrete ⟨1, fun _ => 1⟩
    Learner.score m [y, y] (Learner.predict m (fun _ => 0) ([x, x].take 1)) = 1 / 2 ∧
    Learner.score m [y, y] (Learner.predict m (fun _ => 0) [x, x]) = 0 := by
  decide +kernel

end Verif.Props
