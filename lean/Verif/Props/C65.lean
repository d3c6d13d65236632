import Verif.Props.C86

/-!
# C65: when Frank-Wolfe training runs through
-/

namespace Verif.Props

open Finset Verif.Learner Verif.FrankWolfe

variable {X Y : Type}

/-- batch training records at least one value. -/
theorem batchLoop_curve (m : SModel X Y) (cfg : Config) (samples : List (X × Y)) (n it : ℕ) (w : W) (l : ℚ)
    (c : Curves) (h : n ≠ 0 ∨ c.dual ≠ []) : (batchLoop m cfg samples n it w l c).2.dual ≠ [] := by
  induction n generalizing it w l c with
  | zero => simpa [batchLoop] using h
  | succ n ih =>
    unfold batchLoop
    simp only
    split
    · simp
    · exact ih _ _ _ _ (.inr (by simp))

/-- block-coordinate training with checks runs through; once the gap has been computed, it records values. -/
theorem bcLoop_ok (m : SModel X Y) (cfg : Config) (order : ℕ → List ℕ) (samples : List (X × Y))
    (hr : m.rescaleC = false) (n it : ℕ) (st : BC) (gap : Option ℚ) (c : Curves)
    (hgap : (it = 0 ∧ cfg.checkDualEvery ≠ 0) ∨ ∃ g, gap = some g) (h : n ≠ 0 ∨ c.dual ≠ [])
    (hg : (∃ g, gap = some g) → c.dual ≠ []) :
    ∃ r, bcLoop m cfg order samples n it st gap c = .ok r ∧ r.2.dual ≠ [] := by
  induction n generalizing it st gap c with
  | zero => exact ⟨_, rfl, by simpa using h⟩
  | succ n ih =>
    unfold bcLoop
    simp only
    by_cases hck : cfg.checkDualEvery ≠ 0 ∧ it % cfg.checkDualEvery = 0
    · rw [if_pos hck]
      unfold calcDualGap
      simp only [hr, Bool.false_eq_true, if_false]
      split
      · exact ⟨_, rfl, by simp⟩
      · exact ih _ _ _ _ (.inr ⟨_, rfl⟩) (.inr (by simp)) (fun _ => by simp)
    · rw [if_neg hck]
      rcases hgap with ⟨h0, h1⟩ | ⟨g, hg'⟩
      · exact absurd ⟨h1, by rw [h0, Nat.zero_mod]⟩ hck
      · subst hg'
        simp only
        have hc := hg ⟨g, rfl⟩
        split
        · exact ⟨_, rfl, hc⟩
        · exact ih _ _ _ _ (.inr ⟨_, rfl⟩) (.inr hc) (fun _ => hc)

/-- **C65.** Exactly when does `fit` of `FrankWolfeSSVM` run through: there must be samples, at least one
iteration, a model without `rescale_C`, and — in block-coordinate mode, which is what the property asks for and
the code violates — a check interval other than 0. -/
theorem C65_fit_succeeds_partial (m : SModel X Y) (order : ℕ → List ℕ) (o : FrankWolfe.Obj)
    (samples : List (X × Y)) :
    (∃ o', FrankWolfe.fit m order o samples = .ok o') ↔
      samples ≠ [] ∧ o.cfg.maxIter ≠ 0 ∧ m.rescaleC = false ∧
        (o.cfg.batchMode = true ∨ o.cfg.checkDualEvery ≠ 0) := by
  have hprimal : ∀ w, samples ≠ [] → ∃ p, objectivePrimal m w samples o.cfg.C true = .ok p := by
    intro w hne
    unfold objectivePrimal
    rw [if_neg (by simpa using hne)]
    exact ⟨_, rfl⟩
  have hprimal' : ∀ w, samples = [] → objectivePrimal m w samples o.cfg.C true = .error .indexError := by
    intro w hne
    subst hne
    rfl
  constructor
  · rintro ⟨o', h⟩
    unfold FrankWolfe.fit at h
    simp only at h
    have hne : samples ≠ [] := by
      intro h0
      split at h
      · cases h
      · rw [hprimal' _ h0] at h
        cases h
    refine ⟨hne, ?_, ?_, ?_⟩
    · intro h0
      rw [h0] at h
      by_cases hb : o.cfg.batchMode = true
      · simp only [hb, if_true, batchLoop, ne_eq, not_true_eq_false, and_false, if_false] at h
        obtain ⟨p, hp⟩ := hprimal (match o.w with | some w => w | none => fun _ => 0) hne
        split at h
        · cases h
        · simp at h
      · simp only [hb, Bool.false_eq_true, if_false, bcLoop, bcStart] at h
        split at h
        · cases h
        · simp at h
    · by_contra hr
      rw [Bool.not_eq_false] at hr
      have hm : o.cfg.maxIter ≠ 0 := by
        intro h0
        rw [h0] at h
        by_cases hb : o.cfg.batchMode = true
        · simp only [hb, if_true, batchLoop, ne_eq, not_true_eq_false, and_false, if_false] at h
          split at h
          · cases h
          · simp at h
        · simp only [hb, Bool.false_eq_true, if_false, bcLoop, bcStart] at h
          split at h
          · cases h
          · simp at h
      by_cases hb : o.cfg.batchMode = true
      · simp [hb, hr, hm] at h
      · obtain ⟨n, hn⟩ := Nat.exists_eq_succ_of_ne_zero hm
        simp only [hb, hn, Nat.succ_eq_add_one] at h
        unfold bcLoop calcDualGap at h
        simp only [hr, if_true] at h
        by_cases hc : o.cfg.checkDualEvery = 0
        · simp [hc] at h
        · simp [hc] at h
    · by_contra hc
      rw [not_or, not_not] at hc
      have hb : o.cfg.batchMode = false := by simpa using hc.1
      by_cases hm : o.cfg.maxIter = 0
      · rw [hm] at h
        simp only [hb, Bool.false_eq_true, if_false, bcLoop, bcStart] at h
        split at h
        · cases h
        · simp at h
      · have := C65_violated_no_checks m order o samples hb hc.2 hm
        unfold FrankWolfe.fit at this
        simp only at this
        rw [this] at h
        cases h
  · rintro ⟨hne, hm, hr, hb⟩
    unfold FrankWolfe.fit
    simp only
    by_cases hbm : o.cfg.batchMode = true
    · have hc := batchLoop_curve m o.cfg samples o.cfg.maxIter 0
        (match o.w with | some w => w | none => fun _ => 0) 0 ⟨[], []⟩ (.inl hm)
      simp only [hbm, if_true, hr, Bool.false_eq_true, false_and, if_false]
      split
      · rename_i h
        obtain ⟨p, hp⟩ := hprimal _ hne
        rw [hp] at h
        cases h
      · split
        · rename_i h
          rw [List.getLast?_eq_none_iff] at h
          exact absurd h (batchLoop_curve m o.cfg samples o.cfg.maxIter 0 _ 0 ⟨[], []⟩ (.inl hm))
        · exact ⟨_, rfl⟩
    · have hck : o.cfg.checkDualEvery ≠ 0 := hb.resolve_left hbm
      simp only [hbm]
      obtain ⟨r, h1, h2⟩ := bcLoop_ok m o.cfg order samples hr o.cfg.maxIter 0
        (bcStart (match o.w with | some w => w | none => fun _ => 0) (match o.l with | some l => l | none => 0))
        none ⟨[], []⟩ (.inl ⟨rfl, hck⟩) (.inl hm) (by rintro ⟨g, hg⟩; cases hg)
      obtain ⟨p, hp⟩ := hprimal r.1.selfW hne
      obtain ⟨d, hd⟩ := Option.ne_none_iff_exists'.mp (fun h => h2 (List.getLast?_eq_none_iff.mp h))
      refine ⟨⟨o.cfg, some r.1.selfW, some r.1.selfL, ⟨r.2.dual ++ [d], r.2.primal ++ [p]⟩⟩, ?_⟩
      cases hw : o.w <;> cases hl : o.l <;>
        · rw [hw, hl] at h1
          simp only at h1 ⊢
          rw [h1]
          simp only [hp, hd, Bool.false_eq_true, if_false]

/-- concrete instance: a `MultiClassClf`, one sample, batch mode. -/
example : ∃ o', FrankWolfe.fit (multiClassModel exampleClf) (fun _ => []) (exampleFW 3 true true false)
    [(fun _ => 1, 2)] = .ok o' :=
  (C65_fit_succeeds_partial _ _ _ _).mpr ⟨by simp, by decide, rfl, .inl rfl⟩

end Verif.Props
