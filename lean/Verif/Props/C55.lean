import Verif.Model.Logger
import Mathlib.Data.Nat.Digits.Lemmas

/-!
# C55: checkpoint schedule; C56: checkpoints are transparent and loadable
-/

namespace Verif.Props

open Verif.Logger

/-! ### specification -/

/-- What is stored of a learner: everything but the contents of the inference cache. -/
def stored {σ γ : Type} (l : Learner σ γ) : Learner σ γ :=
  ⟨l.state, match l.cache with
    | none => none
    | some _ => some none⟩

/-- Opening and writing files always works. -/
def NoFailures {σ γ : Type} (env : Env σ γ) : Prop := (∀ n, env.canOpen n = true) ∧ ∀ l, env.canDump l = true

/-- A file name without a percent sign. -/
def NoPercent (name : Name) : Prop := '%' ∉ name

/-- The moments at which a checkpoint is due. -/
def Due (saveEvery : ℕ) : Iter → Prop
  | .final => True
  | .num n => saveEvery ∣ n

/-! ### names -/

theorem hasD_false {name : Name} (h : NoPercent name) : hasD name = false := by
  induction name with
  | nil => rfl
  | cons c rest ih =>
    have hc : c ≠ '%' := fun e => h (by rw [e]; exact List.mem_cons_self ..)
    have hr := ih fun hm => h (List.mem_cons_of_mem _ hm)
    unfold hasD
    split
    · rename_i heq
      exact absurd (List.cons.inj heq).1 hc
    · rename_i heq
      rw [← (List.cons.inj heq).2]; exact hr
    · rfl

theorem hasD_template (pre post : Name) : hasD (pre ++ '%' :: 'd' :: post) = true := by
  induction pre with
  | nil => rfl
  | cons c rest ih =>
    rw [List.cons_append]
    unfold hasD
    split
    · rfl
    · rename_i heq
      rw [← (List.cons.inj heq).2]; exact ih
    · rename_i heq
      simp at heq

theorem format_cons (it : Iter) {c : Char} (hc : c ≠ '%') (rest : Name) (used : Bool) :
    format it (c :: rest) used = match format it rest used with
      | .error err => .error err
      | .ok s => .ok (c :: s) := by
  conv_lhs => unfold format
  split
  all_goals first
    | (rename_i heq; simp only [List.cons.injEq, reduceCtorEq] at heq; try exact absurd heq.1 hc)
    | skip
  all_goals first
    | (rename_i heq; simp only [List.cons.injEq] at heq; exact absurd heq.1 hc)
    | skip
  · rename_i heq _ _
    exact absurd (List.cons.inj heq).1 hc
  · rename_i heq _ _
    obtain ⟨rfl, rfl⟩ := List.cons.inj heq
    rfl

theorem format_noPercent (it : Iter) {name : Name} (h : NoPercent name) : format it name true = .ok name := by
  induction name with
  | nil => rfl
  | cons c rest ih =>
    have hc : c ≠ '%' := fun e => h (by rw [e]; exact List.mem_cons_self ..)
    rw [format_cons it hc, ih fun hm => h (List.mem_cons_of_mem _ hm)]

theorem format_template (n : ℕ) {pre post : Name} (h1 : NoPercent pre) (h2 : NoPercent post) :
    format (.num n) (pre ++ '%' :: 'd' :: post) false = .ok (pre ++ decimal n ++ post) := by
  induction pre with
  | nil =>
    have : format (.num n) ('%' :: 'd' :: post) false = match format (.num n) post true with
      | .error err => .error err
      | .ok s => .ok (decimal n ++ s) := rfl
    rw [List.nil_append, this, format_noPercent _ h2]
    rfl
  | cons c rest ih =>
    have hc : c ≠ '%' := fun e => h1 (by rw [e]; exact List.mem_cons_self ..)
    rw [List.cons_append, format_cons _ hc, ih fun hm => h1 (List.mem_cons_of_mem _ hm)]
    rfl

theorem format_final {pre : Name} (post : Name) (h1 : NoPercent pre) :
    format .final (pre ++ '%' :: 'd' :: post) false = .error .typeError := by
  induction pre with
  | nil => rfl
  | cons c rest ih =>
    have hc : c ≠ '%' := fun e => h1 (by rw [e]; exact List.mem_cons_self ..)
    rw [List.cons_append, format_cons _ hc, ih fun hm => h1 (List.mem_cons_of_mem _ hm)]

theorem digitChar_inj {a b : ℕ} (ha : a < 10) (hb : b < 10) (h : Nat.digitChar a = Nat.digitChar b) : a = b := by
  interval_cases a <;> interval_cases b <;> first | rfl | (exfalso; revert h; decide)

theorem digits_map_inj {l l' : List ℕ} (hl : ∀ d ∈ l, d < 10) (hl' : ∀ d ∈ l', d < 10)
    (h : l.map Nat.digitChar = l'.map Nat.digitChar) : l = l' := by
  induction l generalizing l' with
  | nil =>
    cases l' with
    | nil => rfl
    | cons b l' => simp at h
  | cons a l ih =>
    cases l' with
    | nil => simp at h
    | cons b l' =>
      simp only [List.map_cons, List.cons.injEq] at h
      rw [digitChar_inj (hl a (List.mem_cons_self ..)) (hl' b (List.mem_cons_self ..)) h.1,
        ih (fun d hd => hl d (List.mem_cons_of_mem _ hd)) (fun d hd => hl' d (List.mem_cons_of_mem _ hd)) h.2]

theorem digits_eq_zero {n : ℕ} (hn : n ≠ 0) (h : (Nat.digits 10 n).map Nat.digitChar = ['0']) : False := by
  have h0 : (['0'] : List Char) = [0].map Nat.digitChar := rfl
  rw [h0] at h
  have := digits_map_inj (fun d hd => Nat.digits_lt_base (by norm_num) hd) (by simp) h
  have h1 := Nat.ofDigits_digits 10 n
  rw [this] at h1
  simp at h1
  exact hn h1.symm

/-- Different numbers are written differently. -/
theorem decimal_inj {a b : ℕ} (h : decimal a = decimal b) : a = b := by
  unfold decimal at h
  by_cases ha : a = 0
  · by_cases hb : b = 0
    · rw [ha, hb]
    · rw [if_pos ha, if_neg hb] at h
      have h' := congrArg List.reverse h
      rw [List.reverse_reverse] at h'
      exact absurd h'.symm (digits_eq_zero hb)
  · by_cases hb : b = 0
    · rw [if_neg ha, if_pos hb] at h
      have h' := congrArg List.reverse h
      rw [List.reverse_reverse] at h'
      exact absurd h' (digits_eq_zero ha)
    · rw [if_neg ha, if_neg hb] at h
      have h' := List.reverse_injective h
      have := digits_map_inj (fun d hd => Nat.digits_lt_base (by norm_num) hd)
        (fun d hd => Nat.digits_lt_base (by norm_num) hd) h'
      exact Nat.digits.injective 10 this

theorem decimal_noPercent (n : ℕ) : NoPercent (decimal n) := by
  unfold NoPercent decimal
  split_ifs
  · decide
  · intro h
    rw [List.mem_reverse, List.mem_map] at h
    obtain ⟨d, hd, he⟩ := h
    have : d < 10 := Nat.digits_lt_base (by norm_num) hd
    interval_cases d <;> revert he <;> decide

/-! ### single calls -/

theorem save_ok {σ γ : Type} (env : Env σ γ) (h : NoFailures env) (files : Files σ γ) (l : Learner σ γ) (name : Name) :
    save env files l name = ⟨files.set name (.pickled (stored l)), l, .ok ()⟩ := by
  obtain ⟨s, c⟩ := l
  unfold save
  rw [if_neg (by rw [h.1]; simp)]
  cases c with
  | none => simp only; rw [if_pos (h.2 _)]; rfl
  | some c => simp only; rw [if_pos (h.2 _)]; rfl

theorem due_iff (lg : SaveLogger) (h : 1 ≤ lg.saveEvery) (it : Iter) :
    ∃ b, due lg it = .ok b ∧ (b = true ↔ Due lg.saveEvery it) := by
  cases it with
  | final => exact ⟨true, rfl, by simp [Due]⟩
  | num n =>
    refine ⟨decide (n % lg.saveEvery = 0), ?_, ?_⟩
    · unfold due
      simp only
      rw [if_neg (by omega)]
    · simp [Due, Nat.dvd_iff_mod_eq_zero]

theorem call_plain {σ γ : Type} (env : Env σ γ) (h : NoFailures env) (lg : SaveLogger) (hs : 1 ≤ lg.saveEvery)
    (hn : hasD lg.fileName = false) (files : Files σ γ) (l : Learner σ γ) (it : Iter) :
    (Due lg.saveEvery it → call env lg files l it = ⟨files.set lg.fileName (.pickled (stored l)), l, .ok ()⟩) ∧
      (¬ Due lg.saveEvery it → call env lg files l it = ⟨files, l, .ok ()⟩) := by
  obtain ⟨b, hb, hiff⟩ := due_iff lg hs it
  unfold call
  rw [hb]
  cases b with
  | true =>
    refine ⟨fun _ => ?_, fun hnot => absurd (hiff.mp rfl) hnot⟩
    simp only
    rw [if_neg (by rw [hn]; simp), save_ok env h]
  | false =>
    refine ⟨fun hd => ?_, fun _ => rfl⟩
    have := hiff.mpr hd
    simp at this

theorem call_template {σ γ : Type} (env : Env σ γ) (h : NoFailures env) (lg : SaveLogger) (hs : 1 ≤ lg.saveEvery)
    (pre post : Name) (h1 : NoPercent pre) (h2 : NoPercent post) (hn : lg.fileName = pre ++ '%' :: 'd' :: post)
    (files : Files σ γ) (l : Learner σ γ) (n : ℕ) :
    call env lg files l (.num n) = ⟨if lg.saveEvery ∣ n then
      files.set (pre ++ decimal n ++ post) (.pickled (stored l)) else files, l, .ok ()⟩ := by
  obtain ⟨b, hb, hiff⟩ := due_iff lg hs (.num n)
  unfold call
  rw [hb]
  cases b with
  | true =>
    simp only
    have hd : lg.saveEvery ∣ n := hiff.mp rfl
    rw [if_pos hd, hn, hasD_template, if_pos rfl, format_template n h1 h2]
    simp only
    rw [save_ok env h]
  | false =>
    have hd : ¬ lg.saveEvery ∣ n := fun hd => by
      have := hiff.mpr hd
      simp at this
    rw [if_neg hd]

/-! ### C55 -/

/-- **C55** (plain name): a call writes the file if and only if it is the final one or the iteration is
divisible by the period; nothing else changes and nothing is raised. -/
theorem C55_schedule_plain {σ γ : Type} (env : Env σ γ) (h : NoFailures env) (lg : SaveLogger)
    (hs : 1 ≤ lg.saveEvery) (hn : NoPercent lg.fileName) (files : Files σ γ) (l : Learner σ γ) (it : Iter) :
    (call env lg files l it).result = .ok () ∧ (call env lg files l it).learner = l ∧
    (Due lg.saveEvery it → (call env lg files l it).files lg.fileName = .pickled (stored l)) ∧
    (¬ Due lg.saveEvery it → (call env lg files l it).files = files) ∧
    ∀ n, n ≠ lg.fileName → (call env lg files l it).files n = files n := by
  obtain ⟨h1, h2⟩ := call_plain env h lg hs (hasD_false hn) files l it
  by_cases hd : Due lg.saveEvery it
  · rw [h1 hd]
    exact ⟨rfl, rfl, fun _ => by simp [Files.set], fun hc => absurd hd hc, fun n hne => by simp [Files.set, hne]⟩
  · rw [h2 hd]
    exact ⟨rfl, rfl, fun hc => absurd hc hd, fun _ => rfl, fun n _ => rfl⟩

/-- The calls of iterations `0, …, k - 1`. -/
def trainingCalls {σ γ : Type} (L : ℕ → Learner σ γ) (k : ℕ) : List (Learner σ γ × Iter) :=
  (List.range k).map fun i => (L i, .num i)

theorem run_cons {σ γ : Type} (env : Env σ γ) (lg : SaveLogger) (files : Files σ γ) (l : Learner σ γ) (it : Iter)
    (b : List (Learner σ γ × Iter)) :
    run env lg files ((l, it) :: b) = match (call env lg files l it).result with
      | .error err => .error err
      | .ok _ => run env lg (call env lg files l it).files b := rfl

theorem run_append {σ γ : Type} (env : Env σ γ) (lg : SaveLogger) (files : Files σ γ)
    (a b : List (Learner σ γ × Iter)) :
    run env lg files (a ++ b) = match run env lg files a with
      | .error err => .error err
      | .ok f => run env lg f b := by
  induction a generalizing files with
  | nil => rfl
  | cons p a ih =>
    obtain ⟨l, it⟩ := p
    rw [List.cons_append, run_cons, run_cons]
    cases (call env lg files l it).result with
    | error err => rfl
    | ok _ => exact ih _

/-- **C55** (name with `%d`): after `k` iterations, for each iteration divisible by the period there is a file
of its own that holds the learner of that iteration; all other files are as before. -/
theorem C55_schedule_template {σ γ : Type} (env : Env σ γ) (h : NoFailures env) (lg : SaveLogger)
    (hs : 1 ≤ lg.saveEvery) (pre post : Name) (h1 : NoPercent pre) (h2 : NoPercent post)
    (hn : lg.fileName = pre ++ '%' :: 'd' :: post) (files : Files σ γ) (L : ℕ → Learner σ γ) (k : ℕ) :
    ∃ files', run env lg files (trainingCalls L k) = .ok files' ∧
      (∀ i < k, lg.saveEvery ∣ i → files' (pre ++ decimal i ++ post) = .pickled (stored (L i))) ∧
      ∀ n, (∀ i < k, lg.saveEvery ∣ i → n ≠ pre ++ decimal i ++ post) → files' n = files n := by
  induction k with
  | zero => exact ⟨files, rfl, fun i hi => absurd hi (by omega), fun n _ => rfl⟩
  | succ k ih =>
    obtain ⟨f, hf, hin, hout⟩ := ih
    have hstep : run env lg files (trainingCalls L (k + 1)) = .ok (if lg.saveEvery ∣ k then
        f.set (pre ++ decimal k ++ post) (.pickled (stored (L k))) else f) := by
      have : trainingCalls L (k + 1) = trainingCalls L k ++ [(L k, .num k)] := by
        unfold trainingCalls
        rw [List.range_succ, List.map_append]
        rfl
      rw [this, run_append, hf]
      simp only
      unfold run
      rw [call_template env h lg hs pre post h1 h2 hn]
      rfl
    refine ⟨_, hstep, fun i hi hd => ?_, fun n hne => ?_⟩
    · by_cases hik : i = k
      · subst hik
        rw [if_pos hd]
        simp [Files.set]
      · by_cases hk : lg.saveEvery ∣ k
        · rw [if_pos hk]
          have hne : pre ++ decimal i ++ post ≠ pre ++ decimal k ++ post := by
            intro he
            have := List.append_cancel_left (List.append_cancel_right he)
            exact hik (decimal_inj this)
          unfold Files.set
          rw [if_neg hne]
          exact hin i (by omega) hd
        · rw [if_neg hk]
          exact hin i (by omega) hd
    · by_cases hk : lg.saveEvery ∣ k
      · rw [if_pos hk]
        unfold Files.set
        rw [if_neg (hne k (by omega) hk)]
        exact hout n fun i hi hd => hne i (by omega) hd
      · rw [if_neg hk]
        exact hout n fun i hi hd => hne i (by omega) hd

/-- **C55** (different files): different iterations are stored in different files. -/
theorem C55_distinct_files (pre post : Name) {i j : ℕ} (hij : i ≠ j) :
    pre ++ decimal i ++ post ≠ pre ++ decimal j ++ post := fun he =>
  hij (decimal_inj (List.append_cancel_left (List.append_cancel_right he)))

/-- **C55 violated**: with `%d` in the name the final call always raises `TypeError` and stores nothing. -/
theorem C55_violated_final {σ γ : Type} (env : Env σ γ) (lg : SaveLogger) (pre post : Name) (h1 : NoPercent pre)
    (hn : lg.fileName = pre ++ '%' :: 'd' :: post) (files : Files σ γ) (l : Learner σ γ) :
    (call env lg files l .final).result = .error .typeError ∧ (call env lg files l .final).files = files := by
  unfold call due
  simp only
  rw [hn, hasD_template, if_pos rfl, format_final post h1]
  exact ⟨rfl, rfl⟩

/-- **C55 violated**: hence every training run that ends with the final call fails. -/
theorem C55_violated_training {σ γ : Type} (env : Env σ γ) (h : NoFailures env) (lg : SaveLogger)
    (hs : 1 ≤ lg.saveEvery) (pre post : Name) (h1 : NoPercent pre) (h2 : NoPercent post)
    (hn : lg.fileName = pre ++ '%' :: 'd' :: post) (files : Files σ γ) (L : ℕ → Learner σ γ) (k : ℕ)
    (l : Learner σ γ) :
    run env lg files (trainingCalls L k ++ [(l, .final)]) = .error .typeError := by
  obtain ⟨f, hf, _⟩ := C55_schedule_template env h lg hs pre post h1 h2 hn files L k
  rw [run_append, hf]
  simp only
  unfold run
  rw [(C55_violated_final env lg pre post h1 hn f l).1]

/-- A period of 0 raises `ZeroDivisionError` in the first iteration. -/
theorem C55_zero_period {σ γ : Type} (env : Env σ γ) (lg : SaveLogger) (hs : lg.saveEvery = 0)
    (files : Files σ γ) (l : Learner σ γ) (n : ℕ) :
    call env lg files l (.num n) = ⟨files, l, .error .zeroDivisionError⟩ := by
  unfold call due
  simp only
  rw [if_pos hs]

/-- The name `model_%d.pkl` fits, and 12 is written as expected. -/
example : "model_%d.pkl".toList = "model_".toList ++ '%' :: 'd' :: ".pkl".toList ∧
    NoPercent "model_".toList ∧ NoPercent ".pkl".toList ∧
    format (.num 12) "model_%d.pkl".toList false = .ok "model_12.pkl".toList := by
  refine ⟨by decide, by unfold NoPercent; decide, by unfold NoPercent; decide, ?_⟩
  have := format_template 12 (pre := "model_".toList) (post := ".pkl".toList) (by unfold NoPercent; decide)
    (by unfold NoPercent; decide)
  have h12 : decimal 12 = ['1', '2'] := by simp [decimal]
  rw [h12] at this
  exact this

/-- An environment without failures. -/
example : NoFailures (σ := ℕ) (γ := ℕ) ⟨fun _ => true, fun _ => true⟩ := ⟨fun _ => rfl, fun _ => rfl⟩

/-! ### C56 -/

/-- **C56** (transparency, the part that holds): if saving raises nothing, the learner in memory is unchanged
(cache included), the file holds the learner without the contents of its cache, and no other file changes. -/
theorem C56_transparent_partial {σ γ : Type} (env : Env σ γ) (files : Files σ γ) (l : Learner σ γ) (name : Name)
    (hok : (save env files l name).result = .ok ()) :
    (save env files l name).learner = l ∧ (save env files l name).files name = .pickled (stored l) ∧
      ∀ n, n ≠ name → (save env files l name).files n = files n := by
  obtain ⟨s, c⟩ := l
  unfold save at hok ⊢
  by_cases ho : env.canOpen name = false
  · rw [if_pos ho] at hok
    simp at hok
  · rw [if_neg ho] at hok ⊢
    cases c with
    | none =>
      simp only at hok ⊢
      by_cases hd : env.canDump ⟨s, none⟩ = true
      · rw [if_pos hd]
        exact ⟨rfl, by simp [Files.set, stored], fun n hne => by simp [Files.set, hne]⟩
      · rw [if_neg hd] at hok
        simp at hok
    | some c =>
      simp only at hok ⊢
      by_cases hd : env.canDump ⟨s, some none⟩ = true
      · rw [if_pos hd]
        exact ⟨rfl, by simp [Files.set, stored], fun n hne => by simp [Files.set, hne]⟩
      · rw [if_neg hd] at hok
        simp at hok

/-- **C56**: if the file cannot be opened, saving raises and changes nothing. -/
theorem C56_cannot_open {σ γ : Type} (env : Env σ γ) (files : Files σ γ) (l : Learner σ γ) (name : Name)
    (ho : env.canOpen name = false) :
    save env files l name = ⟨files, l, .error .exception⟩ := by
  unfold save
  rw [if_pos ho]

/-- **C56 violated**: if writing raises, every learner that has a nonempty cache loses it. -/
theorem C56_violated_cache_lost {σ γ : Type} (env : Env σ γ) (files : Files σ γ) (s : σ) (c : γ) (name : Name)
    (ho : env.canOpen name = true) (hd : env.canDump ⟨s, some none⟩ = false) :
    (save env files ⟨s, some (some c)⟩ name).result = .error .exception ∧
      (save env files ⟨s, some (some c)⟩ name).learner.cache = some none ∧
      (save env files ⟨s, some (some c)⟩ name).learner ≠ ⟨s, some (some c)⟩ := by
  unfold save
  rw [if_neg (by rw [ho]; simp)]
  simp only
  rw [if_neg (by rw [hd]; simp)]
  exact ⟨rfl, rfl, by simp⟩

/-- **C56 violated**: if writing raises, the previous checkpoint of that name is gone too, and loading
fails. -/
theorem C56_violated_previous_lost {σ γ : Type} (env : Env σ γ) (lg : SaveLogger) (files : Files σ γ)
    (l : Learner σ γ) (ho : env.canOpen lg.fileName = true) (hd : env.canDump (stored l) = false) :
    load lg (save env files l lg.fileName).files = .error .exception := by
  obtain ⟨s, c⟩ := l
  unfold save
  rw [if_neg (by rw [ho]; simp)]
  cases c with
  | none =>
    simp only [stored] at hd ⊢
    rw [if_neg (by rw [hd]; simp)]
    simp [load, Files.set]
  | some c =>
    simp only [stored] at hd ⊢
    rw [if_neg (by rw [hd]; simp)]
    simp [load, Files.set]

theorem run_plain_notDue {σ γ : Type} (env : Env σ γ) (h : NoFailures env) (lg : SaveLogger) (hs : 1 ≤ lg.saveEvery)
    (hn : NoPercent lg.fileName) (files : Files σ γ) (calls : List (Learner σ γ × Iter))
    (hc : ∀ p ∈ calls, ¬ Due lg.saveEvery p.2) : run env lg files calls = .ok files := by
  induction calls with
  | nil => rfl
  | cons p calls ih =>
    obtain ⟨l, it⟩ := p
    unfold run
    rw [(call_plain env h lg hs (hasD_false hn) files l it).2 (hc (l, it) (List.mem_cons_self ..))]
    exact ih fun q hq => hc q (List.mem_cons_of_mem _ hq)

theorem run_plain_ok {σ γ : Type} (env : Env σ γ) (h : NoFailures env) (lg : SaveLogger) (hs : 1 ≤ lg.saveEvery)
    (hn : NoPercent lg.fileName) (files : Files σ γ) (calls : List (Learner σ γ × Iter)) :
    ∃ f, run env lg files calls = .ok f := by
  induction calls generalizing files with
  | nil => exact ⟨files, rfl⟩
  | cons p calls ih =>
    obtain ⟨l, it⟩ := p
    unfold run
    rw [(C55_schedule_plain env h lg hs hn files l it).1]
    exact ih _

/-- **C56** (loading): in every run without failures, loading returns the learner of the last call at which a
checkpoint was due, without the contents of its cache. -/
theorem C56_load_last {σ γ : Type} (env : Env σ γ) (h : NoFailures env) (lg : SaveLogger) (hs : 1 ≤ lg.saveEvery)
    (hn : NoPercent lg.fileName) (files : Files σ γ) (before after : List (Learner σ γ × Iter)) (l : Learner σ γ)
    (it : Iter) (hd : Due lg.saveEvery it) (ha : ∀ p ∈ after, ¬ Due lg.saveEvery p.2) :
    ∃ f, run env lg files (before ++ (l, it) :: after) = .ok f ∧ load lg f = .ok (stored l) := by
  obtain ⟨f, hf⟩ := run_plain_ok env h lg hs hn files before
  refine ⟨f.set lg.fileName (.pickled (stored l)), ?_, by simp [load, Files.set]⟩
  rw [run_append, hf]
  simp only
  unfold run
  rw [(call_plain env h lg hs (hasD_false hn) f l it).1 hd]
  exact run_plain_notDue env h lg hs hn _ after ha

/-- **C56 violated**: with `%d` in the name nothing can be loaded, whatever has been saved, unless a file with
the literal name existed before. -/
theorem C56_violated_load_template {σ γ : Type} (env : Env σ γ) (h : NoFailures env) (lg : SaveLogger)
    (hs : 1 ≤ lg.saveEvery) (pre post : Name) (h1 : NoPercent pre) (h2 : NoPercent post)
    (hn : lg.fileName = pre ++ '%' :: 'd' :: post) (files : Files σ γ) (hf : files lg.fileName = .absent)
    (L : ℕ → Learner σ γ) (k : ℕ) :
    ∃ f, run env lg files (trainingCalls L k) = .ok f ∧ load lg f = .error .exception := by
  obtain ⟨f, hr, _, hout⟩ := C55_schedule_template env h lg hs pre post h1 h2 hn files L k
  refine ⟨f, hr, ?_⟩
  have : f lg.fileName = .absent := by
    rw [hout lg.fileName ?_, hf]
    intro i _ _ he
    have h3 : '%' ∈ pre ++ decimal i ++ post := by
      rw [← he, hn]
      simp
    rw [List.mem_append, List.mem_append] at h3
    rcases h3 with (h3 | h3) | h3
    · exact h1 h3
    · exact decimal_noPercent i h3
    · exact h2 h3
  unfold load
  rw [this]

/-- A run of three iterations with period 2 and a final call: the last checkpoint due is the final one. -/
example : Due 2 .final ∧ Due 2 (.num 2) ∧ ¬ Due 2 (.num 3) := by
  refine ⟨trivial, ?_, ?_⟩ <;> simp only [Due] <;> decide

end Verif.Props
