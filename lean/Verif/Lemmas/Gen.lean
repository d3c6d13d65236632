import Verif.Model.Datasets
import Verif.Spec.Datasets
import Mathlib.Data.List.Forall2
import Mathlib.Tactic.Ring
import Mathlib.Tactic.Linarith

/-! Reasoning about programs that draw random numbers. -/

namespace Verif.Datasets

open Verif.Spec

/-- every result satisfies `P`. -/
def Post {α : Type} (x : Gen α) (P : α → Prop) : Prop := ∀ tape p a q, x tape p = .done (a, q) → P a

/-- every run ends with a result that satisfies `P`. -/
def Total {α : Type} (x : Gen α) (P : α → Prop) : Prop := ∀ tape p, ∃ a q, x tape p = .done (a, q) ∧ P a

theorem bind_run {α β : Type} (x : Gen α) (f : α → Gen β) (tape : ℕ → ℕ) (p : ℕ) :
    (x >>= f) tape p = match x tape p with
      | .diverged => .diverged
      | .raised e => .raised e
      | .done (a, q) => f a tape q := rfl

theorem pure_run {α : Type} (a : α) (tape : ℕ → ℕ) (p : ℕ) : (pure a : Gen α) tape p = .done (a, p) := rfl

theorem bind_done {α β : Type} {x : Gen α} {f : α → Gen β} {tape : ℕ → ℕ} {p q : ℕ} {b : β} :
    (x >>= f) tape p = .done (b, q) ↔ ∃ a r, x tape p = .done (a, r) ∧ f a tape r = .done (b, q) := by
  rw [bind_run]
  cases h : x tape p with
  | diverged => simp
  | raised e => simp
  | done v =>
    obtain ⟨a, r⟩ := v
    constructor
    · intro h'; exact ⟨a, r, rfl, h'⟩
    · rintro ⟨a', r', h1, h2⟩
      cases h1; exact h2

theorem bind_of_done {α β : Type} {x : Gen α} (f : α → Gen β) {tape : ℕ → ℕ} {p r : ℕ} {a : α}
    (h : x tape p = .done (a, r)) : (x >>= f) tape p = f a tape r := by rw [bind_run, h]

theorem bind_of_diverged {α β : Type} {x : Gen α} (f : α → Gen β) {tape : ℕ → ℕ} {p : ℕ}
    (h : x tape p = .diverged) : (x >>= f) tape p = .diverged := by rw [bind_run, h]

theorem bind_of_raised {α β : Type} {x : Gen α} (f : α → Gen β) {tape : ℕ → ℕ} {p : ℕ} {e : PyErr}
    (h : x tape p = .raised e) : (x >>= f) tape p = .raised e := by rw [bind_run, h]

theorem Post.bind {α β : Type} {x : Gen α} {f : α → Gen β} {P : α → Prop} {Q : β → Prop} (hx : Post x P)
    (hf : ∀ a, P a → Post (f a) Q) : Post (x >>= f) Q := by
  intro tape p b q h
  obtain ⟨a, r, h1, h2⟩ := bind_done.1 h
  exact hf a (hx _ _ _ _ h1) _ _ _ _ h2

theorem Post.pure {α : Type} {a : α} {P : α → Prop} (h : P a) : Post (Pure.pure a : Gen α) P := by
  intro tape p b q hb
  rw [pure_run] at hb
  cases hb; exact h

theorem Post.mono {α : Type} {x : Gen α} {P Q : α → Prop} (h : Post x P) (hPQ : ∀ a, P a → Q a) : Post x Q :=
  fun tape p a q ha => hPQ a (h tape p a q ha)

theorem Post.trivial {α : Type} (x : Gen α) : Post x fun _ => True := fun _ _ _ _ _ => True.intro

theorem Total.bind {α β : Type} {x : Gen α} {f : α → Gen β} {P : α → Prop} {Q : β → Prop} (hx : Total x P)
    (hf : ∀ a, P a → Total (f a) Q) : Total (x >>= f) Q := by
  intro tape p
  obtain ⟨a, r, h1, h2⟩ := hx tape p
  obtain ⟨b, q, h3, h4⟩ := hf a h2 tape r
  exact ⟨b, q, by rw [bind_of_done f h1, h3], h4⟩

theorem Total.pure {α : Type} {a : α} {P : α → Prop} (h : P a) : Total (Pure.pure a : Gen α) P :=
  fun _ p => ⟨a, p, rfl, h⟩

theorem Total.mono {α : Type} {x : Gen α} {P Q : α → Prop} (h : Total x P) (hPQ : ∀ a, P a → Q a) : Total x Q := by
  intro tape p
  obtain ⟨a, q, h1, h2⟩ := h tape p
  exact ⟨a, q, h1, hPQ a h2⟩

theorem Total.and_post {α : Type} {x : Gen α} {P Q : α → Prop} (h : Total x P) (h' : Post x Q) :
    Total x fun a => P a ∧ Q a := by
  intro tape p
  obtain ⟨a, q, h1, h2⟩ := h tape p
  exact ⟨a, q, h1, h2, h' _ _ _ _ h1⟩

theorem randint_post (lo hi : ℕ) : Post (randint lo hi) fun a => lo ≤ a ∧ a < hi := by
  intro tape p a q h
  unfold randint at h
  split_ifs at h with hlt
  cases h
  have := Nat.mod_lt (tape p) (show 0 < hi - lo by omega)
  omega

theorem randint_total {lo hi : ℕ} (h : lo < hi) : Total (randint lo hi) fun a => lo ≤ a ∧ a < hi := by
  intro tape p
  refine ⟨lo + tape p % (hi - lo), p + 1, ?_, ?_⟩
  · unfold randint; rw [if_neg (by omega)]
  · have := Nat.mod_lt (tape p) (show 0 < hi - lo by omega)
    omega

theorem randint_raised {lo hi : ℕ} (h : hi ≤ lo) (tape : ℕ → ℕ) (p : ℕ) :
    randint lo hi tape p = .raised .valueError := by unfold randint; rw [if_pos h]

theorem randints_post (lo hi : ℕ) : ∀ k, Post (randints lo hi k) fun l => l.length = k ∧ ∀ a ∈ l, lo ≤ a ∧ a < hi
  | 0 => Post.pure ⟨rfl, by simp⟩
  | k + 1 => by
    refine Post.bind (randint_post lo hi) fun a ha => Post.bind (randints_post lo hi k) fun l hl => Post.pure ?_
    refine ⟨by simp [hl.1], ?_⟩
    intro b hb
    rcases List.mem_cons.1 hb with rfl | hb
    · exact ha
    · exact hl.2 b hb

theorem randints_total {lo hi : ℕ} (h : lo < hi) : ∀ k, Total (randints lo hi k) fun _ => True
  | 0 => Total.pure True.intro
  | k + 1 => Total.bind (randint_total h) fun _ _ => Total.bind (randints_total h k) fun _ _ => Total.pure True.intro

theorem pair_post (lo hi : ℕ) : Post (pair lo hi) fun p => (lo ≤ p.1 ∧ p.1 < hi) ∧ lo ≤ p.2 ∧ p.2 < hi :=
  Post.bind (randint_post lo hi) fun _ ha => Post.bind (randint_post lo hi) fun _ hb => Post.pure ⟨ha, hb⟩

theorem pair_total {lo hi : ℕ} (h : lo < hi) :
    Total (pair lo hi) fun p => (lo ≤ p.1 ∧ p.1 < hi) ∧ lo ≤ p.2 ∧ p.2 < hi :=
  Total.bind (randint_total h) fun _ ha => Total.bind (randint_total h) fun _ hb => Total.pure ⟨ha, hb⟩

theorem pair_raised {lo hi : ℕ} (h : hi ≤ lo) (tape : ℕ → ℕ) (p : ℕ) : pair lo hi tape p = .raised .valueError :=
  bind_of_raised _ (randint_raised h tape p)

theorem pair_run {lo hi : ℕ} (h : lo < hi) (tape : ℕ → ℕ) (p : ℕ) :
    pair lo hi tape p = .done ((lo + tape p % (hi - lo), lo + tape (p + 1) % (hi - lo)), p + 2) := by
  have h1 : ∀ p, randint lo hi tape p = .done (lo + tape p % (hi - lo), p + 1) := fun p => by
    unfold randint; rw [if_neg (by omega)]
  unfold pair
  rw [bind_of_done _ (h1 p), bind_of_done _ (h1 (p + 1))]
  rfl

theorem times_post {σ : Type} {body : σ → Gen σ} {I : σ → Prop} (h : ∀ s, I s → Post (body s) I) :
    ∀ n s, I s → Post (times body n s) I
  | 0, _, hs => Post.pure hs
  | n + 1, s, hs => Post.bind (h s hs) fun _ hs' => times_post h n _ hs'

theorem times_total {σ : Type} {body : σ → Gen σ} {I : σ → Prop} (h : ∀ s, I s → Total (body s) I) :
    ∀ n s, I s → Total (times body n s) I
  | 0, _, hs => Total.pure hs
  | n + 1, s, hs => Total.bind (h s hs) fun _ hs' => times_total h n _ hs'

theorem collect_post {α : Type} {body : Gen α} {P : α → Prop} (h : Post body P) :
    ∀ n, Post (collect body n) fun l => l.length = n ∧ ∀ a ∈ l, P a
  | 0 => Post.pure ⟨rfl, by simp⟩
  | n + 1 => by
    refine Post.bind h fun a ha => Post.bind (collect_post h n) fun l hl => Post.pure ?_
    refine ⟨by simp [hl.1], ?_⟩
    intro b hb
    rcases List.mem_cons.1 hb with rfl | hb
    · exact ha
    · exact hl.2 b hb

theorem collect_total {α : Type} {body : Gen α} {P : α → Prop} (h : Total body P) :
    ∀ n, Total (collect body n) fun l => l.length = n ∧ ∀ a ∈ l, P a
  | 0 => Total.pure ⟨rfl, by simp⟩
  | n + 1 => by
    refine Total.bind h fun a ha => Total.bind (collect_total h n) fun l hl => Total.pure ?_
    refine ⟨by simp [hl.1], ?_⟩
    intro b hb
    rcases List.mem_cons.1 hb with rfl | hb
    · exact ha
    · exact hl.2 b hb

theorem forAll_post {α β : Type} {body : α → Gen β} {R : α → β → Prop} (h : ∀ a, Post (body a) (R a)) :
    ∀ l, Post (forAll body l) fun bs => List.Forall₂ R l bs
  | [] => Post.pure List.Forall₂.nil
  | _ :: l => Post.bind (h _) fun _ hb => Post.bind (forAll_post h l) fun _ hbs => Post.pure (List.Forall₂.cons hb hbs)

theorem forAll_total {α β : Type} {body : α → Gen β} (h : ∀ a, Total (body a) fun _ => True) :
    ∀ l, Total (forAll body l) fun _ => True
  | [] => Total.pure True.intro
  | _ :: l => Total.bind (h _) fun _ _ => Total.bind (forAll_total h l) fun _ _ => Total.pure True.intro

theorem until_post {α : Type} {draw : Gen α} {ok : α → Bool} {P : α → Prop} (h : Post draw P) :
    ∀ fuel, Post (until_ draw ok fuel) fun a => P a ∧ ok a = true
  | 0 => fun _ _ _ _ h' => nomatch h'
  | fuel + 1 => by
    refine Post.bind h fun a ha => ?_
    by_cases hok : ok a = true
    · simp only [hok, if_true]; exact Post.pure ⟨ha, hok⟩
    · simp only [hok]; exact until_post h fuel

/-- the noise: which pixels change, and which labels they get. -/
theorem assign_spec : ∀ (fl vs : List ℕ) (y : Img) (lo hi k : ℕ), fl.length = 2 * vs.length →
    (∀ a ∈ fl, lo ≤ a ∧ a < hi) → (∀ v ∈ vs, v < k) →
    (∃ L : List (ℕ × ℕ), L.length ≤ vs.length ∧ (∀ p ∈ L, (lo ≤ p.1 ∧ p.1 < hi) ∧ lo ≤ p.2 ∧ p.2 < hi) ∧
      ∀ i j, (i, j) ∉ L → assign y fl vs i j = y i j) ∧
    ∀ i j, assign y fl vs i j < k ∨ assign y fl vs i j = y i j := by
  intro fl vs
  induction vs generalizing fl with
  | nil =>
    intro y lo hi k hlen _ _
    have : fl = [] := by cases fl with
      | nil => rfl
      | cons a l => simp at hlen
    subst this
    exact ⟨⟨[], by simp, by simp, fun _ _ _ => rfl⟩, fun _ _ => .inr rfl⟩
  | cons v vs ih =>
    intro y lo hi k hlen hfl hvs
    match fl, hlen, hfl with
    | [], hlen, _ => simp at hlen
    | [_], hlen, _ => simp at hlen; omega
    | a :: b :: fl, hlen, hfl =>
      have hl : fl.length = 2 * vs.length := by simp at hlen; omega
      obtain ⟨⟨L, h1, h2, h3⟩, h4⟩ := ih fl (fun i j => if i = a ∧ j = b then v else y i j) lo hi k hl
        (fun c hc => hfl c (by simp [hc])) (fun c hc => hvs c (by simp [hc]))
      refine ⟨⟨(a, b) :: L, by simpa using h1, ?_, ?_⟩, ?_⟩
      · intro p hp
        rcases List.mem_cons.1 hp with rfl | hp
        · exact ⟨hfl a (by simp), hfl b (by simp)⟩
        · exact h2 p hp
      · intro i j hij
        simp only [List.mem_cons, Prod.mk.injEq, not_or] at hij
        change assign _ fl vs i j = _
        rw [h3 i j hij.2]
        simp only [if_neg hij.1]
      · intro i j
        change assign _ fl vs i j < k ∨ assign _ fl vs i j = _
        rcases h4 i j with h | h
        · exact .inl h
        · by_cases hab : i = a ∧ j = b
          · left; rw [h]; simp only [if_pos hab]; exact hvs v (by simp)
          · right; rw [h]; simp only [if_neg hab]

theorem flip_post (lo hi noise k : ℕ) (y : Img) :
    Post (flip lo hi noise k y) fun z => Noisy lo hi noise y z ∧ ∀ i j, z i j < k ∨ z i j = y i j := by
  refine Post.bind (randints_post lo hi _) fun fl hfl => Post.bind (randints_post 0 k _) fun vs hvs => Post.pure ?_
  obtain ⟨⟨L, h1, h2, h3⟩, h4⟩ := assign_spec fl vs y lo hi k (by rw [hfl.1, hvs.1]) hfl.2 fun v hv => (hvs.2 v hv).2
  exact ⟨⟨L, by rw [← hvs.1]; exact h1, h2, h3⟩, h4⟩

theorem flip_total {lo hi noise k : ℕ} (h : lo < hi) (hk : 0 < k) (y : Img) :
    Total (flip lo hi noise k y) fun _ => True :=
  Total.bind (randints_total h _) fun _ _ => Total.bind (randints_total hk _) fun _ _ => Total.pure True.intro

theorem encode_post (channels size : ℕ) (factors : List ℕ) (ys : List Img) :
    Post (encode channels size factors ys) fun xs => List.Forall₂ (fun z x =>
      ∀ i < size, ∀ j < size, (∀ f ∈ factors, f * z i j < channels) ∧
        ∀ c, x i j c = if ∃ f ∈ factors, c = f * z i j then 1 else 0) ys xs := by
  unfold encode
  intro tape p xs q h
  split_ifs at h with hbad
  · exact nomatch h
  · rw [pure_run] at h
    cases h
    rw [List.forall₂_map_right_iff, List.forall₂_same]
    intro z hz i hi j hj
    refine ⟨fun f hf => ?_, fun c => ?_⟩
    · by_contra hc
      apply hbad
      simp only [List.any_eq_true, List.mem_range, decide_eq_true_eq]
      exact ⟨z, hz, i, hi, j, hj, f, hf, by omega⟩
    · simp only [List.any_eq_true, decide_eq_true_eq]

theorem encode_total {channels size : ℕ} {factors : List ℕ} {ys : List Img}
    (h : ∀ y ∈ ys, ∀ i < size, ∀ j < size, ∀ f ∈ factors, f * y i j < channels) :
    Total (encode channels size factors ys) fun _ => True := by
  unfold encode
  rw [if_neg]
  · exact Total.pure True.intro
  · simp only [List.any_eq_true, List.mem_range, decide_eq_true_eq, not_exists, not_and]
    intro y hy i hi j hj f hf
    have := h y hy i hi j hj f hf
    omega

end Verif.Datasets
