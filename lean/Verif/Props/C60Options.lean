import Verif.Props.C60CRF

/-!
# C60: which options an inference method accepts

The options given with `inference_method` and the keyword arguments end up in one call of the method's
function. This file says for every name whether it is refused, and which accepted options have no effect.
-/

namespace Verif.Props

open Verif.Common Verif.Dispatch

/-- Options that the strict methods know, besides `return_energy`. -/
def knownOptions : String → Option (List String)
  | "ad3" => some ["relaxed", "verbose", "branch_and_bound", "inference_exception"]
  | "ad3+" => some ["relaxed", "verbose", "branch_and_bound", "inference_exception", "constraints"]
  | "max-product" => some ["max_iter", "damping", "tol", "relaxed"]
  | _ => none

/-- A method refuses an option that names the potentials or the edges, `return_energy` unless the method
ignores it, and, if its options are fixed, every other name. -/
def Refused (method option : String) : Prop :=
  option ∈ ["unary_potentials", "pairwise_potentials", "edges"] ∨
    (option = "return_energy" ∧ method ∈ ["lp", "ad3", "ad3+", "ogm"]) ∨
    ∃ known, knownOptions method = some known ∧ option ∉ known

/-- The options that arrive at the method: those given with its name, and the keyword arguments. -/
def Given (method : Method) (kwargs : KW) (option : String) : Prop :=
  option ∈ (methodOpts method).map Prod.fst ∨ option ∈ kwargs.map Prod.fst

theorem mem_update (k d : KW) (n : String) :
    n ∈ (k.update d).map Prod.fst ↔ n ∈ d.map Prod.fst ∨ n ∈ k.map Prod.fst := by
  unfold KW.update
  rw [List.map_append, List.mem_append]
  constructor
  · rintro (h | h)
    · exact Or.inl h
    · obtain ⟨p, hp, rfl⟩ := List.mem_map.mp h
      exact Or.inr (List.mem_map.mpr ⟨p, (List.mem_filter.mp hp).1, rfl⟩)
  · rintro (h | h)
    · exact Or.inl h
    · by_cases hd : n ∈ d.map Prod.fst
      · exact Or.inl hd
      · obtain ⟨p, hp, rfl⟩ := List.mem_map.mp h
        refine Or.inr (List.mem_map.mpr ⟨p, List.mem_filter.mpr ⟨hp, ?_⟩, rfl⟩)
        simpa using hd

theorem bindArgs_refuses (pos named : List String) (v : Bool) (ex kwargs : KW) (n : String)
    (hn : n ∈ kwargs.map Prod.fst)
    (h : n ∈ pos ∨ n ∈ ex.map Prod.fst ∨ (v = false ∧ n ∉ named)) :
    bindArgs pos named v ex kwargs = .error .typeError := by
  obtain ⟨p, hp, rfl⟩ := List.mem_map.mp hn
  unfold bindArgs
  split_ifs with h1 h2 h3
  · rfl
  · rfl
  · rfl
  · exfalso
    rcases h with h | h | ⟨rfl, h⟩
    · exact h1 (List.any_eq_true.mpr ⟨p, hp, by simpa using h⟩)
    · exact h2 (List.any_eq_true.mpr ⟨p, hp, by simpa using h⟩)
    · exact h3 (by
        simp only [Bool.not_false, Bool.true_and]
        exact List.any_eq_true.mpr ⟨p, hp, by simpa using h⟩)

theorem bindArgs_accepts (pos named : List String) (ex kwargs : KW)
    (h : ∀ n ∈ kwargs.map Prod.fst, n ∉ pos ∧ n ∉ ex.map Prod.fst) :
    bindArgs pos named true ex kwargs = .ok (ex ++ kwargs) := by
  unfold bindArgs
  rw [if_neg, if_neg, if_neg]
  · simp
  · intro hc
    obtain ⟨p, hp, hq⟩ := List.any_eq_true.mp hc
    exact (h p.1 (List.mem_map.mpr ⟨p, hp, rfl⟩)).2 (by simpa using hq)
  · intro hc
    obtain ⟨p, hp, hq⟩ := List.any_eq_true.mp hc
    exact (h p.1 (List.mem_map.mpr ⟨p, hp, rfl⟩)).1 (by simpa using hq)

theorem branch_refuses (P : Packages) (U : Mat) (pw : Pairwise) (edges : Edges) (s : String)
    (hs : s ∈ methodNames) (re : Bool) (k : KW) (n : String) (hn : n ∈ k.map Prod.fst) (h : Refused s n) :
    branch P U pw edges s re k = .error .typeError := by
  have key : ∀ (pos named : List String) (v : Bool) (ex : KW) (f : KW → Except PyErr Res),
      (n ∈ pos ∨ n ∈ ex.map Prod.fst ∨ (v = false ∧ n ∉ named)) →
      (bindArgs pos named v ex k >>= f) = .error .typeError := by
    intro pos named v ex f hc
    rw [bindArgs_refuses pos named v ex k n hn hc]
    rfl
  simp only [methodNames, List.mem_cons, List.not_mem_nil, or_false] at hs
  unfold branch
  rcases hs with rfl | rfl | rfl | rfl | rfl | rfl | rfl
  · rw [if_pos rfl]
    apply key
    rcases h with h | ⟨rfl, h⟩ | ⟨known, h, -⟩
    · exact Or.inl h
    · simp at h
    · simp [knownOptions] at h
  · rw [if_neg (by decide), if_pos rfl]
    apply key
    rcases h with h | ⟨rfl, h⟩ | ⟨known, h, -⟩
    · exact Or.inl h
    · exact Or.inr (Or.inl (by simp))
    · simp [knownOptions] at h
  · rw [if_neg (by decide), if_neg (by decide), if_pos rfl]
    apply key
    rcases h with h | ⟨rfl, h⟩ | ⟨known, h, hk⟩
    · exact Or.inl h
    · exact Or.inr (Or.inl (by simp))
    · simp only [knownOptions, Option.some.injEq] at h
      subst h
      by_cases hr : n = "return_energy"
      · exact Or.inr (Or.inl (by simp [hr]))
      · refine Or.inr (Or.inr ⟨rfl, ?_⟩)
        simp only [List.mem_cons, List.not_mem_nil, or_false, not_or] at hk ⊢
        exact ⟨hk.1, hk.2.1, hr, hk.2.2.1, hk.2.2.2⟩
  · rw [if_neg (by decide), if_neg (by decide), if_neg (by decide), if_pos rfl]
    apply key
    rcases h with h | ⟨rfl, h⟩ | ⟨known, h, hk⟩
    · refine Or.inr (Or.inr ⟨rfl, ?_⟩)
      simp only [List.mem_cons, List.not_mem_nil, or_false] at h
      rcases h with rfl | rfl | rfl <;> decide
    · exact Or.inr (Or.inl (by simp))
    · simp only [knownOptions, Option.some.injEq] at h
      subst h
      by_cases hr : n = "return_energy"
      · exact Or.inr (Or.inl (by simp [hr]))
      · refine Or.inr (Or.inr ⟨rfl, ?_⟩)
        simp only [List.mem_cons, List.not_mem_nil, or_false, not_or] at hk ⊢
        exact ⟨hk.1, hk.2.1, hr, hk.2.2.1, hk.2.2.2.2, hk.2.2.2.1⟩
  · rw [if_neg (by decide), if_neg (by decide), if_neg (by decide), if_neg (by decide), if_pos rfl]
    apply key
    rcases h with h | ⟨rfl, h⟩ | ⟨known, h, -⟩
    · exact Or.inl h
    · exact Or.inr (Or.inl (by simp))
    · simp [knownOptions] at h
  · rw [if_neg (by decide), if_neg (by decide), if_neg (by decide), if_neg (by decide), if_neg (by decide),
      if_pos rfl]
    apply key
    rcases h with h | ⟨rfl, h⟩ | ⟨known, h, -⟩
    · exact Or.inl h
    · simp at h
    · simp [knownOptions] at h
  · rw [if_neg (by decide), if_neg (by decide), if_neg (by decide), if_neg (by decide), if_neg (by decide),
      if_neg (by decide), if_pos rfl]
    apply key
    rcases h with h | ⟨rfl, h⟩ | ⟨known, h, hk⟩
    · exact Or.inl h
    · simp at h
    · simp only [knownOptions, Option.some.injEq] at h
      subst h
      exact Or.inr (Or.inr ⟨rfl, hk⟩)

/-- **C60** (refused options): an option that the method refuses raises `TypeError`, wherever it is given and
whatever the potentials are. -/
theorem C60_refused (P : Packages) (U : Mat) (pw : Pairwise) (edges : Edges) (method : Method)
    (hm : methodName method ∈ methodNames) (re : Bool) (kwargs : KW) (option : String)
    (hg : Given method kwargs option) (hr : Refused (methodName method) option) :
    dispatch P U pw edges method re kwargs = .error .typeError := by
  cases method with
  | name s =>
    refine branch_refuses P U pw edges s hm re kwargs option ?_ hr
    rcases hg with h | h
    · simp [methodOpts] at h
    · exact h
  | withOpts s d =>
    exact branch_refuses P U pw edges s hm re (kwargs.update d) option ((mem_update kwargs d option).mpr hg) hr

example : Given (.withOpts "qpbo" [("edges", .none)]) [] "edges" ∧ Refused "qpbo" "edges" :=
  ⟨Or.inl (by simp [methodOpts]), Or.inl (by decide)⟩

example : Given (.withOpts "ad3" [("branch_n_bound", .bool true)]) [] "branch_n_bound" ∧
    Refused "ad3" "branch_n_bound" :=
  ⟨Or.inl (by simp [methodOpts]), Or.inr (Or.inr ⟨_, rfl, by decide⟩)⟩

/-- **C60** (options without effect): `qpbo` and `unary` do the same whatever options they are given, as
long as none is refused. -/
theorem C60_ignored (P : Packages) (U : Mat) (pw : Pairwise) (edges : Edges) (method : Method)
    (hm : methodName method ∈ ["qpbo", "unary"]) (re : Bool) (kwargs : KW)
    (h : ∀ option, Given method kwargs option → ¬ Refused (methodName method) option) :
    dispatch P U pw edges method re kwargs = dispatch P U pw edges (.name (methodName method)) false [] := by
  have key : ∀ (s : String) (k : KW), s ∈ ["qpbo", "unary"] → (∀ n ∈ k.map Prod.fst, ¬ Refused s n) →
      branch P U pw edges s re k = branch P U pw edges s false [] := by
    intro s k hs hk
    simp only [List.mem_cons, List.not_mem_nil, or_false] at hs
    have hb : ∀ named, bindArgs posArgs named true [] k = .ok k := by
      intro named
      rw [bindArgs_accepts]
      · rfl
      · intro n hn
        exact ⟨fun hc => hk n hn (Or.inl hc), by simp⟩
    unfold branch
    rcases hs with rfl | rfl
    · rw [if_pos rfl, if_pos rfl, hb]
      rfl
    · rw [if_neg (by decide), if_neg (by decide), if_neg (by decide), if_neg (by decide), if_neg (by decide),
        if_pos rfl, if_neg (by decide), if_neg (by decide), if_neg (by decide), if_neg (by decide),
        if_neg (by decide), if_pos rfl, hb]
      rfl
  cases method with
  | name s => exact key s kwargs hm fun n hn => h n (Or.inr hn)
  | withOpts s d =>
    exact key s (kwargs.update d) hm fun n hn => h n ((mem_update kwargs d n).mp hn)

/-- A misspelt option of `qpbo` is not noticed. -/
example : ∀ option, Given (.withOpts "qpbo" [("max_itr", .num 3)]) [("relaxed", .bool true)] option →
    ¬ Refused "qpbo" option := by
  rintro n (h | h)
  · simp only [methodOpts, List.map_cons, List.map_nil, List.mem_singleton] at h
    subst h
    rintro (h | ⟨h, -⟩ | ⟨_, h, -⟩)
    · exact absurd h (by decide)
    · exact absurd h (by decide)
    · exact absurd h (by simp [knownOptions])
  · simp only [List.map_cons, List.map_nil, List.mem_singleton] at h
    subst h
    rintro (h | ⟨h, -⟩ | ⟨_, h, -⟩)
    · exact absurd h (by decide)
    · exact absurd h (by decide)
    · exact absurd h (by simp [knownOptions])

/-- **C60** (`lp`): of the options of `lp` that are not refused, only `relaxed` has an effect. -/
theorem C60_lp_options (P : Packages) (U : Mat) (pw : Pairwise) (edges : Edges) (re : Bool) (k k' : KW)
    (h : ∀ option ∈ k.map Prod.fst, ¬ Refused "lp" option)
    (h' : ∀ option ∈ k'.map Prod.fst, ¬ Refused "lp" option)
    (hr : k.lookup "relaxed" = k'.lookup "relaxed") :
    dispatch P U pw edges (.name "lp") re k = dispatch P U pw edges (.name "lp") re k' := by
  have hb : ∀ k : KW, (∀ option ∈ k.map Prod.fst, ¬ Refused "lp" option) →
      bindArgs posArgs ["relaxed", "return_energy"] true [("return_energy", .bool re)] k =
        .ok ([("return_energy", .bool re)] ++ k) := by
    intro k hk
    apply bindArgs_accepts
    intro n hn
    refine ⟨fun hc => hk n hn (Or.inl hc), fun hc => hk n hn (Or.inr (Or.inl ⟨?_, by decide⟩))⟩
    simpa using hc
  have hv : ∀ k : KW, KW.val ([("return_energy", KVal.bool re)] ++ k) "relaxed" = k.lookup "relaxed" := by
    intro k
    unfold KW.val
    rw [List.singleton_append, List.lookup_cons]
    simp
  have he : ∀ k : KW, KW.val ([("return_energy", KVal.bool re)] ++ k) "return_energy" = some (.bool re) := by
    intro k
    unfold KW.val
    rw [List.singleton_append, List.lookup_cons]
    simp
  show branch P U pw edges "lp" re k = branch P U pw edges "lp" re k'
  unfold branch
  rw [if_neg (by decide), if_pos rfl, if_neg (by decide), if_pos rfl, hb k h, hb k' h']
  simp only [bind, Except.bind, KW.flag, hv, he, hr]

example : ∀ option ∈ [("verbose", KVal.num 1), ("relaxed", KVal.bool true)].map Prod.fst, ¬ Refused "lp" option := by
  intro n hn
  simp only [List.map_cons, List.map_nil, List.mem_cons, List.not_mem_nil, or_false] at hn
  rcases hn with rfl | rfl <;> rintro (h | ⟨h, -⟩ | ⟨_, h, -⟩)
  all_goals first
    | exact absurd h (by decide)
    | exact absurd h (by simp [knownOptions])

end Verif.Props
