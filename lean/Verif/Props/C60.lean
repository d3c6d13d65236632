import Verif.Model.Dispatch
import Verif.Spec.Labelling
import Verif.Props.C14
import Verif.Props.C10
import Verif.Props.C07

/-!
# C60: the contract of `inference_dispatch`; C77: installed methods; C78: constraints
-/

namespace Verif.Props

open Verif.Common Verif.Dispatch

/-- The method names that `inference_dispatch` accepts. -/
def methodNames : List String := ["qpbo", "lp", "ad3", "ad3+", "ogm", "unary", "max-product"]

/-- The methods that look at `return_energy`. -/
def energyMethods : List String := ["lp", "ad3", "ad3+", "ogm"]

/-- The name in an argument `inference_method`. -/
def methodName : Method → String
  | .name s => s
  | .withOpts s _ => s

/-- The options in an argument `inference_method`. -/
def methodOpts : Method → KW
  | .name _ => []
  | .withOpts _ d => d

/-! ### dictionaries -/

theorem lookup_isSome_iff (k : KW) (n : String) : (k.lookup n).isSome ↔ n ∈ k.map Prod.fst := by
  induction k with
  | nil => simp
  | cons p k ih =>
    rw [List.lookup_cons]
    by_cases h : n = p.1
    · simp [h]
    · have : (n == p.1) = false := by simp [h]
      simp only [this, ih]
      simp [h]

theorem any_key_iff (k : KW) (f : String → Bool) :
    (k.any fun p => f p.1) = true ↔ ∃ n, f n = true ∧ (k.lookup n).isSome := by
  simp only [lookup_isSome_iff, List.any_eq_true, List.mem_map]
  constructor
  · rintro ⟨p, hp, h⟩
    exact ⟨p.1, h, p, hp, rfl⟩
  · rintro ⟨n, h, p, hp, rfl⟩
    exact ⟨p, hp, h⟩

theorem any_key_congr {k k' : KW} (h : ∀ n, k.lookup n = k'.lookup n) (f : String → Bool) :
    (k.any fun p => f p.1) = k'.any fun p => f p.1 := by
  rw [Bool.eq_iff_iff, any_key_iff, any_key_iff]
  simp only [h]

theorem lookup_append (a b : KW) (n : String) : (a ++ b).lookup n = (a.lookup n).or (b.lookup n) := by
  induction a with
  | nil => simp
  | cons p a ih =>
    rw [List.cons_append, List.lookup_cons, List.lookup_cons]
    cases n == p.1
    · simpa using ih
    · simp

theorem lookup_filter (k : KW) (f : String → Bool) (n : String) :
    (k.filter fun p => f p.1).lookup n = if f n then k.lookup n else none := by
  induction k with
  | nil => simp
  | cons p k ih =>
    obtain ⟨a, v⟩ := p
    rw [List.lookup_cons, List.filter_cons]
    by_cases hn : n = a
    · subst hn
      by_cases hf : f n = true
      · simp only [hf, if_true, List.lookup_cons, beq_self_eq_true]
      · simp only [hf, if_false, Bool.false_eq_true] at ih ⊢
        exact ih
    · have hb : (n == a) = false := by simp [hn]
      simp only [hb]
      by_cases hf : f a = true
      · simp only [hf, if_true, List.lookup_cons, hb]
        exact ih
      · simp only [hf]
        exact ih

theorem lookup_update (k d : KW) (n : String) : (k.update d).lookup n = (d.lookup n).or (k.lookup n) := by
  unfold KW.update
  rw [lookup_append, lookup_filter k (fun s => !(d.map Prod.fst).contains s)]
  cases h : d.lookup n with
  | some v => simp
  | none =>
    have : n ∉ d.map Prod.fst := by
      rw [← lookup_isSome_iff, h]; simp
    have hc : (d.map Prod.fst).contains n = false := by
      rw [Bool.eq_false_iff]
      simpa using this
    rw [hc]
    simp

/-! ### what happens depends on the dictionaries only through their entries -/

theorem bindArgs_congr (pos named : List String) (v : Bool) (ex : KW) {k k' : KW}
    (h : ∀ n, k.lookup n = k'.lookup n) {β : Type} {f : KW → Except PyErr β}
    (hf : ∀ a b : KW, (∀ n, a.lookup n = b.lookup n) → f a = f b) :
    (bindArgs pos named v ex k >>= f) = (bindArgs pos named v ex k' >>= f) := by
  unfold bindArgs
  rw [any_key_congr h (fun s => pos.contains s), any_key_congr h (fun s => (ex.map Prod.fst).contains s),
    any_key_congr h (fun s => !named.contains s)]
  split_ifs
  · rfl
  · rfl
  · rfl
  · exact hf _ _ fun n => by rw [lookup_append, lookup_append, h]

theorem flag_congr {k k' : KW} (h : ∀ n, k.lookup n = k'.lookup n) (n : String) (b : Bool) :
    k.flag n b = k'.flag n b := by unfold KW.flag KW.val; rw [h]

theorem number_congr {k k' : KW} (h : ∀ n, k.lookup n = k'.lookup n) (n : String) (b : ℚ) :
    k.number n b = k'.number n b := by unfold KW.number KW.val; rw [h]

theorem branch_congr (P : Packages) (U : Mat) (pw : Pairwise) (edges : Edges) (name : String) (re : Bool)
    {k k' : KW} (h : ∀ n, k.lookup n = k'.lookup n) :
    branch P U pw edges name re k = branch P U pw edges name re k' := by
  unfold branch
  split_ifs
  · exact bindArgs_congr _ _ _ _ h fun _ _ _ => rfl
  · exact bindArgs_congr _ _ _ _ h fun a b hab => by simp only [flag_congr hab]
  · exact bindArgs_congr _ _ _ _ h fun a b hab => by unfold inferenceAd3; simp only [flag_congr hab]
  · exact bindArgs_congr _ _ _ _ h fun a b hab => by
      unfold inferenceAd3plus; simp only [flag_congr hab, KW.val, hab]
      cases P.ad3 <;> rfl
  · exact bindArgs_congr _ _ _ _ h fun a b hab => by
      unfold inferenceOgm; simp only [flag_congr hab, KW.val, hab]
  · exact bindArgs_congr _ _ _ _ h fun _ _ _ => rfl
  · exact bindArgs_congr _ _ _ _ h fun a b hab => by
      have : maxProductOpts a = maxProductOpts b := by
        unfold maxProductOpts; simp only [number_congr hab]
      rw [this]
  · rfl

/-- **C60** (options): passing `(name, opts)` as inference method together with keyword arguments `kwargs` is
the same as passing `name` with any dictionary `merged` in which the entries of `opts` override those of
`kwargs`. -/
theorem C60_override (P : Packages) (U : Mat) (pw : Pairwise) (edges : Edges) (name : String) (re : Bool)
    (opts kwargs merged : KW)
    (hm : ∀ n, merged.lookup n = match opts.lookup n with
      | some v => some v
      | none => kwargs.lookup n) :
    dispatch P U pw edges (.withOpts name opts) re kwargs = dispatch P U pw edges (.name name) re merged := by
  unfold dispatch
  apply branch_congr
  intro n
  rw [lookup_update, hm]
  cases opts.lookup n <;> rfl

/-- A dictionary in which the options override the keyword arguments. -/
example : ∀ n, List.lookup n [("relaxed", KVal.bool false), ("verbose", KVal.num 1)] =
    match List.lookup n [("relaxed", KVal.bool false)] with
    | some v => some v
    | none => List.lookup n [("relaxed", KVal.bool true), ("verbose", KVal.num 1)] := by
  intro n
  simp only [List.lookup_cons, List.lookup_nil]
  by_cases h : (n == "relaxed") = true <;> simp [h]

/-- **C60** (unknown names): every name that is not documented raises `ValueError`, with and without
options, whatever the other arguments are. -/
theorem C60_unknown (P : Packages) (U : Mat) (pw : Pairwise) (edges : Edges) (method : Method) (re : Bool)
    (kwargs : KW) (h : methodName method ∉ methodNames) :
    dispatch P U pw edges method re kwargs = .error .valueError := by
  have key : ∀ s k, s ∉ methodNames → branch P U pw edges s re k = .error .valueError := by
    intro s k hs
    simp only [methodNames, List.mem_cons, List.not_mem_nil, or_false, not_or] at hs
    obtain ⟨h1, h2, h3, h4, h5, h6, h7⟩ := hs
    unfold branch
    rw [if_neg h1, if_neg h2, if_neg h3, if_neg h4, if_neg h5, if_neg h6, if_neg h7]
  cases method with
  | name s => exact key s _ h
  | withOpts s d => exact key s _ h

example : methodName (.withOpts "dai" [("alg", .str "jt")]) ∉ methodNames := by decide

/-! ### energies -/

theorem bindArgs_cases (pos named : List String) (v : Bool) (ex kwargs : KW) :
    bindArgs pos named v ex kwargs = .error .typeError ∨
      bindArgs pos named v ex kwargs = .ok (ex ++ kwargs) := by
  unfold bindArgs
  split_ifs <;> simp

theorem bindArgs_energy (pos named : List String) (v : Bool) (kwargs : KW) :
    (∀ re, bindArgs pos named v [("return_energy", .bool re)] kwargs = .error .typeError) ∨
      ∀ re, bindArgs pos named v [("return_energy", .bool re)] kwargs =
        .ok (("return_energy", .bool re) :: kwargs) := by
  unfold bindArgs
  simp only [List.map_cons, List.map_nil, List.cons_append, List.nil_append]
  by_cases h1 : (kwargs.any fun p => pos.contains p.1) = true
  · simp only [h1, if_true]; exact Or.inl fun _ => trivial
  by_cases h2 : (kwargs.any fun p => ["return_energy"].contains p.1) = true
  · simp only [h1, h2, if_true]; exact Or.inl fun _ => by simp
  by_cases h3 : (!v && kwargs.any fun p => !named.contains p.1) = true
  · simp only [h1, h2, h3, if_true]; exact Or.inl fun _ => by simp
  · refine Or.inr fun _ => ?_
    simp only [h1, h2, h3]
    simp

theorem flag_energy (re : Bool) (k : KW) :
    KW.flag (("return_energy", .bool re) :: k) "return_energy" false = re := rfl

theorem flag_other (re : Bool) (k : KW) (n : String) (b : Bool) (h : n ≠ "return_energy") :
    KW.flag (("return_energy", .bool re) :: k) n b = k.flag n b := by
  unfold KW.flag KW.val
  rw [List.lookup_cons]
  have : (n == "return_energy") = false := by simp [h]
  rw [this]

theorem val_other (re : Bool) (k : KW) (n : String) (h : n ≠ "return_energy") :
    KW.val (("return_energy", .bool re) :: k) n = k.val n := by
  unfold KW.val
  rw [List.lookup_cons]
  have : (n == "return_energy") = false := by simp [h]
  rw [this]

/-- The two calls that differ only in `return_energy` either raise the same exception, or return the same
labelling, once with an energy and once without. -/
def AddsEnergy (f : Bool → Except PyErr Res) : Prop :=
  (∃ err, ∀ re, f re = .error err) ∨
    ∃ y energy, f true = .ok (.pair y energy) ∧ f false = .ok (.plain y)

theorem addsEnergy_mk (y : YVal) (e : ℚ) : AddsEnergy fun re => .ok (Res.mk re y e) :=
  Or.inr ⟨y, e, rfl, rfl⟩

theorem addsEnergy_error (err : PyErr) : AddsEnergy fun _ => .error err := Or.inl ⟨err, fun _ => rfl⟩

theorem branch_energy (P : Packages) (U : Mat) (pw : Pairwise) (edges : Edges) (name : String)
    (hname : name ∈ energyMethods) (k : KW) :
    AddsEnergy fun re => branch P U pw edges name re k := by
  simp only [energyMethods, List.mem_cons, List.not_mem_nil, or_false] at hname
  have hb : ∀ (pos named : List String) (v : Bool) (f : KW → Except PyErr Res),
      (AddsEnergy fun re => f (("return_energy", .bool re) :: k)) →
      AddsEnergy fun re => (bindArgs pos named v [("return_energy", .bool re)] k >>= f) := by
    intro pos named v f hf
    rcases bindArgs_energy pos named v k with h | h
    · exact Or.inl ⟨.typeError, fun re => by simp only [h]; rfl⟩
    · simp only [h]
      exact hf
  rcases hname with rfl | rfl | rfl | rfl
  · have : ∀ re, branch P U pw edges "lp" re k = _ := fun re => by
      unfold branch
      rw [if_neg (by decide), if_pos rfl]
    simp only [this]
    apply hb
    simp only [flag_energy, flag_other _ _ "relaxed" _ (by decide)]
    cases LP.inferenceLP P.lp U pw edges (k.flag "relaxed" false) with
    | error err => exact addsEnergy_error err
    | ok r => exact addsEnergy_mk _ _
  · have : ∀ re, branch P U pw edges "ad3" re k = _ := fun re => by
      unfold branch
      rw [if_neg (by decide), if_neg (by decide), if_pos rfl]
    simp only [this]
    apply hb
    unfold inferenceAd3
    simp only [flag_energy, flag_other _ _ "relaxed" _ (by decide),
      flag_other _ _ "branch_and_bound" _ (by decide)]
    cases P.ad3 with
    | none => exact addsEnergy_error _
    | some p =>
      simp only
      cases validateParams U pw edges.length with
      | error err => exact addsEnergy_error err
      | ok t =>
        simp only
        split_ifs
        · cases (Vec.reshape2 _ _ _ : Except PyErr Mat) with
          | error err => exact addsEnergy_error err
          | ok u => exact addsEnergy_mk _ _
        · cases decodeRows _ with
          | error err => exact addsEnergy_error err
          | ok u => exact addsEnergy_mk _ _
  · have : ∀ re, branch P U pw edges "ad3+" re k = _ := fun re => by
      unfold branch
      rw [if_neg (by decide), if_neg (by decide), if_neg (by decide), if_pos rfl]
    simp only [this]
    apply hb
    unfold inferenceAd3plus
    simp only [flag_energy, flag_other _ _ "relaxed" _ (by decide),
      flag_other _ _ "inference_exception" _ (by decide), val_other _ _ "constraints" (by decide),
      flag_other _ _ "branch_and_bound" _ (by decide)]
    cases P.ad3 with
    | none => exact addsEnergy_error _
    | some p =>
      simp only
      split_ifs
      · exact addsEnergy_mk _ _
      · exact addsEnergy_error _
      · cases decodeRows _ with
        | error err => exact addsEnergy_error err
        | ok u => exact addsEnergy_mk _ _
  · have : ∀ re, branch P U pw edges "ogm" re k = _ := fun re => by
      unfold branch
      rw [if_neg (by decide), if_neg (by decide), if_neg (by decide), if_neg (by decide), if_pos rfl]
    simp only [this]
    apply hb
    unfold inferenceOgm
    simp only [flag_energy, val_other _ _ "alg" (by decide), val_other _ _ "init" (by decide)]
    cases P.ogm with
    | none => exact addsEnergy_error _
    | some p =>
      simp only
      cases validateParams U pw edges.length with
      | error err => exact addsEnergy_error err
      | ok t =>
        simp only
        cases ogmAlg (k.val "alg") with
        | error err => exact addsEnergy_error err
        | ok t => exact addsEnergy_mk _ _

/-- **C60** (energies, the part that holds): for `lp`, `ad3`, `ad3+` and `ogm` the flag `return_energy` adds an
energy to the same labelling, whatever the arguments are; errors do not depend on it. -/
theorem C60_energy_partial (P : Packages) (U : Mat) (pw : Pairwise) (edges : Edges) (method : Method)
    (h : methodName method ∈ energyMethods) (kwargs : KW) :
    (∃ err, ∀ re, dispatch P U pw edges method re kwargs = .error err) ∨
      ∃ y energy, dispatch P U pw edges method true kwargs = .ok (.pair y energy) ∧
        dispatch P U pw edges method false kwargs = .ok (.plain y) := by
  cases method with
  | name s => exact branch_energy P U pw edges s h kwargs
  | withOpts s d => exact branch_energy P U pw edges s h (kwargs.update d)

/-- **C60 violated**: `qpbo`, `unary` and `max-product` never return an energy. -/
theorem C60_violated_energy (P : Packages) (U : Mat) (pw : Pairwise) (edges : Edges) (method : Method)
    (h : methodName method ∈ ["qpbo", "unary", "max-product"]) (kwargs : KW) (re : Bool) (r : Res)
    (hr : dispatch P U pw edges method re kwargs = .ok r) : ∃ y, r = .plain y := by
  have hpl : ∀ (v : Except PyErr YVal), plainOf v = .ok r → ∃ y, r = .plain y := by
    intro v hv
    cases v with
    | error err => simp [plainOf] at hv
    | ok y => exact ⟨y, by simpa [plainOf, eq_comm] using hv⟩
  have key : ∀ s k, s ∈ ["qpbo", "unary", "max-product"] → branch P U pw edges s re k = .ok r →
      ∃ y, r = .plain y := by
    intro s k hs hbr
    simp only [List.mem_cons, List.not_mem_nil, or_false] at hs
    unfold branch at hbr
    rcases hs with rfl | rfl | rfl
    · rw [if_pos rfl, bind_eq_ok] at hbr
      obtain ⟨_, _, h2⟩ := hbr
      exact hpl _ h2
    · rw [if_neg (by decide), if_neg (by decide), if_neg (by decide), if_neg (by decide),
        if_neg (by decide), if_pos rfl, bind_eq_ok] at hbr
      obtain ⟨_, _, h2⟩ := hbr
      exact hpl _ h2
    · rw [if_neg (by decide), if_neg (by decide), if_neg (by decide), if_neg (by decide),
        if_neg (by decide), if_neg (by decide), if_pos rfl, bind_eq_ok] at hbr
      obtain ⟨_, _, h2⟩ := hbr
      rw [bind_eq_ok] at h2
      obtain ⟨_, _, h3⟩ := h2
      exact hpl _ h3
  cases method with
  | name s => exact key s _ h hr
  | withOpts s d => exact key s _ h hr

/-- `unary` and `lp` with `return_energy=True` on one node with two states. -/
example : methodName (.withOpts "lp" [("relaxed", .bool true)]) ∈ energyMethods ∧
    ∃ y, dispatch ⟨none, fun _ _ => 1, none, none⟩ ⟨1, 2, fun _ s => s⟩ (.mat ⟨2, 2, fun _ _ => 0⟩) []
      (.name "unary") true [] = .ok (.plain y) := by
  exact ⟨by decide, _, rfl⟩

end Verif.Props
