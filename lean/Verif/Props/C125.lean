import Verif.Model.PredictConstraints
import Verif.Props.C25
import Verif.Props.C77

/-!
# C125: `predict` with constraints
-/

namespace Verif.Props

open Verif.Common Verif.Dispatch Verif.PredictConstraints
open Verif.Batch hiding predict

variable {X Y : Type}

/-! ### `relaxed=None` and `relaxed=False` are the same to inference -/

/-- Keyword arguments that differ at most in the value of `relaxed`, and not in its truth value. -/
def SameRelaxed (k k' : KW) : Prop :=
  List.Forall₂ (fun p q => p.1 = q.1 ∧ p.2.truthy = q.2.truthy ∧ (p.1 ≠ "relaxed" → p.2 = q.2)) k k'

theorem SameRelaxed.refl (k : KW) : SameRelaxed k k := by
  induction k with
  | nil => exact .nil
  | cons p k ih => exact .cons ⟨rfl, rfl, fun _ => rfl⟩ ih

theorem SameRelaxed.append {a a' b b' : KW} (h : SameRelaxed a a') (h' : SameRelaxed b b') :
    SameRelaxed (a ++ b) (a' ++ b') := by
  induction h with
  | nil => exact h'
  | cons h1 _ ih => exact .cons h1 ih

theorem SameRelaxed.any {k k' : KW} (h : SameRelaxed k k') (f : String → Bool) :
    k.any (fun p => f p.1) = k'.any fun p => f p.1 := by
  induction h with
  | nil => rfl
  | cons h1 _ ih => simp only [List.any_cons, h1.1, ih]

theorem SameRelaxed.filter {k k' : KW} (h : SameRelaxed k k') (f : String → Bool) :
    SameRelaxed (k.filter fun p => f p.1) (k'.filter fun p => f p.1) := by
  induction h with
  | nil => exact .nil
  | @cons p q k k' h1 _ ih =>
    simp only [List.filter_cons, h1.1]
    split
    · exact .cons h1 ih
    · exact ih

theorem SameRelaxed.flag {k k' : KW} (h : SameRelaxed k k') (name : String) (d : Bool) :
    KW.flag k name d = KW.flag k' name d := by
  unfold KW.flag KW.val
  induction h with
  | nil => rfl
  | @cons p q k k' h1 _ ih =>
    obtain ⟨n, v⟩ := p
    obtain ⟨n', v'⟩ := q
    obtain ⟨h2, h3, -⟩ := h1
    simp only at h2 h3
    subst h2
    simp only [List.lookup]
    cases name == n
    · exact ih
    · exact h3

theorem SameRelaxed.val {k k' : KW} (h : SameRelaxed k k') (name : String) (hn : name ≠ "relaxed") :
    KW.val k name = KW.val k' name := by
  unfold KW.val
  induction h with
  | nil => rfl
  | @cons p q k k' h1 _ ih =>
    obtain ⟨n, v⟩ := p
    obtain ⟨n', v'⟩ := q
    obtain ⟨h2, -, h3⟩ := h1
    simp only at h2 h3
    subst h2
    simp only [List.lookup]
    cases e : name == n
    · exact ih
    · have : name = n := by simpa using e
      subst this
      exact congrArg some (h3 hn)

theorem SameRelaxed.number {k k' : KW} (h : SameRelaxed k k') (name : String) (hn : name ≠ "relaxed") (d : ℚ) :
    KW.number k name d = KW.number k' name d := by
  unfold KW.number
  rw [h.val name hn]

theorem SameRelaxed.bind {k k' : KW} (h : SameRelaxed k k') (pos named : List String) (v : Bool) (e : KW)
    (f g : KW → Except PyErr Res) (hfg : ∀ k k', SameRelaxed k k' → f k = g k') :
    (bindArgs pos named v e k).bind f = (bindArgs pos named v e k').bind g := by
  have h1 := h.any pos.contains
  have h2 := h.any (e.map Prod.fst).contains
  have h3 := h.any fun s => !named.contains s
  unfold bindArgs
  rw [h1, h2, h3]
  split
  · rfl
  · split
    · rfl
    · split
      · rfl
      · exact hfg _ _ ((SameRelaxed.refl e).append h)

theorem branch_same {k k' : KW} (h : SameRelaxed k k') (P : Packages) (U : Mat) (pw : Pairwise) (edges : Edges) (name : String)
    (re : Bool) : branch P U pw edges name re k = branch P U pw edges name re k' := by
  unfold branch
  split
  · exact h.bind _ _ _ _ _ _ fun _ _ _ => rfl
  split
  · refine h.bind _ _ _ _ _ _ fun a b hab => ?_
    rw [hab.flag "relaxed", hab.flag "return_energy"]
  split
  · refine h.bind _ _ _ _ _ _ fun a b hab => ?_
    unfold inferenceAd3
    rw [hab.flag "relaxed", hab.flag "return_energy", hab.flag "branch_and_bound"]
  split
  · refine h.bind _ _ _ _ _ _ fun a b hab => ?_
    unfold inferenceAd3plus
    rw [hab.flag "relaxed", hab.flag "return_energy", hab.flag "branch_and_bound", hab.flag "inference_exception",
      hab.val "constraints" (by decide)]
  split
  · refine h.bind _ _ _ _ _ _ fun a b hab => ?_
    unfold inferenceOgm
    rw [hab.flag "return_energy", hab.val "alg" (by decide), hab.val "init" (by decide)]
  split
  · exact h.bind _ _ _ _ _ _ fun _ _ _ => rfl
  split
  · refine h.bind _ _ _ _ _ _ fun a b hab => ?_
    have : maxProductOpts a = maxProductOpts b := by
      unfold maxProductOpts
      rw [hab.number "max_iter" (by decide), hab.number "damping" (by decide), hab.number "tol" (by decide)]
    rw [this]
  · rfl

theorem dispatch_same {k k' : KW} (h : SameRelaxed k k') (P : Packages) (U : Mat) (pw : Pairwise) (edges : Edges) (method : Method)
    (re : Bool) : dispatch P U pw edges method re k = dispatch P U pw edges method re k' := by
  unfold dispatch
  cases method with
  | name s => exact branch_same h P U pw edges s re
  | withOpts s d =>
    refine branch_same ?_ P U pw edges s re
    unfold KW.update
    exact (SameRelaxed.refl d).append (h.filter fun s => !(d.map Prod.fst).contains s)

/-- `CRF.inference` does not tell `relaxed=None` from `relaxed=False`, nor falsy constraints from none. -/
theorem crfInference_default (P : Packages) (method : Method) (m : GraphCRF.Model) (x : GraphCRF.X) (w : Vec) (re : Bool) (c : KVal) :
    crfInference P method m x w .none re c = crfInference P method m x w (.bool false) re (if c.truthy then c else .none) := by
  have h : SameRelaxed (inferenceKW .none c) (inferenceKW (.bool false) (if c.truthy then c else .none)) := by
    unfold inferenceKW
    cases hc : c.truthy
    · exact .cons ⟨rfl, rfl, fun h => absurd rfl h⟩ .nil
    · simp only [if_true, hc]
      exact .cons ⟨rfl, rfl, fun h => absurd rfl h⟩ (.cons ⟨rfl, rfl, fun _ => rfl⟩ .nil)
  unfold crfInference
  simp only [dispatch_same h]

/-! ### the properties -/

theorem comprehension_congr {α β : Type} {f g : α → Except PyErr β} (l : List α) (h : ∀ a ∈ l, f a = g a) :
    comprehension f l = comprehension g l := by
  induction l with
  | nil => rfl
  | cons a l ih =>
    simp only [comprehension]
    rw [h a (by simp), ih fun a ha => h a (by simp [ha])]

theorem comprehension_error {α β : Type} {f : α → Except PyErr β} (err : PyErr) (l : List α) (hl : l ≠ [])
    (h : ∀ a ∈ l, f a = .error err) : comprehension f l = .error err := by
  cases l with
  | nil => exact absurd rfl hl
  | cons a l =>
    simp only [comprehension]
    rw [h a (by simp)]

theorem comprehension_length {α β : Type} {f : α → Except PyErr β} {l : List α} {rs : List β}
    (h : comprehension f l = .ok rs) : rs.length = l.length :=
  ((C25_batch_comprehension f l rs).mp h).length_eq.symm

/-- A body of `inference` that tells neither `relaxed=None` from `relaxed=False` nor falsy constraints from none. -/
def DefaultsAlike (inf : X → KVal → KVal → Except PyErr Y) : Prop :=
  ∀ x c, inf x .none c = inf x (.bool false) (if c.truthy then c else .none)

/-- Without constraints (`None`, or an empty list), `predict` gives every sample plain inference, for every number of jobs. -/
theorem C125_without (inf : X → KVal → KVal → Except PyErr Y) (hd : DefaultsAlike inf) (nJobs : ℤ) (Xs : List X)
    (cons : Option (List KVal)) (hc : cons = none ∨ cons = some []) :
    predict (crfMethods inf) nJobs Xs cons = comprehension (fun x => inf x (.bool false) .none) Xs := by
  have h1 : ∀ x, inf x .none .none = inf x (.bool false) .none := fun x => hd x .none
  rcases hc with rfl | rfl <;>
  · by_cases hj : nJobs = 1
    · subst hj
      exact comprehension_congr Xs fun x _ => h1 x
    · simp only [predict, ne_eq, hj, not_false_eq_true, if_true]
      rfl

/-- With constraints for a model derived from `CRF`: the `i`-th prediction is inference on the `i`-th sample under the `i`-th
constraints, for every number of jobs; there are as many predictions as the shorter of the two lists has elements. -/
theorem C125_each_partial (inf : X → KVal → KVal → Except PyErr Y) (hd : DefaultsAlike inf) (nJobs : ℤ) (Xs : List X)
    (cs : List KVal) (hc : cs ≠ []) (rs : List Y) :
    (predict (crfMethods inf) nJobs Xs (some cs) = .ok rs ↔
      rs.length = min Xs.length cs.length ∧ ∀ (i : ℕ) x c r, Xs[i]? = some x → cs[i]? = some c → rs[i]? = some r →
        inf x (.bool false) (if c.truthy then c else .none) = .ok r) := by
  have key : predict (crfMethods inf) nJobs Xs (some cs) =
      comprehension (fun p => inf p.1 (.bool false) (if p.2.truthy then p.2 else .none)) (Xs.zip cs) := by
    cases cs with
    | nil => exact absurd rfl hc
    | cons c cs =>
      by_cases hj : nJobs = 1
      · subst hj
        exact comprehension_congr _ fun p _ => hd p.1 p.2
      · simp only [predict, ne_eq, hj, not_false_eq_true, if_true]
        refine comprehension_congr _ fun p _ => ?_
        unfold utilInference
        cases p.2.truthy <;> rfl
  rw [key, C25_batch_comprehension, List.forall₂_iff_get]
  constructor
  · rintro ⟨h1, h2⟩
    refine ⟨by rw [← h1, List.length_zip], fun i x c r hx hc' hr => ?_⟩
    obtain ⟨a1, a2⟩ := List.getElem?_eq_some_iff.mp hx
    obtain ⟨b1, b2⟩ := List.getElem?_eq_some_iff.mp hc'
    obtain ⟨c1, c2⟩ := List.getElem?_eq_some_iff.mp hr
    have := h2 i (by rw [List.length_zip]; omega) c1
    simp only [List.get_eq_getElem, List.getElem_zip, a2, b2, c2] at this
    exact this
  · rintro ⟨h1, h2⟩
    refine ⟨by rw [h1, List.length_zip], fun i hi hi' => ?_⟩
    rw [List.length_zip] at hi
    simp only [List.get_eq_getElem, List.getElem_zip]
    exact h2 i _ _ _ (List.getElem?_eq_getElem (by omega)) (List.getElem?_eq_getElem (by omega)) (List.getElem?_eq_getElem hi')

/-- With a list of constraints shorter than the list of samples, the samples at the end get no prediction. -/
theorem C125_violated_length (inf : X → KVal → KVal → Except PyErr Y) (hd : DefaultsAlike inf) (nJobs : ℤ) (Xs : List X)
    (cs : List KVal) (hc : cs ≠ []) (hlen : cs.length < Xs.length) (rs : List Y)
    (h : predict (crfMethods inf) nJobs Xs (some cs) = .ok rs) : rs.length < Xs.length := by
  have := ((C125_each_partial inf hd nJobs Xs cs hc rs).mp h).1
  omega

/-- The classifiers reject constraints: `TypeError`, unless the model runs in parallel and there is nothing to constrain. -/
theorem C125_classifiers (inf : X → Except PyErr Y) (batch : List X → Except PyErr (List Y)) (Xs : List X) (cs : List KVal)
    (hc : cs ≠ []) :
    predict (clfMethods inf batch) 1 Xs (some cs) = .error .typeError ∧
    ∀ nJobs, nJobs ≠ 1 → Xs ≠ [] → (∀ c ∈ cs, c.truthy = true) →
      predict (clfMethods inf batch) nJobs Xs (some cs) = .error .typeError := by
  cases cs with
  | nil => exact absurd rfl hc
  | cons c cs =>
    refine ⟨rfl, fun nJobs hj hX ht => ?_⟩
    simp only [predict, ne_eq, hj, not_false_eq_true, if_true]
    cases Xs with
    | nil => exact absurd rfl hX
    | cons x Xs =>
      refine comprehension_error _ _ (by simp) fun p hp => ?_
      unfold utilInference
      rw [if_pos (ht _ (List.of_mem_zip hp).2)]
      rfl

/-- Grid models reject constraints. -/
theorem C125_grid (inf : X → KVal → Except PyErr Y) (nJobs : ℤ) (Xs : List X) (cs : List KVal) (hc : cs ≠ []) (hX : Xs ≠ [])
    (h : nJobs = 1 ∨ ∀ c ∈ cs, c.truthy = true) :
    predict (gridMethods inf) nJobs Xs (some cs) = .error .typeError := by
  cases cs with
  | nil => exact absurd rfl hc
  | cons c cs =>
    cases Xs with
    | nil => exact absurd rfl hX
    | cons x Xs =>
      by_cases hj : nJobs = 1
      · subst hj
        exact comprehension_error _ _ (by simp) fun p _ => rfl
      · simp only [predict, ne_eq, hj, not_false_eq_true, if_true]
        refine comprehension_error _ _ (by simp) fun p hp => ?_
        unfold utilInference
        rw [if_pos ((h.resolve_left hj) _ (List.of_mem_zip hp).2)]
        rfl

/-- `n_jobs` changes the outcome: empty constraints for every sample of a grid model raise `TypeError` with one job, while several
jobs give the predictions without constraints. -/
theorem C125_violated_jobs (inf : X → KVal → Except PyErr Y) (nJobs : ℤ) (hj : nJobs ≠ 1) (Xs : List X) (hX : Xs ≠ [])
    (c : KVal) (hc : c.truthy = false) :
    predict (gridMethods inf) 1 Xs (some (Xs.map fun _ => c)) = .error .typeError ∧
    predict (gridMethods inf) nJobs Xs (some (Xs.map fun _ => c)) = predict (gridMethods inf) nJobs Xs none := by
  cases Xs with
  | nil => exact absurd rfl hX
  | cons x Xs =>
    refine ⟨C125_grid inf 1 _ _ (by simp) (by simp) (.inl rfl), ?_⟩
    simp only [predict, ne_eq, hj, not_false_eq_true, if_true, List.map_cons]
    have : ∀ Xs : List X, comprehension (fun p => utilInference (gridMethods inf).inference p.1 p.2) (Xs.zip (Xs.map fun _ => c)) =
        comprehension (fun x => utilInference (gridMethods inf).inference x .none) Xs := by
      intro Xs
      induction Xs with
      | nil => rfl
      | cons x Xs ih =>
        simp only [List.map_cons, List.zip_cons_cons, comprehension]
        rw [ih]
        have e : utilInference (gridMethods inf).inference x c = utilInference (gridMethods inf).inference x .none := by
          unfold utilInference
          rw [hc]
          rfl
        rw [e]
    exact this (x :: Xs)

/-- `predict` of a learner with a `GraphCRF` passes constraints on to `inference_dispatch` (C78 says what becomes of them there):
the theorems above hold of it. -/
theorem C125_graph_crf (P : Packages) (method : Method) (m : GraphCRF.Model) (w : Vec) :
    DefaultsAlike fun x relaxed c => crfInference P method m x w relaxed false c :=
  fun x c => crfInference_default P method m x w false c

/-- Constrained prediction end to end: with `ad3+`, if the package solves the constrained problem of every sample, every sample gets
a labelling that satisfies its constraints. -/
theorem C125_honoured (P : Packages) (m : GraphCRF.Model) (w : Vec) (solve solve') (hP : P.ad3 = some (solve, solve'))
    (Sat : KVal → (ℕ → ℕ) → Prop) (Xs : List GraphCRF.X) (cs : List KVal) (hlen : cs.length = Xs.length) (hc : cs ≠ [])
    (ht : ∀ c ∈ cs, c.truthy = true) (hw : w.size = GraphCRF.sizeJointFeature m) (U : GraphCRF.X → Mat) (pw : GraphCRF.X → Mat)
    (hU : ∀ x ∈ Xs, GraphCRF.unaryPotentials m x w = .ok (U x) ∧ GraphCRF.pairwisePotentials m x w = .ok (pw x) ∧ 1 ≤ (U x).cols)
    (hlocal : ∀ p ∈ Xs.zip cs, ∀ y y', (∀ i < (U p.1).rows, y i = y' i) → Sat p.2 y → Sat p.2 y')
    (hsolve : ∀ p ∈ Xs.zip cs, ∀ b, ∃ y, Sat p.2 y ∧ Spec.Valid (U p.1).rows (U p.1).cols y ∧
      (solve' (U p.1) p.1.edges (.mat (pw p.1)) p.2 b).unsolved = false ∧
      (solve' (U p.1) p.1.edges (.mat (pw p.1)) p.2 b).unary.rows = (U p.1).rows ∧
      (solve' (U p.1) p.1.edges (.mat (pw p.1)) p.2 b).unary.cols = (U p.1).cols ∧
      ∀ i < (U p.1).rows, ∀ s < (U p.1).cols,
        (solve' (U p.1) p.1.edges (.mat (pw p.1)) p.2 b).unary.get i s = if s = y i then 1 else 0)
    (nJobs : ℤ) :
    ∃ ys : List Labels, predict (crfMethods fun x relaxed c => crfInference P (.name "ad3+") m x w relaxed false c) nJobs Xs
        (some cs) = .ok (ys.map fun y => .plain (.discrete y)) ∧ ys.length = Xs.length ∧
      ∀ (i : ℕ) y c, ys[i]? = some y → cs[i]? = some c → Sat c y.get := by
  have key : ∀ p ∈ Xs.zip cs, ∃ y : Labels,
      crfInference P (.name "ad3+") m p.1 w (.bool false) false (if p.2.truthy then p.2 else .none) = .ok (.plain (.discrete y)) ∧
      Sat p.2 y.get := by
    intro p hp
    have hp' := List.of_mem_zip hp
    obtain ⟨h1, h2, h3⟩ := hU p.1 hp'.1
    obtain ⟨y, e1, -, e3⟩ := C78_honoured P (U p.1) (.mat (pw p.1)) p.1.edges solve solve' hP (fun c y => c = p.2 → Sat c y)
      (fun c y y' hy h hc => by subst hc; exact hlocal p hp y y' hy (h rfl)) h3 p.2 (ht _ hp'.2)
      (fun b => by
        obtain ⟨y, a1, a2, a3⟩ := hsolve p hp b
        exact ⟨y, fun _ => a1, a2, a3⟩) (.bool false)
    refine ⟨y, ?_, e3 rfl⟩
    rw [if_pos (ht _ hp'.2)]
    unfold crfInference
    rw [GraphCRF.checkSizeW_ok hw, h1, h2]
    exact e1
  have : ∀ l : List (GraphCRF.X × KVal), (∀ p ∈ l, ∃ y : Labels,
      crfInference P (.name "ad3+") m p.1 w (.bool false) false (if p.2.truthy then p.2 else .none) = .ok (.plain (.discrete y)) ∧
      Sat p.2 y.get) → ∃ ys : List Labels, List.Forall₂ (fun p y =>
      crfInference P (.name "ad3+") m p.1 w (.bool false) false (if p.2.truthy then p.2 else .none) = .ok (.plain (.discrete y)) ∧
      Sat p.2 y.get) l ys := by
    intro l hl
    induction l with
    | nil => exact ⟨[], .nil⟩
    | cons p l ih =>
      obtain ⟨y, hy⟩ := hl p (by simp)
      obtain ⟨ys, hys⟩ := ih fun q hq => hl q (by simp [hq])
      exact ⟨y :: ys, .cons hy hys⟩
  obtain ⟨ys, hys⟩ := this _ key
  rw [List.forall₂_iff_get] at hys
  obtain ⟨l1, l2⟩ := hys
  rw [List.length_zip] at l1
  refine ⟨ys, ?_, by omega, fun i y c hy hc' => ?_⟩
  · rw [C125_each_partial _ (C125_graph_crf P (.name "ad3+") m w) nJobs Xs cs hc]
    refine ⟨by rw [List.length_map]; omega, fun i x c r hx hc' hr => ?_⟩
    obtain ⟨a1, a2⟩ := List.getElem?_eq_some_iff.mp hx
    obtain ⟨b1, b2⟩ := List.getElem?_eq_some_iff.mp hc'
    obtain ⟨c1, c2⟩ := List.getElem?_eq_some_iff.mp hr
    rw [List.length_map] at c1
    have := (l2 i (by rw [List.length_zip]; omega) c1).1
    simp only [List.get_eq_getElem, List.getElem_zip, a2, b2] at this
    rw [this, ← c2, List.getElem_map]
  · obtain ⟨b1, b2⟩ := List.getElem?_eq_some_iff.mp hc'
    obtain ⟨c1, c2⟩ := List.getElem?_eq_some_iff.mp hy
    have := (l2 i (by rw [List.length_zip]; omega) c1).2
    simp only [List.get_eq_getElem, List.getElem_zip, b2, c2] at this
    exact this

/-! ### concrete cases -/

/-- The label a constraint asks for, in the examples below. -/
def askedLabel : KVal → ℕ
  | .obj _ id => id
  | _ => 0

/-- A package that gives every node the label that is asked for. -/
def askedPackages : Packages where
  qpbo := none
  lp := fun _ _ => 0
  ad3 := some (fun U _ _ _ => ⟨⟨U.rows, U.cols, fun _ s => if s = 0 then 1 else 0⟩, ⟨0, 0, fun _ _ => 0⟩, 0, false⟩,
    fun U _ _ c _ => ⟨⟨U.rows, U.cols, fun _ s => if s = askedLabel c then 1 else 0⟩, ⟨0, 0, fun _ _ => 0⟩, 0, false⟩)
  ogm := none

/-- Two samples of one and two nodes; the first one must be labelled 1, the second one 0. -/
example : ∃ ys : List Labels, predict (crfMethods fun x relaxed c =>
      crfInference askedPackages (.name "ad3+") ⟨2, 1, true⟩ x ⟨6, fun k => k⟩ relaxed false c) 2
      [⟨⟨1, 1, fun _ _ => 1⟩, []⟩, ⟨⟨2, 1, fun _ _ => 1⟩, [(0, 1)]⟩] (some [.obj true 1, .obj true 0]) =
        .ok (ys.map fun y => .plain (.discrete y)) ∧ ys.length = 2 ∧
      ∀ (i : ℕ) y c, ys[i]? = some y → [KVal.obj true 1, .obj true 0][i]? = some c → y.get 0 = askedLabel c := by
  refine C125_honoured askedPackages ⟨2, 1, true⟩ ⟨6, fun k => k⟩ _ _ rfl (fun c y => y 0 = askedLabel c)
    [⟨⟨1, 1, fun _ _ => 1⟩, []⟩, ⟨⟨2, 1, fun _ _ => 1⟩, [(0, 1)]⟩] [.obj true 1, .obj true 0] rfl (by simp) ?_ rfl
    (fun x => ⟨x.features.rows, 2, fun i s => ∑ k ∈ Finset.range 1, x.features.get i k * ((0 + (s * 1 + k) : ℕ) : ℚ)⟩)
    (fun _ => ⟨2, 2, fun a b => ((2 * 1 + (a * 2 + b) : ℕ) : ℚ)⟩) ?_ ?_ ?_ 2
  · simp [KVal.truthy]
  · intro x hx
    simp only [List.mem_cons, List.not_mem_nil, or_false] at hx
    rcases hx with rfl | rfl <;> exact ⟨rfl, rfl, by decide⟩
  · intro p hp y y' hy h
    simp only [List.zip_cons_cons, List.zip_nil_right, List.mem_cons, List.not_mem_nil, or_false] at hp
    rcases hp with rfl | rfl <;> exact (hy 0 (by decide)).symm.trans h
  · intro p hp b
    simp only [List.zip_cons_cons, List.zip_nil_right, List.mem_cons, List.not_mem_nil, or_false] at hp
    rcases hp with rfl | rfl
    · exact ⟨fun _ => 1, rfl, fun _ _ => (by norm_num), rfl, rfl, rfl, fun _ _ _ _ => rfl⟩
    · exact ⟨fun _ => 0, rfl, fun _ _ => (by norm_num), rfl, rfl, rfl, fun _ _ _ _ => rfl⟩

/-- A body of `inference` that adds up what it is asked for. -/
def askedInf (x : ℕ) (_ c : KVal) : Except PyErr ℕ := .ok (if c.truthy then x + askedLabel c else x)

theorem askedInf_alike : DefaultsAlike askedInf := by
  intro x c
  unfold askedInf
  cases hc : c.truthy
  · rfl
  · simp only [if_true, hc]

example : predict (crfMethods askedInf) 1 [10, 20, 30] (some [.obj true 1, .none]) = .ok [11, 20] ∧
    predict (crfMethods askedInf) 4 [10, 20, 30] (some [.obj true 1, .none]) = .ok [11, 20] ∧
    predict (crfMethods askedInf) 1 [10, 20, 30] (some []) = .ok [10, 20, 30] := by
  decide +kernel

example : predict (gridMethods fun x _ => .ok (x + 1)) 1 [10, 20] (some [.none, .none]) = .error .typeError ∧
    predict (gridMethods fun x _ => .ok (x + 1)) 2 [10, 20] (some [.none, .none]) = .ok [11, 21] ∧
    predict (clfMethods (fun x => .ok (x + 1)) fun X => .ok (X.map (· + 1))) 1 [10, 20] (some [.none, .none]) =
      .error .typeError := by
  decide +kernel

end Verif.Props
