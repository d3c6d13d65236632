import Verif.Model.Exhaustive
import Verif.Props.C13
import Verif.Props.C24

/-!
# C11: exhaustive inference is globally optimal
-/

namespace Verif.Props

open Finset Verif.Common Verif.Exhaustive Verif.Spec

/-- `y` comes before `z` in lexicographic order on the first `n` positions. -/
def LexLT (n : ℕ) (y z : ℕ → ℕ) : Prop := ∃ k < n, (∀ i < k, y i = z i) ∧ y k < z k

/-- `n` labels below `S`, as a list. -/
def IsTuple (S n : ℕ) (l : List ℕ) : Prop := l.length = n ∧ ∀ a ∈ l, a < S

theorem mem_product {S n : ℕ} {l : List ℕ} : l ∈ product S n ↔ IsTuple S n l := by
  induction n generalizing l with
  | zero =>
    simp only [product, List.mem_singleton, IsTuple]
    constructor
    · rintro rfl; simp
    · rintro ⟨h, _⟩; exact List.length_eq_zero_iff.mp h
  | succ n ih =>
    simp only [product, List.mem_flatMap, List.mem_range, List.mem_map]
    constructor
    · rintro ⟨a, ha, t, ht, rfl⟩
      obtain ⟨h1, h2⟩ := ih.mp ht
      refine ⟨by simp [h1], ?_⟩
      intro b hb
      rcases List.mem_cons.mp hb with rfl | hb
      · exact ha
      · exact h2 b hb
    · rintro ⟨h1, h2⟩
      cases l with
      | nil => simp at h1
      | cons a t =>
        exact ⟨a, h2 a (by simp), t, ih.mpr ⟨by simpa using h1, fun b hb => h2 b (by simp [hb])⟩,
          rfl⟩

/-- later tuples are lexicographically larger. -/
theorem product_sorted (S n : ℕ) :
    (product S n).Pairwise fun l l' => LexLT n (ofTuple l).get (ofTuple l').get := by
  induction n with
  | zero => simp [product]
  | succ n ih =>
    simp only [product]
    rw [List.pairwise_flatMap]
    constructor
    · intro a _
      rw [List.pairwise_map]
      apply ih.imp
      rintro l l' ⟨k, hk, h1, h2⟩
      refine ⟨k + 1, by omega, ?_, ?_⟩
      · intro i hi
        cases i with
        | zero => simp [ofTuple]
        | succ i => simpa [ofTuple] using h1 i (by omega)
      · simpa [ofTuple] using h2
    · apply (List.pairwise_lt_range (n := S)).imp
      intro a b hab x hx y hy
      obtain ⟨t, _, rfl⟩ := List.mem_map.mp hx
      obtain ⟨t', _, rfl⟩ := List.mem_map.mp hy
      exact ⟨0, by omega, by intro i hi; omega, by simpa [ofTuple] using hab⟩

/-- the search loop keeps the first minimiser. -/
theorem search_spec (energy : Labels → Except PyErr ℚ) (E : List ℕ → ℚ) (R : List ℕ → List ℕ → Prop) :
    ∀ (ls : List (List ℕ)) (seen : List (List ℕ)) (best : List ℕ),
      (∀ l ∈ ls, energy (ofTuple l) = .ok (E l)) →
      (seen ++ ls).Pairwise R → best ∈ seen → (∀ l ∈ seen, E best ≤ E l) →
      (∀ l ∈ seen, R l best → E best < E l) → (∀ a b, R a b → ¬ R b a) → (∀ a, ¬ R a a) →
      ∃ b, search energy ls (some (E best, ofTuple best)) = .ok (some (E b, ofTuple b)) ∧
        b ∈ seen ++ ls ∧ (∀ l ∈ seen ++ ls, E b ≤ E l) ∧ ∀ l ∈ seen ++ ls, R l b → E b < E l := by
  intro ls
  induction ls with
  | nil =>
    intro seen best _ _ hb h1 h2 _ _
    exact ⟨best, rfl, by simpa using hb, by simpa using h1, by simpa using h2⟩
  | cons l ls ih =>
    intro seen best hen hp hb h1 h2 hasym hirr
    have hl := hen l (by simp)
    have hrest : ∀ l ∈ ls, energy (ofTuple l) = .ok (E l) := fun l' hl' => hen l' (by simp [hl'])
    have hp' : ((seen ++ [l]) ++ ls).Pairwise R := by simpa using hp
    have hseenl : ∀ a ∈ seen, R a l := by
      intro a ha
      rw [List.pairwise_append] at hp
      exact hp.2.2 a ha l (by simp)
    simp only [search, step, hl]
    by_cases hlt : E l < E best
    · simp only [if_pos hlt]
      obtain ⟨b, hs, hm, ha, hf⟩ := ih (seen ++ [l]) l hrest hp' (by simp)
        (by
          intro a ha
          rcases List.mem_append.mp ha with ha | ha
          · exact hlt.le.trans (h1 a ha)
          · rw [List.mem_singleton.mp ha])
        (by
          intro a ha hR
          rcases List.mem_append.mp ha with ha | ha
          · exact lt_of_lt_of_le hlt (h1 a ha)
          · rw [List.mem_singleton.mp ha] at hR; exact absurd hR (hirr l))
        hasym hirr
      exact ⟨b, hs, by simpa using hm, by simpa using ha, by simpa using hf⟩
    · simp only [if_neg hlt]
      obtain ⟨b, hs, hm, ha, hf⟩ := ih (seen ++ [l]) best hrest hp' (by simp [hb])
        (by
          intro a ha
          rcases List.mem_append.mp ha with ha | ha
          · exact h1 a ha
          · rw [List.mem_singleton.mp ha]; exact not_lt.mp hlt)
        (by
          intro a ha hR
          rcases List.mem_append.mp ha with ha | ha
          · exact h2 a ha hR
          · rw [List.mem_singleton.mp ha] at hR; exact absurd (hseenl best hb) (hasym _ _ hR))
        hasym hirr
      exact ⟨b, hs, by simpa using hm, by simpa using ha, by simpa using hf⟩

theorem LexLT.asymm {n : ℕ} {y z : ℕ → ℕ} (h : LexLT n y z) : ¬ LexLT n z y := by
  rintro ⟨k', hk', h1', h2'⟩
  obtain ⟨k, hk, h1, h2⟩ := h
  rcases lt_trichotomy k k' with h | h | h
  · have := h1' k h; omega
  · subst h; omega
  · have := h1 k' h; omega

/-- Searching all tuples: the result is the first one of minimal energy. -/
theorem search_product {S n : ℕ} (hS : n = 0 ∨ 1 ≤ S) (energy : Labels → Except PyErr ℚ)
    (E : List ℕ → ℚ) (hen : ∀ l, IsTuple S n l → energy (ofTuple l) = .ok (E l)) :
    ∃ b, search energy (product S n) none = .ok (some (E b, ofTuple b)) ∧ IsTuple S n b ∧
      (∀ l, IsTuple S n l → E b ≤ E l) ∧
      ∀ l, IsTuple S n l → LexLT n (ofTuple l).get (ofTuple b).get → E b < E l := by
  have hne : product S n ≠ [] := by
    have : List.replicate n 0 ∈ product S n := by
      rw [mem_product]
      refine ⟨by simp, ?_⟩
      intro a ha
      obtain ⟨h1, rfl⟩ := List.mem_replicate.mp ha
      rcases hS with h | h
      · exact absurd h h1
      · omega
    intro h
    rw [h] at this
    simp at this
  obtain ⟨l, ls, hls⟩ := List.exists_cons_of_ne_nil hne
  have hmem : ∀ a, a ∈ l :: ls ↔ IsTuple S n a := by
    intro a; rw [← hls]; exact mem_product
  have hsorted := product_sorted S n
  rw [hls] at hsorted
  obtain ⟨b, h1, h2, h3, h4⟩ := search_spec energy E
    (fun l l' => LexLT n (ofTuple l).get (ofTuple l').get) ls [l] l
    (fun a ha => hen a ((hmem a).mp (by simp [ha]))) (by simpa using hsorted) (by simp) (by simp)
    (by
      intro a ha hR
      rw [List.mem_singleton.mp ha] at hR
      exact absurd hR (fun h => LexLT.asymm h h))
    (fun a b h => LexLT.asymm h) (fun a h => LexLT.asymm h h)
  refine ⟨b, ?_, (hmem b).mp (by simpa using h2), ?_, ?_⟩
  · rw [hls]
    simp only [search, step, hen l ((hmem l).mp (by simp))]
    exact h1
  · intro a ha; exact h3 a (by simpa using (hmem a).mpr ha)
  · intro a ha; exact h4 a (by simpa using (hmem a).mpr ha)

theorem ofTuple_valid {S n : ℕ} {l : List ℕ} (h : IsTuple S n l) :
    (ofTuple l).size = n ∧ Valid n S (ofTuple l).get := by
  refine ⟨h.1, ?_⟩
  intro i hi
  simp only [ofTuple]
  rw [List.getD_eq_getElem _ _ (by rw [h.1]; exact hi)]
  exact h.2 _ (List.getElem_mem _)

/-- the tuple of a labelling. -/
def toTuple (n : ℕ) (y : ℕ → ℕ) : List ℕ := (List.range n).map y

theorem toTuple_isTuple {S n : ℕ} {y : ℕ → ℕ} (h : Valid n S y) : IsTuple S n (toTuple n y) := by
  refine ⟨by simp [toTuple], ?_⟩
  intro a ha
  simp only [toTuple, List.mem_map, List.mem_range] at ha
  obtain ⟨i, hi, rfl⟩ := ha
  exact h i hi

theorem toTuple_get {n : ℕ} {y : ℕ → ℕ} {i : ℕ} (hi : i < n) :
    (ofTuple (toTuple n y)).get i = y i := by
  simp only [ofTuple, toTuple]
  rw [List.getD_eq_getElem _ _ (by simpa using hi)]
  simp

/-- **C11a.** Let the joint features of all labellings of `n` nodes with `S ≥ 1` states be defined with the
size of `w`, giving the scores `score`, which depend only on the labels of the `n` nodes. Then
exhaustive inference returns an in-range labelling whose score is maximal among all labellings,
and strictly larger than that of every lexicographically smaller labelling. -/
theorem C11_exhaustive (S n : ℕ) (hS : 1 ≤ S) (jointFeature : Labels → Except PyErr Vec) (w : Vec)
    (sc : (ℕ → ℕ) → ℚ) (hsc : ∀ y y', (∀ i < n, y i = y' i) → sc y = sc y')
    (hjf : ∀ y : Labels, y.size = n → Valid n S y.get →
      ∃ ψ, jointFeature y = .ok ψ ∧ w.dot ψ = .ok (sc y.get)) :
    ∃ y : Labels, exhaustiveInference S n jointFeature w = .ok (some y) ∧ y.size = n ∧
      Valid n S y.get ∧ (∀ y', Valid n S y' → sc y' ≤ sc y.get) ∧
      ∀ y', Valid n S y' → LexLT n y' y.get → sc y' < sc y.get := by
  obtain ⟨b, h1, h2, h3, h4⟩ := search_product (Or.inr hS) (energyOf jointFeature w)
    (fun l => - sc (ofTuple l).get) (by
      intro l hl
      obtain ⟨hs, hv⟩ := ofTuple_valid hl
      obtain ⟨ψ, hψ, hd⟩ := hjf _ hs hv
      unfold energyOf
      rw [hψ]
      simp only
      rw [hd])
  refine ⟨ofTuple b, ?_, (ofTuple_valid h2).1, (ofTuple_valid h2).2, ?_, ?_⟩
  · unfold exhaustiveInference
    rw [h1]
    rfl
  · intro y' hy'
    have := h3 _ (toTuple_isTuple hy')
    rw [hsc (ofTuple (toTuple n y')).get y' (fun i hi => toTuple_get hi)] at this
    linarith
  · rintro y' hy' ⟨k, hk, hk1, hk2⟩
    have := h4 _ (toTuple_isTuple hy') ⟨k, hk,
      fun i hi => by rw [toTuple_get (hi.trans hk)]; exact hk1 i hi,
      by rw [toTuple_get hk]; exact hk2⟩
    rw [hsc (ofTuple (toTuple n y')).get y' (fun i hi => toTuple_get hi)] at this
    linarith

/-- **C11b.** The same for exhaustive loss-augmented inference, with score plus loss. -/
theorem C11_exhaustive_loss_augmented (S n : ℕ) (hS : 1 ≤ S)
    (jointFeature : Labels → Except PyErr Vec) (loss : Labels → Except PyErr ℚ) (w : Vec)
    (sc ls : (ℕ → ℕ) → ℚ) (hsc : ∀ y y', (∀ i < n, y i = y' i) → sc y = sc y' ∧ ls y = ls y')
    (hjf : ∀ y : Labels, y.size = n → Valid n S y.get →
      ∃ ψ, jointFeature y = .ok ψ ∧ w.dot ψ = .ok (sc y.get) ∧ loss y = .ok (ls y.get)) :
    ∃ y : Labels, exhaustiveLossAugmented S n jointFeature loss w = .ok (some y) ∧ y.size = n ∧
      Valid n S y.get ∧ (∀ y', Valid n S y' → sc y' + ls y' ≤ sc y.get + ls y.get) ∧
      ∀ y', Valid n S y' → LexLT n y' y.get → sc y' + ls y' < sc y.get + ls y.get := by
  obtain ⟨b, h1, h2, h3, h4⟩ := search_product (Or.inr hS) (energyLossOf jointFeature loss w)
    (fun l => - ls (ofTuple l).get - sc (ofTuple l).get) (by
      intro l hl
      obtain ⟨hs, hv⟩ := ofTuple_valid hl
      obtain ⟨ψ, hψ, hd, hl⟩ := hjf _ hs hv
      unfold energyLossOf
      rw [hψ]
      simp only
      rw [hl]
      simp only
      rw [hd])
  refine ⟨ofTuple b, ?_, (ofTuple_valid h2).1, (ofTuple_valid h2).2, ?_, ?_⟩
  · unfold exhaustiveLossAugmented
    rw [h1]
    rfl
  · intro y' hy'
    have := h3 _ (toTuple_isTuple hy')
    obtain ⟨ha, hb⟩ := hsc (ofTuple (toTuple n y')).get y' (fun i hi => toTuple_get hi)
    rw [ha, hb] at this
    linarith
  · rintro y' hy' ⟨k, hk, hk1, hk2⟩
    have := h4 _ (toTuple_isTuple hy') ⟨k, hk,
      fun i hi => by rw [toTuple_get (hi.trans hk)]; exact hk1 i hi,
      by rw [toTuple_get hk]; exact hk2⟩
    obtain ⟨ha, hb⟩ := hsc (ofTuple (toTuple n y')).get y' (fun i hi => toTuple_get hi)
    rw [ha, hb] at this
    linarith

theorem graphScore_congr {S F n : ℕ} {d : Bool} {x : ℕ → ℕ → ℚ} {edges : List (ℕ × ℕ)}
    (hE : EdgesIn n edges) {w : ℕ → ℚ} {y y' : ℕ → ℕ} (h : ∀ i < n, y i = y' i) :
    graphScore S F d x n edges w y = graphScore S F d x n edges w y' := by
  unfold graphScore
  congr 1
  · apply sum_congr rfl; intro i hi; rw [h i (mem_range.mp hi)]
  · apply sum_congr rfl; intro e he
    have hm : edges.getD e (0, 0) ∈ edges := by
      rw [List.getD_eq_getElem _ _ (mem_range.mp he)]; exact List.getElem_mem _
    simp only
    rw [h _ (hE _ hm).1, h _ (hE _ hm).2]

/-- **C11c.** For a `GraphCRF`: exhaustive inference returns the lexicographically first labelling of
maximal score, for every graph, feature array and weight vector of the advertised size. -/
theorem C11_graphcrf (m : GraphCRF.Model) (x : GraphCRF.X) (w : Vec) (hS : 1 ≤ m.nStates)
    (hF : x.features.cols = m.nFeatures) (he : EdgesIn x.features.rows x.edges)
    (hw : w.size = GraphCRF.sizeJointFeature m) :
    ∃ y : Labels, exhaustiveInference m.nStates x.features.rows
        (fun y => GraphCRF.jointFeature m x (.discrete y)) w = .ok (some y) ∧
      y.size = x.features.rows ∧ Valid x.features.rows m.nStates y.get ∧
      let sc := graphScore m.nStates m.nFeatures m.directed x.features.get x.features.rows
        x.edges w.get
      (∀ y', Valid x.features.rows m.nStates y' → sc y' ≤ sc y.get) ∧
      ∀ y', Valid x.features.rows m.nStates y' → LexLT x.features.rows y' y.get →
        sc y' < sc y.get := by
  apply C11_exhaustive _ _ hS
  · intro y y' h; exact graphScore_congr he h
  · intro y hs hv
    obtain ⟨U, P, ψ, _, _, h3, _, _, _, _, h4⟩ := C13_graphcrf_energy m x y w hF hs hv he hw
    exact ⟨ψ, h3, h4⟩

/-- concrete instance: all labellings tie, the lexicographically first one is returned; with a
preference for state 1 at the second node that one is found. -/
example : (exhaustiveInference 2 2 (fun _ => .ok ⟨1, fun _ => 0⟩) ⟨1, fun _ => 1⟩).map
      (fun o => o.map fun y => (y.size, y.get 0, y.get 1)) = .ok (some (2, 0, 0)) ∧
    (exhaustiveInference 2 2 (fun y => .ok ⟨1, fun _ => y.get 1⟩) ⟨1, fun _ => 1⟩).map
      (fun o => o.map fun y => (y.size, y.get 0, y.get 1)) = .ok (some (2, 0, 1)) := by
  decide +kernel

end Verif.Props
