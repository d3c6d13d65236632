import Verif.Model.MaxProd
import Verif.Spec.Graph
import Verif.Spec.Labelling

namespace Verif.MaxProd

open Finset Verif.Common Verif.Spec

theorem mem_neighbors {edges : Edges} {v : ℕ} {nb : Nbr} : nb ∈ neighbors edges v ↔
    nb.edge < edges.length ∧ ((nb.flip = false ∧ edge edges nb.edge = (v, nb.dst)) ∨
      (nb.flip = true ∧ edge edges nb.edge = (nb.dst, v))) := by
  unfold neighbors
  simp only [List.mem_flatMap, List.mem_range, List.mem_append]
  constructor
  · rintro ⟨e, he, h | h⟩
    · split at h
      · rename_i h1
        simp only [List.mem_singleton] at h
        subst h
        exact ⟨he, Or.inl ⟨rfl, Prod.ext h1 rfl⟩⟩
      · simp at h
    · split at h
      · rename_i h1
        simp only [List.mem_singleton] at h
        subst h
        exact ⟨he, Or.inr ⟨rfl, Prod.ext rfl h1⟩⟩
      · simp at h
  · rintro ⟨he, ⟨hf, h⟩ | ⟨hf, h⟩⟩
    · refine ⟨nb.edge, he, Or.inl ?_⟩
      rw [h]
      simp only [if_true, List.mem_singleton]
      cases nb; simp_all
    · refine ⟨nb.edge, he, Or.inr ?_⟩
      rw [h]
      simp only [if_true, List.mem_singleton]
      cases nb; simp_all

theorem neighbors_nodup (edges : Edges) (v : ℕ) : (neighbors edges v).Nodup := by
  unfold neighbors
  rw [List.nodup_flatMap]
  constructor
  · intro e _
    split <;> split <;> simp
  · apply List.Pairwise.imp _ List.nodup_range
    intro a b hab
    simp only [Function.onFun]
    intro nb h1 h2
    have ha : nb.edge = a := by
      simp only [List.mem_append] at h1
      rcases h1 with h | h <;> split at h <;> simp at h <;> rw [h]
    have hb : nb.edge = b := by
      simp only [List.mem_append] at h2
      rcases h2 with h | h <;> split at h <;> simp at h <;> rw [h]
    omega

theorem joins_of_mem {edges : Edges} {v : ℕ} {nb : Nbr} (h : nb ∈ neighbors edges v) :
    Joins edges nb.edge v nb.dst := by
  rcases (mem_neighbors.mp h).2 with ⟨_, h⟩ | ⟨_, h⟩
  · exact Or.inl h
  · exact Or.inr h

/-- the edge recorded for `v` joins the parent `q` to `v` in the recorded direction. -/
def ViaOk (edges : Edges) (st : St) (v q : ℕ) : Prop :=
  (st.via v).1 < edges.length ∧
    edge edges (st.via v).1 = if (st.via v).2 then (v, q) else (q, v)

/-- the entries `l` of the adjacency list of `u` have been dealt with. -/
def Scanned (st : St) (u : ℕ) (l : List Nbr) : Prop :=
  ∀ nb ∈ l, st.visited nb.dst = true ∧
    ((st.parents nb.dst = some u ∧ st.via nb.dst = (nb.edge, nb.flip)) ∨
      st.parents u = some nb.dst)

/-- edges recorded so far. -/
def Used (st : St) (e : ℕ) : Prop := ∃ v q, st.parents v = some q ∧ (st.via v).1 = e

/-- Invariant of the search; `T0` are the vertices of the finished components and `r` is the root of the
current one. -/
structure Inv (edges : Edges) (n : ℕ) (T0 : List ℕ) (r : ℕ) (st : St) : Prop where
  nodup : (st.traversal ++ st.queue).Nodup
  vis : ∀ v, st.visited v = true ↔ v ∈ st.traversal ∨ v ∈ st.queue
  lt : ∀ v, st.visited v = true → v < n
  par : ∀ v q, st.parents v = some q →
    st.visited v = true ∧ q ∈ st.traversal ∧ ViaOk edges st v q ∧ v ≠ q
  order : st.traversal.Pairwise fun a b => st.parents a ≠ some b
  comp : ∀ v, st.visited v = true → v ∉ T0 → ConnectedVia edges (Used st) r v
  sub : ∀ v ∈ T0, v ∈ st.traversal
  closed : ∀ u ∈ T0, ∀ nb ∈ neighbors edges u, nb.dst ∈ T0

/-- what changes when an unvisited vertex is discovered. -/
def discover (fifo : Bool) (node : ℕ) (nb : Nbr) (st : St) : St :=
  { visited := fun v => if v = nb.dst then true else st.visited v
    parents := fun v => if v = nb.dst then some node else st.parents v
    via := fun v => if v = nb.dst then (nb.edge, nb.flip) else st.via v
    queue := if fifo then st.queue ++ [nb.dst] else nb.dst :: st.queue
    traversal := st.traversal }

theorem mem_discover_queue (fifo : Bool) (node : ℕ) (nb : Nbr) (st : St) (v : ℕ) :
    v ∈ (discover fifo node nb st).queue ↔ v ∈ st.queue ∨ v = nb.dst := by
  unfold discover
  cases fifo <;> simp [or_comm]

theorem used_discover {fifo : Bool} {node : ℕ} {nb : Nbr} {st : St} {e : ℕ}
    (hpar : st.parents nb.dst = none) (h : Used st e) :
    Used (discover fifo node nb st) e := by
  obtain ⟨v, q, h1, h2⟩ := h
  refine ⟨v, q, ?_, ?_⟩
  · simp only [discover]
    rw [if_neg]
    · exact h1
    · rintro rfl; rw [hpar] at h1; cases h1
  · simp only [discover]
    rw [if_neg]
    · exact h2
    · rintro rfl; rw [hpar] at h1; cases h1

variable {edges : Edges} {n : ℕ} {T0 : List ℕ} {r : ℕ} {st : St}

theorem Inv.par_none (hI : Inv edges n T0 r st) {v : ℕ} (h : st.visited v = false) :
    st.parents v = none := by
  cases hp : st.parents v with
  | none => rfl
  | some q =>
    have := (hI.par v q hp).1
    rw [h] at this
    cases this

theorem discover_inv (fifo : Bool) {node : ℕ} {nb : Nbr} (hI : Inv edges n T0 r st)
    (hE : EdgesIn n edges) (hnode : node ∈ st.traversal) (hn0 : node ∉ T0)
    (hnb : nb ∈ neighbors edges node) (hv : st.visited nb.dst = false) :
    Inv edges n T0 r (discover fifo node nb st) := by
  have hnone := hI.par_none hv
  have hnt : nb.dst ∉ st.traversal := fun h => by
    have := (hI.vis nb.dst).mpr (Or.inl h)
    rw [hv] at this; cases this
  have hnq : nb.dst ∉ st.queue := fun h => by
    have := (hI.vis nb.dst).mpr (Or.inr h)
    rw [hv] at this; cases this
  have hne : node ≠ nb.dst := fun h => hnt (h ▸ hnode)
  have hused : Used (discover fifo node nb st) nb.edge :=
    ⟨nb.dst, node, by simp [discover], by simp [discover]⟩
  constructor
  · -- nodup
    have h1 : (st.traversal ++ (discover fifo node nb st).queue).Nodup := by
      have hd := hI.nodup
      rw [List.nodup_append] at hd ⊢
      refine ⟨hd.1, ?_, ?_⟩
      · simp only [discover]
        cases fifo
        · simpa [hnq] using hd.2.1
        · simp only [if_true]
          rw [List.nodup_append]
          refine ⟨hd.2.1, by simp, ?_⟩
          intro a ha b hb
          simp only [List.mem_singleton] at hb
          rintro rfl
          exact hnq (hb ▸ ha)
      · intro a ha b hb
        rcases (mem_discover_queue fifo node nb st b).mp hb with h | h
        · exact hd.2.2 a ha b h
        · rintro rfl; exact hnt (h ▸ ha)
    exact h1
  · intro v
    rw [mem_discover_queue]
    simp only [discover]
    by_cases h : v = nb.dst
    · simp [h]
    · simp only [h, if_false, or_false]
      exact hI.vis v
  · intro v h
    simp only [discover] at h
    by_cases h' : v = nb.dst
    · obtain ⟨he, h2⟩ := mem_neighbors.mp hnb
      have hm : edge edges nb.edge ∈ edges := by
        unfold edge; rw [List.getD_eq_getElem _ _ he]; exact List.getElem_mem he
      have := hE _ hm
      rcases h2 with ⟨_, h2⟩ | ⟨_, h2⟩ <;> rw [h2] at this <;> rw [h'] 
      · exact this.2
      · exact this.1
    · rw [if_neg h'] at h
      exact hI.lt v h
  · intro v q h
    simp only [discover] at h ⊢
    by_cases h' : v = nb.dst
    · subst h'
      simp only [if_true, Option.some.injEq] at h ⊢
      subst h
      refine ⟨trivial, hnode, ?_, hne.symm⟩
      obtain ⟨he, h2⟩ := mem_neighbors.mp hnb
      refine ⟨by simpa using he, ?_⟩
      simp only [if_true]
      rcases h2 with ⟨hf, h2⟩ | ⟨hf, h2⟩
      · rw [hf]; simpa using h2
      · rw [hf]; simpa using h2
    · simp only [h', if_false] at h ⊢
      obtain ⟨a, b, c, d⟩ := hI.par v q h
      refine ⟨a, b, ?_, d⟩
      unfold ViaOk at c ⊢
      simp only [h', if_false]
      exact c
  · -- order
    simp only [discover]
    apply List.Pairwise.imp_of_mem _ hI.order
    intro a b ha hb h
    have : a ≠ nb.dst := fun h => hnt (h ▸ ha)
    rw [if_neg this]
    exact h
  · intro v h h0
    simp only [discover] at h
    by_cases h' : v = nb.dst
    · subst h'
      have hc := hI.comp node ((hI.vis node).mpr (Or.inl hnode)) hn0
      refine Relation.ReflTransGen.tail (hc.mono fun e he => used_discover hnone he) ?_
      exact ⟨nb.edge, (mem_neighbors.mp hnb).1, hused, joins_of_mem hnb⟩
    · rw [if_neg h'] at h
      exact (hI.comp v h h0).mono fun e he => used_discover hnone he
  · exact hI.sub
  · exact hI.closed

theorem discover_scanned (fifo : Bool) {node : ℕ} {nb : Nbr} {u : ℕ} {l : List Nbr}
    (hv : st.visited nb.dst = false) (hu : st.visited u = true)
    (h : Scanned st u l) : Scanned (discover fifo node nb st) u l := by
  intro nb' hnb'
  obtain ⟨h1, h2⟩ := h nb' hnb'
  have hne : nb'.dst ≠ nb.dst := by intro h; rw [h, hv] at h1; cases h1
  have hne' : u ≠ nb.dst := by intro h; rw [h, hv] at hu; cases hu
  simp only [discover, hne, hne', if_false]
  exact ⟨h1, h2⟩

/-- meeting a visited vertex other than the parent proves a cycle. -/
theorem cycle_of_clash {node : ℕ} {nb : Nbr} {pre rest : List Nbr} (hI : Inv edges n T0 r st)
    (hnode : node ∈ st.traversal) (hn0 : node ∉ T0)
    (hl : neighbors edges node = pre ++ nb :: rest) (hv : st.visited nb.dst = true)
    (hp : st.parents node ≠ some nb.dst)
    (hchild : ∀ c, st.parents c = some node → ⟨(st.via c).1, (st.via c).2, c⟩ ∈ pre) :
    HasCycle edges := by
  have hnb : nb ∈ neighbors edges node := by rw [hl]; simp
  have hd0 : nb.dst ∉ T0 := by
    intro h
    obtain ⟨he, h2⟩ := mem_neighbors.mp hnb
    have : (⟨nb.edge, !nb.flip, node⟩ : Nbr) ∈ neighbors edges nb.dst := by
      rw [mem_neighbors]
      refine ⟨he, ?_⟩
      rcases h2 with ⟨hf, h2⟩ | ⟨hf, h2⟩
      · right; simp [hf, h2]
      · left; simp [hf, h2]
    exact hn0 (hI.closed _ h _ this)
  have c1 := hI.comp node ((hI.vis node).mpr (Or.inl hnode)) hn0
  have c2 := hI.comp nb.dst hv hd0
  have hconn : ConnectedVia edges (Used st) node nb.dst := Relation.ReflTransGen.trans c1.symm c2
  have hunused : ¬ Used st nb.edge := by
    rintro ⟨c, q, h1, h2⟩
    obtain ⟨_, _, hvia, hcq⟩ := hI.par c q h1
    have hvia' := hvia.2
    rw [h2] at hvia'
    obtain ⟨he, h3⟩ := mem_neighbors.mp hnb
    have hnd := neighbors_nodup edges node
    rw [hl] at hnd
    rw [List.nodup_append] at hnd
    have key : ∀ (hc : c = nb.dst) (hq : q = node) (hflip : (st.via c).2 = nb.flip), False := by
      intro hc hq hflip
      subst hc hq
      have := hchild _ h1
      rw [h2, hflip] at this
      exact hnd.2.2 nb this nb (by simp) rfl
    rcases h3 with ⟨hf, h3⟩ | ⟨hf, h3⟩ <;> rw [h3] at hvia' <;> cases hfl : (st.via c).2 <;>
      rw [hfl] at hvia' <;> simp only [if_true, Bool.false_eq_true, if_false, Prod.mk.injEq] at hvia'
    · exact key hvia'.2.symm hvia'.1.symm (by rw [hfl, hf])
    · rw [← hvia'.1, ← hvia'.2] at h1; exact hp h1
    · rw [← hvia'.1, ← hvia'.2] at h1; exact hp h1
    · exact key hvia'.1.symm hvia'.2.symm (by rw [hfl, hf])
  have hc2 : ConnectedVia edges (· ≠ nb.edge) node nb.dst :=
    hconn.mono fun e he h => hunused (h ▸ he)
  refine ⟨nb.edge, (mem_neighbors.mp hnb).1, ?_⟩
  rcases (mem_neighbors.mp hnb).2 with ⟨_, h⟩ | ⟨_, h⟩
  · unfold edge at h; rw [h]; exact hc2
  · unfold edge at h; rw [h]; exact hc2.symm

theorem scan_spec (fifo : Bool) (hE : EdgesIn n edges) {node : ℕ} (l : List Nbr) :
    ∀ (pre : List Nbr) (st : St), Inv edges n T0 r st → node ∈ st.traversal → node ∉ T0 →
    neighbors edges node = pre ++ l → Scanned st node pre →
    (∀ u ∈ st.traversal, u ≠ node → Scanned st u (neighbors edges u)) →
    (∀ c, st.parents c = some node → ⟨(st.via c).1, (st.via c).2, c⟩ ∈ pre) →
    match scan fifo node l st with
    | none => HasCycle edges
    | some st' => Inv edges n T0 r st' ∧ st'.traversal = st.traversal ∧
        ∀ u ∈ st'.traversal, Scanned st' u (neighbors edges u) := by
  induction l with
  | nil =>
    intro pre st hI hnode hn0 hl hs hall hchild
    simp only [scan]
    refine ⟨hI, trivial, ?_⟩
    intro u hu
    by_cases h : u = node
    · subst h; rw [hl, List.append_nil]; exact hs
    · exact hall u hu h
  | cons nb rest ih =>
    intro pre st hI hnode hn0 hl hs hall hchild
    have hnb : nb ∈ neighbors edges node := by rw [hl]; simp
    simp only [scan]
    by_cases hv : st.visited nb.dst = false
    · rw [if_pos hv]
      have hI' := discover_inv fifo hI hE hnode hn0 hnb hv
      have hvn : st.visited node = true := (hI.vis node).mpr (Or.inl hnode)
      have := ih (pre ++ [nb]) (discover fifo node nb st) hI' hnode hn0 (by rw [hl]; simp) ?_ ?_ ?_
      · exact this
      · intro nb' hnb'
        rcases List.mem_append.mp hnb' with h | h
        · exact discover_scanned fifo hv hvn hs nb' h
        · simp only [List.mem_singleton] at h
          subst h
          simp [discover]
      · intro u hu hne
        exact discover_scanned fifo hv ((hI.vis u).mpr (Or.inl hu)) (hall u hu hne)
      · intro c hc
        simp only [discover] at hc ⊢
        by_cases h : c = nb.dst
        · subst h; simp
        · simp only [h, if_false] at hc ⊢
          exact List.mem_append.mpr (Or.inl (hchild c hc))
    · rw [if_neg hv]
      have hv' : st.visited nb.dst = true := by simpa using hv
      by_cases hp : st.parents node = some nb.dst
      · rw [if_pos hp]
        refine ih (pre ++ [nb]) st hI hnode hn0 (by rw [hl]; simp) ?_ hall ?_
        · intro nb' hnb'
          rcases List.mem_append.mp hnb' with h | h
          · exact hs nb' h
          · simp only [List.mem_singleton] at h
            subst h
            exact ⟨hv', Or.inr hp⟩
        · intro c hc
          exact List.mem_append.mpr (Or.inl (hchild c hc))
      · rw [if_neg hp]
        exact cycle_of_clash hI hnode hn0 hl hv' hp hchild

theorem loop_spec (fifo : Bool) (hE : EdgesIn n edges) (k : ℕ) :
    ∀ (st : St), Inv edges n T0 r st → n ≤ st.traversal.length + k →
    (∀ u ∈ st.traversal, Scanned st u (neighbors edges u)) →
    match loop fifo edges k st with
    | none => HasCycle edges
    | some st' => Inv edges n T0 r st' ∧ st'.queue = [] ∧
        (∀ v, st.visited v = true → st'.visited v = true) ∧
        ∀ u ∈ st'.traversal, Scanned st' u (neighbors edges u) := by
  have hlen : ∀ st : St, Inv edges n T0 r st → (st.traversal ++ st.queue).length ≤ n := by
    intro st hI
    have h1 : (st.traversal ++ st.queue) ⊆ List.range n := by
      intro v hv
      rw [List.mem_range]
      exact hI.lt v ((hI.vis v).mpr (List.mem_append.mp hv))
    have := (List.subperm_of_subset hI.nodup h1).length_le
    simpa using this
  induction k with
  | zero =>
    intro st hI hk hs
    simp only [loop]
    refine ⟨hI, ?_, fun _ h => h, hs⟩
    have := hlen st hI
    rw [List.length_append] at this
    exact List.eq_nil_of_length_eq_zero (by omega)
  | succ k ih =>
    intro st hI hk hs
    simp only [loop]
    cases hq : st.queue with
    | nil => exact ⟨hI, hq, fun _ h => h, hs⟩
    | cons node q =>
      simp only
      have hnd := hI.nodup
      rw [hq] at hnd
      have hnt : node ∉ st.traversal := by
        intro h
        rw [List.nodup_append] at hnd
        exact hnd.2.2 node h node (by simp) rfl
      have hn0 : node ∉ T0 := fun h => hnt (hI.sub node h)
      have hI2 : Inv edges n T0 r { st with queue := q, traversal := st.traversal ++ [node] } := by
        constructor
        · simpa using hnd
        · intro v
          simp only [List.mem_append, List.mem_singleton]
          rw [hI.vis v, hq, List.mem_cons]
          tauto
        · exact hI.lt
        · intro v p hp
          obtain ⟨a, b, c, d⟩ := hI.par v p hp
          exact ⟨a, List.mem_append.mpr (Or.inl b), c, d⟩
        · simp only
          rw [List.pairwise_append]
          refine ⟨hI.order, by simp, ?_⟩
          intro a _ b hb
          simp only [List.mem_singleton] at hb
          subst hb
          intro hp
          exact hnt (hI.par a b hp).2.1
        · exact hI.comp
        · intro v hv
          exact List.mem_append.mpr (Or.inl (hI.sub v hv))
        · exact hI.closed
      have hnochild : ∀ c, st.parents c ≠ some node := fun c hc => hnt (hI.par c node hc).2.1
      have hspec := scan_spec fifo hE (T0 := T0) (r := r) (neighbors edges node) []
        { st with queue := q, traversal := st.traversal ++ [node] } hI2
        (by simp) hn0 (by simp) (by intro nb h; simp at h)
        (by
          intro u hu hne
          simp only [List.mem_append, List.mem_singleton] at hu
          rcases hu with hu | hu
          · exact hs u hu
          · exact absurd hu hne)
        (by intro c hc; exact absurd hc (hnochild c))
      cases hscan : scan fifo node (neighbors edges node)
          { st with queue := q, traversal := st.traversal ++ [node] } with
      | none => rw [hscan] at hspec; exact hspec
      | some st' =>
        rw [hscan] at hspec
        simp only at hspec ⊢
        obtain ⟨hI', ht', hs'⟩ := hspec
        have hmono : ∀ v, st.visited v = true → st'.visited v = true := by
          have : ∀ (l : List Nbr) (a b : St), scan fifo node l a = some b →
              ∀ v, a.visited v = true → b.visited v = true := by
            intro l
            induction l with
            | nil => intro a b h v hv; simp only [scan, Option.some.injEq] at h; rw [← h]; exact hv
            | cons nb rest ih2 =>
              intro a b h v hv
              simp only [scan] at h
              split at h
              · refine ih2 _ _ h v ?_
                simp only
                split
                · rfl
                · exact hv
              · split at h
                · exact ih2 _ _ h v hv
                · cases h
          exact fun v hv => this _ _ _ hscan v hv
        have hrec := ih st' hI' (by rw [ht']; simp; omega) hs'
        cases hloop : loop fifo edges k st' with
        | none => rw [hloop] at hrec; exact hrec
        | some st'' =>
          rw [hloop] at hrec
          exact ⟨hrec.1, hrec.2.1, fun v hv => hrec.2.2.1 v (hmono v hv), hrec.2.2.2⟩

/-- state between components. -/
structure Outer (edges : Edges) (n : ℕ) (st : St) : Prop where
  inv : ∀ r, Inv edges n st.traversal r st
  queue : st.queue = []
  scanned : ∀ u ∈ st.traversal, Scanned st u (neighbors edges u)

theorem visit_spec (fifo : Bool) (hE : EdgesIn n edges) (hO : Outer edges n st) {i : ℕ}
    (hi : i < n) :
    match visit fifo edges n st i with
    | none => HasCycle edges
    | some st' => Outer edges n st' ∧ st'.visited i = true ∧
        ∀ v, st.visited v = true → st'.visited v = true := by
  unfold visit
  by_cases hv : st.visited i = true
  · rw [if_pos hv]
    exact ⟨hO, hv, fun _ h => h⟩
  · rw [if_neg hv]
    have hv' : st.visited i = false := by simpa using hv
    have hI := hO.inv i
    have hmem : ∀ v, st.visited v = true ↔ v ∈ st.traversal := by
      intro v; rw [hI.vis v, hO.queue]; simp
    have hI1 : Inv edges n st.traversal i
        { st with visited := fun v => if v = i then true else st.visited v, queue := [i] } := by
      constructor
      · simp only
        rw [List.nodup_append]
        refine ⟨(List.nodup_append.mp hI.nodup).1, by simp, ?_⟩
        intro a ha b hb
        simp only [List.mem_singleton] at hb
        rintro rfl
        subst hb
        exact hv ((hmem _).mpr ha)
      · intro v
        simp only [List.mem_singleton]
        by_cases h : v = i
        · simp [h]
        · simp [h, hmem]
      · intro v h
        simp only at h
        by_cases h' : v = i
        · rw [h']; exact hi
        · rw [if_neg h'] at h; exact hI.lt v h
      · intro v q h
        obtain ⟨a, b, c, d⟩ := hI.par v q h
        refine ⟨?_, b, c, d⟩
        simp only
        split
        · rfl
        · exact a
      · exact hI.order
      · intro v h h0
        simp only at h
        by_cases h' : v = i
        · rw [h']; exact Relation.ReflTransGen.refl
        · rw [if_neg h'] at h
          exact absurd ((hmem v).mp h) h0
      · exact fun v h => h
      · intro u hu nb hnb
        exact (hmem _).mp (hO.scanned u hu nb hnb).1
    have hs1 : ∀ u ∈ st.traversal, Scanned
        { st with visited := fun v => if v = i then true else st.visited v, queue := [i] } u
        (neighbors edges u) := by
      intro u hu nb hnb
      obtain ⟨a, b⟩ := hO.scanned u hu nb hnb
      refine ⟨?_, b⟩
      simp only
      split
      · rfl
      · exact a
    have hspec := loop_spec fifo hE n _ hI1 (by simp) hs1
    cases hl : loop fifo edges n
        { st with visited := fun v => if v = i then true else st.visited v, queue := [i] } with
    | none => rw [hl] at hspec; exact hspec
    | some st' =>
      rw [hl] at hspec
      simp only at hspec ⊢
      obtain ⟨h1, h2, h3, h4⟩ := hspec
      have hmem' : ∀ v, st'.visited v = true ↔ v ∈ st'.traversal := by
        intro v; rw [h1.vis v, h2]; simp
      refine ⟨⟨?_, h2, h4⟩, h3 i (by simp), ?_⟩
      · intro r
        refine ⟨h1.nodup, h1.vis, h1.lt, h1.par, h1.order, ?_, fun v h => h, ?_⟩
        · intro v h h0
          exact absurd ((hmem' v).mp h) h0
        · intro u hu nb hnb
          exact (hmem' _).mp (h4 u hu nb hnb).1
      · intro v hv2
        apply h3
        split
        · rfl
        · exact hv2

theorem outer_init : Outer edges n St.init := by
  refine ⟨?_, rfl, by simp [St.init]⟩
  intro r
  constructor <;> simp [St.init]

theorem explore_spec (fifo : Bool) (hE : EdgesIn n edges) :
    match explore fifo edges n with
    | none => HasCycle edges
    | some st => Outer edges n st ∧ ∀ v < n, st.visited v = true := by
  unfold explore
  have : ∀ k ≤ n, match (List.range k).foldl (fun o i => o.bind fun st => visit fifo edges n st i)
      (some St.init) with
      | none => HasCycle edges
      | some st => Outer edges n st ∧ ∀ v < k, st.visited v = true := by
    intro k
    induction k with
    | zero => intro _; exact ⟨outer_init, by simp⟩
    | succ k ih =>
      intro hk
      have h := ih (by omega)
      rw [List.range_succ, List.foldl_append]
      simp only [List.foldl_cons, List.foldl_nil]
      cases hf : (List.range k).foldl (fun o i => o.bind fun st => visit fifo edges n st i)
          (some St.init) with
      | none => rw [hf] at h; exact h
      | some st =>
        rw [hf] at h
        simp only [Option.bind] at h ⊢
        have hv := visit_spec fifo hE h.1 (show k < n by omega)
        cases hvis : visit fifo edges n st k with
        | none => rw [hvis] at hv; exact hv
        | some st' =>
          rw [hvis] at hv
          refine ⟨hv.1, ?_⟩
          intro v hvk
          rcases Nat.lt_succ_iff_lt_or_eq.mp hvk with h' | rfl
          · exact hv.2.2 v (h.2 v h')
          · exact hv.2.1
  exact this n le_rfl

/-- the queue is empty at the end: the iteration bound in `explore` is never the reason to stop. -/
theorem explore_queue_nil (fifo : Bool) (hE : EdgesIn n edges) {st : St}
    (h : explore fifo edges n = some st) : st.queue = [] := by
  have := explore_spec fifo hE (n := n)
  rw [h] at this
  exact this.1.queue

/-- Facts about a successful search. -/
structure IsTree (edges : Edges) (n : ℕ) (st : St) : Prop where
  nodup : st.traversal.Nodup
  mem : ∀ v, v ∈ st.traversal ↔ v < n
  par : ∀ v q, st.parents v = some q → v < n ∧ q < n ∧ ViaOk edges st v q ∧ v ≠ q
  order : st.traversal.Pairwise fun a b => st.parents a ≠ some b
  scanned : ∀ u < n, Scanned st u (neighbors edges u)

theorem explore_tree (fifo : Bool) (hE : EdgesIn n edges) {st : St}
    (h : explore fifo edges n = some st) : IsTree edges n st := by
  have hs := explore_spec fifo hE (n := n)
  rw [h] at hs
  obtain ⟨hO, hall⟩ := hs
  have hI := hO.inv 0
  have hmem : ∀ v, v ∈ st.traversal ↔ v < n := by
    intro v
    constructor
    · intro hv; exact hI.lt v ((hI.vis v).mpr (Or.inl hv))
    · intro hv
      have := (hI.vis v).mp (hall v hv)
      rw [hO.queue] at this
      simpa using this
  refine ⟨(List.nodup_append.mp hI.nodup).1, hmem, ?_, hI.order, ?_⟩
  · intro v q hp
    obtain ⟨a, b, c, d⟩ := hI.par v q hp
    exact ⟨hI.lt v a, (hmem q).mp b, c, d⟩
  · intro u hu
    exact hO.scanned u ((hmem u).mpr hu)

namespace IsTree

variable (hT : IsTree edges n st)
include hT

theorem idx_lt {v q : ℕ} (hp : st.parents v = some q) :
    st.traversal.idxOf q < st.traversal.idxOf v := by
  obtain ⟨hv, hq, _, hne⟩ := hT.par v q hp
  have mv := (hT.mem v).mpr hv
  have mq := (hT.mem q).mpr hq
  by_contra hlt
  have hle : st.traversal.idxOf v < st.traversal.idxOf q := by
    rcases Nat.lt_or_ge (st.traversal.idxOf v) (st.traversal.idxOf q) with h | h
    · exact h
    · exact absurd ((List.idxOf_inj mv).mp (by omega)) hne
  have := List.pairwise_iff_getElem.mp hT.order _ _ (List.idxOf_lt_length_of_mem mv)
    (List.idxOf_lt_length_of_mem mq) hle
  rw [List.getElem_idxOf, List.getElem_idxOf] at this
  exact this hp

theorem no_two_cycle {a b : ℕ} (h1 : st.parents a = some b) (h2 : st.parents b = some a) : False := by
  have := hT.idx_lt h1
  have := hT.idx_lt h2
  omega

/-- every edge is the recorded edge of one of its end points. -/
theorem edge_cases (hE : EdgesIn n edges) {e : ℕ} (he : e < edges.length) :
    (st.parents (edge edges e).2 = some (edge edges e).1 ∧ st.via (edge edges e).2 = (e, false)) ∨
    (st.parents (edge edges e).1 = some (edge edges e).2 ∧ st.via (edge edges e).1 = (e, true)) := by
  have hm : edge edges e ∈ edges := by
    unfold edge; rw [List.getD_eq_getElem _ _ he]; exact List.getElem_mem he
  obtain ⟨ha, hb⟩ := hE _ hm
  have n1 : (⟨e, false, (edge edges e).2⟩ : Nbr) ∈ neighbors edges (edge edges e).1 :=
    mem_neighbors.mpr ⟨he, Or.inl ⟨rfl, rfl⟩⟩
  have n2 : (⟨e, true, (edge edges e).1⟩ : Nbr) ∈ neighbors edges (edge edges e).2 :=
    mem_neighbors.mpr ⟨he, Or.inr ⟨rfl, rfl⟩⟩
  rcases (hT.scanned _ ha _ n1).2 with h | h
  · exact Or.inl h
  · rcases (hT.scanned _ hb _ n2).2 with h' | h'
    · exact Or.inr h'
    · exact (hT.no_two_cycle h h').elim

/-- the child/parent relation is read off from any edge. -/
theorem joins_cases (hE : EdgesIn n edges) {e u u' : ℕ} (he : e < edges.length)
    (hj : Joins edges e u u') :
    (st.parents u' = some u ∧ (st.via u').1 = e) ∨ (st.parents u = some u' ∧ (st.via u).1 = e) := by
  have hc := hT.edge_cases hE he
  rcases hj with h | h <;> (change edge edges e = _ at h; rw [h] at hc)
  · rcases hc with ⟨a, b⟩ | ⟨a, b⟩
    · exact Or.inl ⟨a, by rw [b]⟩
    · exact Or.inr ⟨a, by rw [b]⟩
  · rcases hc with ⟨a, b⟩ | ⟨a, b⟩
    · exact Or.inr ⟨a, by rw [b]⟩
    · exact Or.inl ⟨a, by rw [b]⟩

theorem acyclic (hE : EdgesIn n edges) : ¬ HasCycle edges := by
  rintro ⟨e, he, hconn⟩
  -- child `c` and parent `p` of the edge
  have main : ∀ c p, st.parents c = some p → (st.via c).1 = e →
      ConnectedVia edges (· ≠ e) c p → False := by
    intro c p hp hvia hc
    have key : Relation.ReflTransGen (fun v q => st.parents v = some q) p c := by
      unfold ConnectedVia at hc
      clear hp
      induction hc with
      | refl => exact Relation.ReflTransGen.refl
      | tail _ hstep ih =>
        rename_i u u'
        obtain ⟨e', he', hne, hj⟩ := hstep
        rcases hT.joins_cases hE he' hj with ⟨h1, _⟩ | ⟨h1, h2⟩
        · exact Relation.ReflTransGen.head h1 ih
        · rcases Relation.ReflTransGen.cases_head ih with h | ⟨q, hq, hrest⟩
          · subst h; exact absurd (h2.symm.trans hvia) hne
          · rw [h1] at hq
            cases hq
            exact hrest
    have mono : ∀ u, Relation.ReflTransGen (fun v q => st.parents v = some q) p u →
        st.traversal.idxOf u ≤ st.traversal.idxOf p := by
      intro u hu
      induction hu with
      | refl => exact le_rfl
      | tail _ h ih => exact (hT.idx_lt h).le.trans ih
    have h1 := mono c key
    have h2 := hT.idx_lt hp
    omega
  rcases hT.edge_cases hE he with ⟨a, b⟩ | ⟨a, b⟩
  · exact main _ _ a (by rw [b]) hconn.symm
  · exact main _ _ a (by rw [b]) hconn

end IsTree

/-- the search succeeds exactly on acyclic graphs. -/
theorem explore_isSome_iff (fifo : Bool) (hE : EdgesIn n edges) :
    (explore fifo edges n).isSome = true ↔ ¬ HasCycle edges := by
  have hs := explore_spec fifo hE (n := n)
  cases h : explore fifo edges n with
  | none => rw [h] at hs; simp only [Option.isSome_none, Bool.false_eq_true, false_iff]; exact not_not.mpr hs
  | some st => simp only [Option.isSome_some, true_iff]; exact (explore_tree fifo hE h).acyclic hE

end Verif.MaxProd
