import Verif.Lemmas.Tree

namespace Verif.MaxProd

open Finset Verif.Common Verif.Spec

/-! ### Max-marginals on a forest: abstract argument -/

/-- Node beliefs `bel` and pair beliefs `pb` (parent state, own state) that are max-consistent and
reparametrise the energy `E`. -/
structure BP (n S : ℕ) (par : ℕ → Option ℕ) (rank : ℕ → ℕ) (bel : ℕ → ℕ → ℚ) (pb : ℕ → ℕ → ℕ → ℚ)
    (E : (ℕ → ℕ) → ℚ) (κ : ℕ → ℚ) (K : ℚ) : Prop where
  pos : 0 < S
  par_lt : ∀ v q, v < n → par v = some q → q < n ∧ rank q < rank v
  row_le : ∀ v q s t, v < n → par v = some q → s < S → t < S → pb v s t ≤ bel q s
  row_eq : ∀ v q s, v < n → par v = some q → s < S → ∃ t < S, pb v s t = bel q s
  col_le : ∀ v q s t, v < n → par v = some q → s < S → t < S → pb v s t ≤ bel v t + κ v
  col_eq : ∀ v q t, v < n → par v = some q → t < S → ∃ s < S, pb v s t = bel v t + κ v
  energy : ∀ y, Valid n S y → E y = ∑ v ∈ range n, (match par v with
    | none => bel v (y v)
    | some q => pb v (y q) (y v) - bel q (y q)) + K

variable {n S : ℕ} {par : ℕ → Option ℕ} {rank : ℕ → ℕ} {bel : ℕ → ℕ → ℚ} {pb : ℕ → ℕ → ℕ → ℚ}
  {E : (ℕ → ℕ) → ℚ} {κ : ℕ → ℚ} {K : ℚ}

/-- labelling in which every factor attains its maximum. -/
structure Tight (n S : ℕ) (par : ℕ → Option ℕ) (bel : ℕ → ℕ → ℚ) (pb : ℕ → ℕ → ℕ → ℚ)
    (y : ℕ → ℕ) : Prop where
  valid : Valid n S y
  root : ∀ v < n, par v = none → ∀ s < S, bel v s ≤ bel v (y v)
  edge : ∀ v < n, ∀ q, par v = some q → pb v (y q) (y v) = bel q (y q)

/-- labellings defined from the root downwards. -/
theorem exists_rec (par : ℕ → Option ℕ) (rank : ℕ → ℕ) (root : ℕ → ℕ) (g : ℕ → ℕ → ℕ) :
    ∃ y : ℕ → ℕ, ∀ u, y u = match par u with
      | none => root u
      | some q => if rank q < rank u then g u (y q) else 0 := by
  let wf := (measure rank).wf
  let F : (u : ℕ) → ((q : ℕ) → (measure rank).rel q u → ℕ) → ℕ := fun u rec =>
    match par u with
    | none => root u
    | some q => if h : rank q < rank u then g u (rec q h) else 0
  refine ⟨wf.fix F, ?_⟩
  intro u
  rw [wf.fix_eq]
  simp only [F]
  cases par u with
  | none => rfl
  | some q =>
    simp only
    split <;> rfl

namespace BP

variable (h : BP n S par rank bel pb E κ K)
include h

theorem tight_max {y : ℕ → ℕ} (hy : Tight n S par bel pb y) {y' : ℕ → ℕ} (hy' : Valid n S y') :
    E y' ≤ E y := by
  rw [h.energy y hy.valid, h.energy y' hy']
  apply add_le_add_left
  apply sum_le_sum
  intro v hv
  have hv' := mem_range.mp hv
  cases hp : par v with
  | none => exact hy.root v hv' hp _ (hy' v hv')
  | some q =>
    simp only
    rw [hy.edge v hv' q hp]
    have hq := (h.par_lt v q hv' hp).1
    have := h.row_le v q (y' q) (y' v) hv' hp (hy' q hq) (hy' v hv')
    linarith

theorem exists_tight : ∃ y, Tight n S par bel pb y := by
  obtain ⟨y, hy⟩ := exists_rec par rank (fun u => argmaxN (bel u) S) (fun u l => argmaxN (pb u l) S)
  have hlt : ∀ u, y u < S := by
    intro u
    rw [hy u]
    cases par u with
    | none => exact argmaxN_lt _ h.pos
    | some q =>
      simp only
      split
      · exact argmaxN_lt _ h.pos
      · exact h.pos
  refine ⟨y, fun u _ => hlt u, ?_, ?_⟩
  · intro v _ hp s hs
    rw [hy v, hp]
    exact le_argmaxN _ hs
  · intro v hv q hp
    have hr := (h.par_lt v q hv hp).2
    obtain ⟨t, ht, hrow⟩ := h.row_eq v q (y q) hv hp (hlt q)
    apply le_antisymm (h.row_le v q _ _ hv hp (hlt q) (hlt v))
    have : y v = argmaxN (pb v (y q)) S := by
      have := hy v
      rw [hp] at this
      simpa [hr] using this
    rw [this, ← hrow]
    exact le_argmaxN _ ht

/-- any locally best state of any vertex extends to a globally best labelling. -/
theorem exists_tight_at : ∀ (k v : ℕ), rank v = k → v < n → ∀ t < S, (∀ s < S, bel v s ≤ bel v t) →
    ∃ y, Tight n S par bel pb y ∧ y v = t := by
  intro k
  induction k using Nat.strong_induction_on with
  | _ k ih =>
    intro v hk hv t ht hmax
    cases hp : par v with
    | none =>
      -- recompute everything, forcing `t` at the root `v`
      obtain ⟨y0, hy0⟩ := h.exists_tight
      obtain ⟨y, hy⟩ := exists_rec par rank (fun u => if u = v then t else y0 u)
        (fun u l => argmaxN (pb u l) S)
      have hlt : ∀ u < n, y u < S := by
        intro u hu
        rw [hy u]
        cases par u with
        | none =>
          simp only
          split
          · exact ht
          · exact hy0.valid u hu
        | some q =>
          simp only
          split
          · exact argmaxN_lt _ h.pos
          · exact h.pos
      refine ⟨y, ⟨hlt, ?_, ?_⟩, ?_⟩
      · intro u hu hpu s hs
        rw [hy u, hpu]
        simp only
        split
        · rename_i huv; subst huv; exact hmax s hs
        · exact hy0.root u hu hpu s hs
      · intro u hu q hpu
        obtain ⟨hqn, hr⟩ := h.par_lt u q hu hpu
        obtain ⟨t', ht', hrow⟩ := h.row_eq u q (y q) hu hpu (hlt q hqn)
        apply le_antisymm (h.row_le u q _ _ hu hpu (hlt q hqn) (hlt u hu))
        have : y u = argmaxN (pb u (y q)) S := by
          have := hy u
          rw [hpu] at this
          simpa [hr] using this
        rw [this, ← hrow]
        exact le_argmaxN _ ht'
      · rw [hy v, hp]; simp
    | some q =>
      obtain ⟨hqn, hr⟩ := h.par_lt v q hv hp
      obtain ⟨s, hs, hcol⟩ := h.col_eq v q t hv hp ht
      have hst : pb v s t = bel q s := by
        obtain ⟨t1, ht1, h1⟩ := h.row_eq v q s hv hp hs
        have h2 := h.col_le v q s t1 hv hp hs ht1
        have h3 := hmax t1 ht1
        have h4 := h.row_le v q s t hv hp hs ht
        linarith
      have hsmax : ∀ s' < S, bel q s' ≤ bel q s := by
        intro s' hs'
        obtain ⟨t1, ht1, h1⟩ := h.row_eq v q s' hv hp hs'
        have h2 := h.col_le v q s' t1 hv hp hs' ht1
        have h3 := hmax t1 ht1
        linarith
      obtain ⟨y, hy, hyq⟩ := ih (rank q) (by omega) q rfl hqn s hs hsmax
      obtain ⟨y', hy'⟩ := exists_rec par rank y (fun u l => if u = v then t
        else match par u with
          | none => 0
          | some q' => if l = y q' then y u else argmaxN (pb u l) S)
      have hlt : ∀ u < n, y' u < S := by
        intro u hu
        rw [hy' u]
        cases hpu : par u with
        | none => exact hy.valid u hu
        | some q' =>
          simp only
          split
          · split
            · exact ht
            · split
              · exact hy.valid u hu
              · exact argmaxN_lt _ h.pos
          · exact h.pos
      have hval : ∀ u < n, ∀ q', par u = some q' → y' u = if u = v then t
          else if y' q' = y q' then y u else argmaxN (pb u (y' q')) S := by
        intro u hu q' hpu
        have := hy' u
        rw [hpu] at this
        simpa [(h.par_lt u q' hu hpu).2] using this
      have hsame : ∀ (j u : ℕ), rank u = j → u < n → j < rank v → y' u = y u := by
        intro j
        induction j using Nat.strong_induction_on with
        | _ j ihj =>
          intro u huj hu hjk
          cases hpu : par u with
          | none => rw [hy' u, hpu]
          | some q' =>
            obtain ⟨hq'n, hr'⟩ := h.par_lt u q' hu hpu
            rw [hval u hu q' hpu, if_neg (by rintro rfl; omega),
              if_pos (ihj (rank q') (by omega) q' rfl hq'n (by omega))]
      have hyq' : y' q = s := by rw [hsame (rank q) q rfl hqn hr, hyq]
      refine ⟨y', ⟨hlt, ?_, ?_⟩, ?_⟩
      · intro u hu hpu s' hs'
        rw [hy' u, hpu]
        exact hy.root u hu hpu s' hs'
      · intro u hu q' hpu
        obtain ⟨hq'n, hr'⟩ := h.par_lt u q' hu hpu
        rw [hval u hu q' hpu]
        by_cases huv : u = v
        · subst huv
          rw [hp] at hpu
          cases hpu
          rw [if_pos rfl, hyq']
          exact hst
        · rw [if_neg huv]
          by_cases heq : y' q' = y q'
          · rw [if_pos heq, heq]
            exact hy.edge u hu q' hpu
          · rw [if_neg heq]
            obtain ⟨t', ht', hrow⟩ := h.row_eq u q' (y' q') hu hpu (hlt q' hq'n)
            apply le_antisymm (h.row_le u q' _ _ hu hpu (hlt q' hq'n) (argmaxN_lt _ h.pos))
            rw [← hrow]
            exact le_argmaxN _ ht'
      · rw [hval v hv q hp, if_pos rfl]

end BP

theorem list_sum_range (n : ℕ) (f : ℕ → ℚ) : ((List.range n).map f).sum = ∑ i ∈ range n, f i := by
  induction n with
  | zero => simp
  | succ n ih => rw [List.range_succ, List.map_append, List.sum_append, ih, sum_range_succ]; simp

/-! ### The message passes of `tree_max_product` -/

variable {U : ℕ → ℕ → ℚ} {P : ℕ → ℕ → ℕ → ℚ} {st : St}

theorem upMax_congr {B B' : ℕ → ℕ → ℚ} {c : ℕ} (h : B c = B' c) :
    upMax S U P st B c = upMax S U P st B' c := by
  unfold upMax
  rw [h]

theorem up_fold (l : List ℕ) : ∀ (B0 : ℕ → ℕ → ℚ),
    l.Pairwise (fun a b => st.parents b ≠ some a) → (∀ c ∈ l, st.parents c ≠ some c) →
    ∀ v s, l.foldl (upStep S U P st) B0 v s = B0 v s + (l.map fun c =>
      if st.parents c = some v then
        upMax S U P st (l.foldl (upStep S U P st) B0) c s -
          maxN (upMax S U P st (l.foldl (upStep S U P st) B0) c) S
      else 0).sum := by
  induction l with
  | nil => intro B0 _ _ v s; simp
  | cons c l ih =>
    intro B0 hp hs v s
    rw [List.pairwise_cons] at hp
    simp only [List.foldl_cons, List.map_cons, List.sum_cons]
    have IH := ih (upStep S U P st B0 c) hp.2 (fun a ha => hs a (by simp [ha]))
    set B' := l.foldl (upStep S U P st) (upStep S U P st B0 c) with hB'
    -- the value at `c` is final when `c` is processed
    have hc : B' c = B0 c := by
      funext s'
      rw [IH c s']
      have hz : (l.map fun a => if st.parents a = some c then
          upMax S U P st B' a s' - maxN (upMax S U P st B' a) S else 0).sum = 0 := by
        apply List.sum_eq_zero
        intro x hx
        obtain ⟨a, ha, rfl⟩ := List.mem_map.mp hx
        rw [if_neg (hp.1 a ha)]
      rw [hz, add_zero]
      unfold upStep
      cases hpc : st.parents c with
      | none => rfl
      | some p =>
        simp only
        rw [if_neg]
        rintro rfl
        exact hs c (by simp) hpc
    rw [IH v s, ← add_assoc]
    congr 1
    rw [upMax_congr hc]
    unfold upStep
    cases hpc : st.parents c with
    | none => simp
    | some p =>
      simp only [Option.some.injEq]
      by_cases hv : v = p
      · rw [if_pos hv, if_pos hv.symm]
      · rw [if_neg hv, if_neg (Ne.symm hv), add_zero]

theorem down_notin (B : ℕ → ℕ → ℚ) (l : List ℕ) : ∀ (F0 : ℕ → ℕ → ℚ) (v : ℕ), v ∉ l →
    l.foldl (downStep S U P st B) F0 v = F0 v := by
  induction l with
  | nil => intro F0 v _; rfl
  | cons c l ih =>
    intro F0 v hv
    simp only [List.mem_cons, not_or] at hv
    rw [List.foldl_cons, ih _ v hv.2]
    unfold downStep
    cases st.parents c with
    | none => rfl
    | some p => funext t; simp [hv.1]

/-- the message computed in the downward step. -/
def downMsg (S : ℕ) (U : ℕ → ℕ → ℚ) (P : ℕ → ℕ → ℕ → ℚ) (st : St) (B F : ℕ → ℕ → ℚ) (v p t : ℕ) : ℚ :=
  maxN (fun s => F p s + U p s + pwForward P st v s t + (B p s - upMax S U P st B v s)) S

theorem downMsg_congr {B F F' : ℕ → ℕ → ℚ} {v p : ℕ} (h : F p = F' p) :
    downMsg S U P st B F v p = downMsg S U P st B F' v p := by
  unfold downMsg; rw [h]

theorem down_fold (B : ℕ → ℕ → ℚ) (l : List ℕ) : ∀ (F0 : ℕ → ℕ → ℚ), l.Nodup →
    l.Pairwise (fun a b => st.parents a ≠ some b) → (∀ c ∈ l, st.parents c ≠ some c) →
    ∀ v ∈ l, ∀ t, l.foldl (downStep S U P st B) F0 v t = match st.parents v with
      | none => F0 v t
      | some p => F0 v t + (downMsg S U P st B (l.foldl (downStep S U P st B) F0) v p t -
          maxN (downMsg S U P st B (l.foldl (downStep S U P st B) F0) v p) S) := by
  induction l with
  | nil => intro F0 _ _ _ v hv; simp at hv
  | cons c l ih =>
    intro F0 hd hp hs v hv t
    rw [List.nodup_cons] at hd
    rw [List.pairwise_cons] at hp
    simp only [List.foldl_cons]
    have IH := ih (downStep S U P st B F0 c) hd.2 hp.2 (fun a ha => hs a (by simp [ha]))
    rcases List.mem_cons.mp hv with rfl | hv'
    · -- the processed vertex itself
      rw [down_notin B l _ v hd.1]
      cases hpc : st.parents v with
      | none => unfold downStep; rw [hpc]
      | some p =>
        simp only
        have hpne : p ≠ v := by rintro rfl; exact hs p (by simp) hpc
        have hpl : p ∉ l := fun h => hp.1 p h hpc
        have hF : l.foldl (downStep S U P st B) (downStep S U P st B F0 v) p = F0 p := by
          rw [down_notin B l _ p hpl]
          unfold downStep
          rw [hpc]
          funext t'
          simp [hpne]
        rw [downMsg_congr hF]
        unfold downStep
        rw [hpc]
        simp only [if_true]
        rfl
    · rw [IH v hv' t]
      have hne : v ≠ c := by rintro rfl; exact hd.1 hv'
      have hF0 : downStep S U P st B F0 c v t = F0 v t := by
        unfold downStep
        cases st.parents c with
        | none => rfl
        | some p => simp [hne]
      cases st.parents v with
      | none => exact hF0
      | some p => simp only; rw [hF0]

/-- the messages computed by `tree_max_product` give max-consistent beliefs. -/
theorem tree_BP {edges : Edges} (hT : IsTree edges n st) (hE : EdgesIn n edges) (hS : 0 < S)
    (U : ℕ → ℕ → ℚ) (P : ℕ → ℕ → ℕ → ℚ) :
    let B := st.traversal.reverse.foldl (upStep S U P st) (fun _ _ => 0)
    let F := st.traversal.foldl (downStep S U P st B) (fun _ _ => 0)
    ∃ pb κ K, BP n S st.parents (fun v => st.traversal.idxOf v)
      (fun v s => U v s + F v s + B v s) pb (score n edges U P) κ K := by
  intro B F
  have hself : ∀ c ∈ st.traversal, st.parents c ≠ some c := fun c _ h => (hT.par c c h).2.2.2 rfl
  have hBl : ∀ v s, B v s = ∑ c ∈ range n, if st.parents c = some v then
      upMax S U P st B c s - maxN (upMax S U P st B c) S else 0 := by
    intro v s
    have h1 := up_fold (S := S) (U := U) (P := P) (st := st) st.traversal.reverse (fun _ _ => 0)
      (by rw [List.pairwise_reverse]; exact hT.order)
      (by intro c hc; exact hself c (List.mem_reverse.mp hc)) v s
    have h2 : B v s = 0 + _ := h1
    rw [zero_add, List.map_reverse, List.sum_reverse] at h2
    rw [h2]
    have hperm : st.traversal.Perm (List.range n) := by
      rw [List.perm_ext_iff_of_nodup hT.nodup List.nodup_range]
      intro a; rw [hT.mem, List.mem_range]
    rw [(hperm.map _).sum_eq]
    exact list_sum_range n _
  have hF : ∀ v < n, ∀ t, F v t = match st.parents v with
      | none => 0
      | some p => downMsg S U P st B F v p t - maxN (downMsg S U P st B F v p) S := by
    intro v hv t
    have h1 := down_fold (S := S) (U := U) (P := P) (st := st) B st.traversal (fun _ _ => 0)
      hT.nodup hT.order hself v ((hT.mem v).mpr hv) t
    have h2 : F v t = _ := h1
    rw [h2]
    cases st.parents v with
    | none => rfl
    | some p => simp only [zero_add]; rfl
  let pb : ℕ → ℕ → ℕ → ℚ := fun v s t => match st.parents v with
    | none => 0
    | some p => F p s + U p s + pwForward P st v s t + (B p s - upMax S U P st B v s) +
        (U v t + B v t)
  let κ : ℕ → ℚ := fun v => match st.parents v with
    | none => 0
    | some p => maxN (downMsg S U P st B F v p) S
  let K : ℚ := ∑ c ∈ range n, if (st.parents c).isSome then maxN (upMax S U P st B c) S else 0
  refine ⟨pb, κ, K, ?_⟩
  have hpb : ∀ v q s t, st.parents v = some q → pb v s t =
      F q s + U q s + pwForward P st v s t + (B q s - upMax S U P st B v s) + (U v t + B v t) := by
    intro v q s t hq
    simp only [pb, hq]
  refine ⟨hS, ?_, ?_, ?_, ?_, ?_, ?_⟩
  · intro v q _ hq
    exact ⟨(hT.par v q hq).2.1, hT.idx_lt hq⟩
  · intro v q s t _ hq _ ht
    rw [hpb v q s t hq]
    have : B v t + U v t + pwForward P st v s t ≤ upMax S U P st B v s :=
      le_maxN (fun t => B v t + U v t + pwForward P st v s t) ht
    linarith
  · intro v q s _ hq _
    refine ⟨argmaxN (fun t => B v t + U v t + pwForward P st v s t) S, argmaxN_lt _ hS, ?_⟩
    rw [hpb v q s _ hq]
    have : upMax S U P st B v s = B v (argmaxN (fun t => B v t + U v t + pwForward P st v s t) S) +
        U v (argmaxN (fun t => B v t + U v t + pwForward P st v s t) S) +
        pwForward P st v s (argmaxN (fun t => B v t + U v t + pwForward P st v s t) S) := rfl
    rw [this]
    ring
  · intro v q s t hv hq hs _
    rw [hpb v q s t hq]
    have h1 := hF v hv t
    rw [hq] at h1
    simp only [κ, hq] at h1 ⊢
    have : F q s + U q s + pwForward P st v s t + (B q s - upMax S U P st B v s) ≤
        downMsg S U P st B F v q t :=
      le_maxN (fun s => F q s + U q s + pwForward P st v s t + (B q s - upMax S U P st B v s)) hs
    linarith
  · intro v q t hv hq _
    refine ⟨argmaxN (fun s => F q s + U q s + pwForward P st v s t +
      (B q s - upMax S U P st B v s)) S, argmaxN_lt _ hS, ?_⟩
    rw [hpb v q _ t hq]
    have h1 := hF v hv t
    rw [hq] at h1
    simp only [κ, hq] at h1 ⊢
    rw [h1]
    unfold downMsg maxN
    ring
  · intro y _
    unfold score
    have hedge : ∑ e ∈ range edges.length,
        P e (y (edges.getD e (0, 0)).1) (y (edges.getD e (0, 0)).2) =
        ∑ v ∈ range n, (match st.parents v with
          | none => 0
          | some q => pwForward P st v (y q) (y v)) := by
      rw [hT.sum_edges hE fun e => P e (y (edges.getD e (0, 0)).1) (y (edges.getD e (0, 0)).2)]
      apply sum_congr rfl
      intro v _
      cases hq : st.parents v with
      | none => simp
      | some q =>
        simp only [Option.isSome_some, if_true]
        have hvia := (hT.par v q hq).2.2.1.2
        unfold edge at hvia
        rw [hvia]
        unfold pwForward
        split <;> rfl
    rw [hedge]
    have hsumB : ∑ v ∈ range n, B v (y v) = ∑ c ∈ range n, (match st.parents c with
        | none => 0
        | some q => upMax S U P st B c (y q) - maxN (upMax S U P st B c) S) := by
      have : ∀ v ∈ range n, B v (y v) = ∑ c ∈ range n, if st.parents c = some v then
          upMax S U P st B c (y v) - maxN (upMax S U P st B c) S else 0 := fun v _ => hBl v (y v)
      rw [sum_congr rfl this, sum_comm]
      apply sum_congr rfl
      intro c _
      cases hq : st.parents c with
      | none => simp
      | some q =>
        simp only [Option.some.injEq]
        rw [sum_ite_eq]
        rw [if_pos (mem_range.mpr (hT.par c q hq).2.1)]
    have hterm : ∀ v ∈ range n, (match st.parents v with
        | none => U v (y v) + F v (y v) + B v (y v)
        | some q => pb v (y q) (y v) - (U q (y q) + F q (y q) + B q (y q))) =
        U v (y v) + (match st.parents v with
          | none => 0
          | some q => pwForward P st v (y q) (y v)) + B v (y v) -
        (match st.parents v with
          | none => 0
          | some q => upMax S U P st B v (y q) - maxN (upMax S U P st B v) S) -
        (if (st.parents v).isSome then maxN (upMax S U P st B v) S else 0) := by
      intro v hv
      have h1 := hF v (mem_range.mp hv) (y v)
      cases hq : st.parents v with
      | none => rw [hq] at h1; simp only at h1; rw [h1]; simp
      | some q =>
        simp only [Option.isSome_some, if_true]
        rw [hpb v q _ _ hq]
        ring
    rw [sum_congr rfl hterm, sum_sub_distrib, sum_sub_distrib, sum_add_distrib, sum_add_distrib,
      hsumB]
    simp only [K]
    ring

end Verif.MaxProd
