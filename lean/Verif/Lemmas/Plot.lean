import Verif.Model.Plot
import Verif.Spec.Plot
import Verif.Lemmas.Timing

/-!
# Lemmas about plots
-/

namespace Verif.Lemmas

open Verif.Plot Verif.Spec

theorem select_filter {α : Type} (d : α) (l : List α) (mask : List Bool) (h : l.length = mask.length) :
    select l mask = .ok (((List.range l.length).filter fun i => mask.getD i false).map fun i => l.getD i d) := by
  unfold select
  rw [if_pos h, Except.ok.injEq]
  induction l generalizing mask with
  | nil => simp
  | cons x l ih =>
    cases mask with
    | nil => cases h
    | cons b mask =>
      have := ih mask (by simpa using h)
      rw [List.length_cons, List.range_succ_eq_map, List.zip_cons_cons, List.filter_cons, List.filter_cons,
        List.filter_map]
      cases b with
      | true =>
        simp only [if_true, List.map_cons, List.getD_cons_zero, List.map_map]
        rw [this]
        rfl
      | false =>
        simp only [Bool.false_eq_true, if_false, List.getD_cons_zero, List.map_map]
        rw [this]
        rfl

theorem positions_ok {time : Bool} {a : Attrs} {n : ℕ}
    (h : ∀ ts, time = true → a.timestamps = some ts → 2 ≤ n ∧ n + 1 ≤ ts.length) :
    positions time a n = .ok (time && a.timestamps.isSome,
      (List.range n).map (place (time && a.timestamps.isSome) (a.timestamps.getD []) n)) := by
  unfold positions
  cases ht : time with
  | false => rfl
  | true =>
    cases hs : a.timestamps with
    | none => rfl
    | some ts =>
      obtain ⟨h1, h2⟩ := h ts ht hs
      have hlen : (((ts.take (n + 1)).drop 2).map (· / 60)).length = n - 1 := by
        simp only [List.length_map, List.length_drop, List.length_take]; omega
      have hget : ∀ i < n - 1, (((ts.take (n + 1)).drop 2).map (· / 60))[i]? = some (ts.getD (i + 2) 0 / 60) := by
        intro i hi
        rw [List.getElem?_map, List.getElem?_drop, List.getElem?_take_of_lt (by omega), List.getD_eq_getElem?_getD,
          Nat.add_comm 2 i, List.getElem?_eq_getElem (by omega)]
        rfl
      have hlast : (((ts.take (n + 1)).drop 2).map (· / 60)).getLast? = some (ts.getD n 0 / 60) := by
        rw [List.getLast?_eq_getElem?, hlen, hget _ (by omega), show n - 1 - 1 + 2 = n by omega]
      simp only
      rw [hlast]
      simp only [Option.isSome_some, Bool.and_self, Option.getD_some, Except.ok.injEq, Prod.mk.injEq, true_and]
      refine List.ext_getElem? fun i => ?_
      by_cases hi : i < n - 1
      · rw [List.getElem?_append_left (by rw [hlen]; exact hi), hget i hi, List.getElem?_map,
          List.getElem?_range (by omega)]
        simp only [Option.map_some, place, if_true]
        rw [Nat.min_eq_left (by omega)]
      · rw [List.getElem?_append_right (by rw [hlen]; omega), hlen, List.getElem?_map]
        by_cases hin : i = n - 1
        · subst hin
          rw [Nat.sub_self, List.getElem?_range (by omega)]
          simp only [List.getElem?_cons_zero, Option.map_some, place, if_true]
          rw [Nat.min_eq_right (by omega)]
        · rw [List.getElem?_eq_none (by simp; omega), List.getElem?_eq_none (by simp; omega)]
          rfl

theorem curve_shows {pos : ℕ → ℚ} {n : ℕ} {ys : List ℚ} (h : ys.length = n) :
    ∃ c, curve ((List.range n).map pos) ys = .ok c ∧ Shows pos ys c := by
  refine ⟨((List.range n).map pos).zip ys, ?_, ?_, fun i v hv => ?_⟩
  · unfold curve
    rw [if_pos (by simp [h])]
  · simp [h]
  · have hi : i < n := by
      rw [← h]
      by_contra hc
      rw [List.getElem?_eq_none (by omega)] at hv
      cases hv
    rw [List.getElem?_zip_eq_some]
    exact ⟨by simp [hi], hv⟩

theorem inferenceRun_ok {a : Attrs} {f : List Bool} {p : List ℚ} (hcf : a.cached = some f) (hpf : a.primal = some p)
    (hl : p.length = f.length) (h2 : false ∈ f) : inferenceRun a = .ok (some (f.map not)) := by
  unfold inferenceRun
  rw [hcf, hpf]
  cases f with
  | nil => cases h2
  | cons b f =>
    simp only
    rw [select_filter 0 _ _ (by rw [hl, List.length_map])]
    have hne : ((List.range p.length).filter fun i => ((b :: f).map not).getD i false).map (fun i => p.getD i 0) ≠ [] := by
      obtain ⟨i, hi, he⟩ := List.getElem_of_mem h2
      intro hnil
      rw [List.map_eq_nil_iff] at hnil
      have : i ∈ (List.range p.length).filter fun i => ((b :: f).map not).getD i false := by
        rw [List.mem_filter, List.mem_range]
        refine ⟨by rw [hl]; exact hi, ?_⟩
        rw [List.getD_eq_getElem?_getD, List.getElem?_map, List.getElem?_eq_getElem hi, he]
        rfl
      rw [hnil] at this
      cases this
    cases hL : ((List.range p.length).filter fun i => ((b :: f).map not).getD i false).map (fun i => p.getD i 0) with
    | nil => exact absurd hL hne
    | cons x l => rfl

/-- what is drawn for attributes whose lengths agree. -/
theorem plot_ok {time : Bool} {a : Attrs} {obj : List ℚ} (ho : a.objective = some obj) (hn : obj ≠ [])
    (ht : ∀ ts, time = true → a.timestamps = some ts → 2 ≤ obj.length ∧ obj.length + 1 ≤ ts.length)
    (hp : ∀ p, a.primal = some p → p.length = obj.length)
    (hc : ∀ f, a.cached = some f → f.length = obj.length ∧ false ∈ f ∧ a.primal ≠ none) :
    ∃ fig, plotLearning time a = .ok fig ∧ fig.byTime = (time && a.timestamps.isSome) ∧
      Shows (place fig.byTime (a.timestamps.getD []) obj.length) obj fig.dual ∧
      (a.primal = none → fig.primal = none) ∧
      (∀ p, a.primal = some p → ∃ c, fig.primal = some c ∧
        Shows (place fig.byTime (a.timestamps.getD []) obj.length) p c) ∧
      (a.cached = none → fig.inference = none) ∧
      (∀ f p, a.cached = some f → a.primal = some p → ∃ c, fig.inference = some c ∧
        Marks (place fig.byTime (a.timestamps.getD []) obj.length) p (fun i => !f.getD i true) c) ∧
      fig.loss = Plot.lossCurve a ((List.range obj.length).map
        (place fig.byTime (a.timestamps.getD []) obj.length)) := by
  have hpos := positions_ok (n := obj.length) ht
  generalize hP : place (time && a.timestamps.isSome) (a.timestamps.getD []) obj.length = pos at hpos
  obtain ⟨d, hd1, hd2⟩ := curve_shows (pos := pos) (n := obj.length) (ys := obj) rfl
  have hrun : ∃ run, inferenceRun a = .ok run ∧ run = a.cached.map (List.map not) := by
    cases hcf : a.cached with
    | none => exact ⟨none, by unfold inferenceRun; rw [hcf], rfl⟩
    | some f =>
      obtain ⟨h1, h2, h3⟩ := hc f hcf
      cases hpf : a.primal with
      | none => exact absurd hpf h3
      | some p => exact ⟨_, inferenceRun_ok hcf hpf (by rw [hp p hpf, h1]) h2, rfl⟩
  obtain ⟨run, hr1, hr2⟩ := hrun
  have hprim : ∃ pc, primalCurve a ((List.range obj.length).map pos) = .ok pc ∧ (a.primal = none → pc = none) ∧
      ∀ p, a.primal = some p → ∃ c, pc = some c ∧ Shows pos p c := by
    unfold primalCurve
    cases hpf : a.primal with
    | none => exact ⟨none, rfl, fun _ => rfl, fun p h => by cases h⟩
    | some p =>
      obtain ⟨c, h1, h2⟩ := curve_shows (pos := pos) (hp p hpf)
      simp only
      rw [h1]
      refine ⟨some c, rfl, fun h => (by cases h), fun q hq => ?_⟩
      cases hq
      exact ⟨c, rfl, h2⟩
  obtain ⟨pc, hp1, hp2, hp3⟩ := hprim
  have hmarks : ∃ mc, marks a run ((List.range obj.length).map pos) obj.length = .ok mc ∧ (a.cached = none → mc = none) ∧
      ∀ f p, a.cached = some f → a.primal = some p → ∃ c, mc = some c ∧ Marks pos p (fun i => !f.getD i true) c := by
    subst hr2
    unfold marks
    cases hcf : a.cached with
    | none => exact ⟨none, rfl, fun _ => rfl, fun f p h => by cases h⟩
    | some f =>
      obtain ⟨h1, h2, h3⟩ := hc f hcf
      cases hpf : a.primal with
      | none => exact absurd hpf h3
      | some p =>
        have hpl := hp p hpf
        have htake : (f.map not).take obj.length = f.map not := List.take_of_length_le (by simp [h1])
        simp only [Option.map_some]
        rw [htake, select_filter 0 _ _ (by simp [h1]), select_filter 0 _ _ (by simp [h1, hpl])]
        simp only [List.length_map, List.length_range, hpl]
        have hsel : (List.range obj.length).filter (fun i => (f.map not).getD i false) =
            (List.range obj.length).filter (fun i => !f.getD i true) := by
          refine List.filter_congr fun i hi => ?_
          rw [List.mem_range, ← h1] at hi
          simp [List.getD_eq_getElem?_getD, hi]
        rw [hsel]
        unfold curve
        rw [if_pos (by simp)]
        refine ⟨_, rfl, fun h => (by cases h), fun f' p' hf' hp' => ?_⟩
        cases hf'
        cases hp'
        refine ⟨_, rfl, ?_⟩
        unfold Marks
        rw [hpl, List.zip_map']
        refine List.map_congr_left fun i hi => ?_
        rw [List.mem_filter, List.mem_range] at hi
        simp [hi.1]
  obtain ⟨mc, hm1, hm2, hm3⟩ := hmarks
  refine ⟨⟨time && a.timestamps.isSome, d, pc, mc, Plot.lossCurve a ((List.range obj.length).map pos)⟩, ?_, rfl, ?_⟩
  · unfold plotLearning
    rw [ho]
    cases obj with
    | nil => exact absurd rfl hn
    | cons x obj =>
      simp only
      rw [hr1]
      simp only
      rw [hpos]
      simp only
      rw [hd1]
      simp only
      rw [hp1]
      simp only
      rw [hm1]
  · simp only
    rw [hP]
    exact ⟨hd2, hp2, hp3, hm2, hm3, rfl⟩

theorem lossIterations_length {every : ℕ} (h : every ≠ 0) (k : ℕ) : (lossIterations every k).length = lossCount every 0 k := by
  induction k with
  | zero => rfl
  | succ k ih =>
    rw [lossCount_snoc, ← ih]
    unfold lossIterations
    rw [List.range_succ, List.filter_append, List.length_append]
    congr 1
    simp only [List.filter_cons, List.filter_nil, Nat.zero_add, ne_eq, h, not_false_eq_true, true_and]
    split_ifs <;> simp_all

theorem everyNth_map {every : ℕ} (h : every ≠ 0) (pos : ℕ → ℚ) (n : ℕ) :
    everyNth ((List.range n).map pos) every = .ok ((lossIterations every n).map pos) := by
  unfold everyNth lossIterations
  rw [if_neg h, Except.ok.injEq]
  simp only [List.length_map, List.length_range]
  refine List.map_congr_left fun i hi => ?_
  rw [List.mem_filter, List.mem_range] at hi
  simp [List.getD_eq_getElem?_getD, hi.1]

/-- the loss curve after `k` iterations and the final entry. -/
theorem lossCurve_drawn {a : Attrs} {l : List ℚ} {pos : ℕ → ℚ} {k : ℕ} (hl : a.loss = some l)
    (he : a.showLossEvery ≠ 0) (hk : l.length = lossCount a.showLossEvery 0 k) :
    (¬ a.showLossEvery ∣ k → Plot.lossCurve a ((List.range (k + 1)).map pos) =
      some (((lossIterations a.showLossEvery k).map pos).zip l)) ∧
    (a.showLossEvery ∣ k → Plot.lossCurve a ((List.range (k + 1)).map pos) =
      some (((List.range l.length).map fun i : ℕ => (i : ℚ)).zip l)) := by
  unfold Plot.lossCurve
  rw [hl]
  simp only
  rw [everyNth_map he]
  simp only
  constructor
  · intro hd
    have : lossIterations a.showLossEvery (k + 1) = lossIterations a.showLossEvery k := by
      unfold lossIterations
      rw [List.range_succ, List.filter_append]
      simp [hd]
    rw [this]
    unfold curve
    rw [if_pos (by rw [List.length_map, lossIterations_length he, hk])]
  · intro hd
    unfold curve
    rw [if_neg]
    rw [List.length_map, lossIterations_length he, hk, lossCount_snoc, if_pos ⟨he, by simpa using hd⟩]
    omega

end Verif.Lemmas
