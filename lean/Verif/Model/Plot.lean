import Verif.Model.Timing
import Verif.Model.Perceptron

/-!
# `plot_learning`

Models `pystruct/plot_learning.py`. A learner is represented by the attributes that the function reads; `none` stands
for an attribute that does not exist. The result is what is drawn: the points of the curves and whether the x-axis is
labelled as training time. Not modelled: `print(ssvm)` and the other messages, colours, legends, the logarithmic scale
of the y-axis, the window.
-/

namespace Verif.Plot

/-- The attributes that `pystruct/plot_learning.py` lines 19-98 read. -/
structure Attrs where
  objective : Option (List ℚ)
  primal : Option (List ℚ)
  cached : Option (List Bool)
  loss : Option (List ℚ)
  timestamps : Option (List ℚ)
  showLossEvery : ℕ

/-- What is drawn by `pystruct/plot_learning.py` lines 57-98. -/
structure Figure where
  byTime : Bool
  dual : List (ℚ × ℚ)
  primal : Option (List (ℚ × ℚ))
  inference : Option (List (ℚ × ℚ))
  loss : Option (List (ℚ × ℚ))

/-- `array[mask]` of numpy with a boolean mask, `pystruct/plot_learning.py` lines 51, 81 and 82: `IndexError` if the
lengths differ. -/
def select {α : Type} (l : List α) (mask : List Bool) : Except PyErr (List α) :=
  if l.length = mask.length then .ok (((l.zip mask).filter fun p => p.2).map Prod.fst) else .error .indexError

/-- `axes.plot(x, y)` of matplotlib, `pystruct/plot_learning.py` lines 73, 76, 81 and 92: `ValueError` if the lengths
differ. -/
def curve (xs ys : List ℚ) : Except PyErr (List (ℚ × ℚ)) :=
  if xs.length = ys.length then .ok (xs.zip ys) else .error .valueError

/-- `l[::step]`, `pystruct/plot_learning.py` line 92: `ValueError` if the step is zero. -/
def everyNth (l : List ℚ) (step : ℕ) : Except PyErr (List ℚ) :=
  if step = 0 then .error .valueError
  else .ok (((List.range l.length).filter fun i => decide (step ∣ i)).map fun i => l.getD i 0)

/-- The mask `inference_run`, `pystruct/plot_learning.py` lines 47-52, with the check of the gap: `~` of an empty array,
which has numbers as entries, is a `TypeError`; the last of no primal values is an `IndexError`. -/
def inferenceRun (a : Attrs) : Except PyErr (Option (List Bool)) :=
  match a.cached, a.primal with
  | none, _ => .ok none
  | some [], _ => .error .typeError
  | some _, none => .error .attributeError
  | some flags, some primal =>
    match select primal (flags.map not) with
    | .error err => .error err
    | .ok [] => .error .indexError
    | .ok _ => .ok (some (flags.map not))

/-- The x-coordinates, `pystruct/plot_learning.py` lines 60-70: training times in minutes, or the numbers 0, 1, …; the
last of no times is an `IndexError`. -/
def positions (time : Bool) (a : Attrs) (n : ℕ) : Except PyErr (Bool × List ℚ) :=
  match time, a.timestamps with
  | true, some ts =>
    let inds := ((ts.take (n + 1)).drop 2).map (· / 60)
    match inds.getLast? with
    | none => .error .indexError
    | some last => .ok (true, inds ++ [last])
  | _, _ => .ok (false, (List.range n).map fun i : ℕ => (i : ℚ))

/-- The curve of the primal objective, `pystruct/plot_learning.py` lines 74-77. -/
def primalCurve (a : Attrs) (inds : List ℚ) : Except PyErr (Option (List (ℚ × ℚ))) :=
  match a.primal with
  | none => .ok none
  | some p =>
    match curve inds p with
    | .error err => .error err
    | .ok c => .ok (some c)

/-- The points where inference was run, `pystruct/plot_learning.py` lines 78-82. -/
def marks (a : Attrs) (run : Option (List Bool)) (inds : List ℚ) (n : ℕ) : Except PyErr (Option (List (ℚ × ℚ))) :=
  match run, a.primal with
  | none, _ => .ok none
  | some _, none => .error .attributeError
  | some mask, some p =>
    match select inds (mask.take n) with
    | .error err => .error err
    | .ok xs =>
      match select p (mask.take n) with
      | .error err => .error err
      | .ok ys =>
        match curve xs ys with
        | .error err => .error err
        | .ok c => .ok (some c)

/-- The curve of the training loss, `pystruct/plot_learning.py` lines 84-94: if it cannot be drawn at the chosen
positions, whatever the exception, it is drawn at 0, 1, …. -/
def lossCurve (a : Attrs) (inds : List ℚ) : Option (List (ℚ × ℚ)) :=
  match a.loss with
  | none => none
  | some l =>
    match everyNth inds a.showLossEvery with
    | .error _ => some (((List.range l.length).map fun i : ℕ => (i : ℚ)).zip l)
    | .ok xs =>
      match curve xs l with
      | .error _ => some (((List.range l.length).map fun i : ℕ => (i : ℚ)).zip l)
      | .ok c => some c

/-- `plot_learning(ssvm, time)`, `pystruct/plot_learning.py` lines 19-98. For a learner with a base learner the
attributes are those of the base learner (lines 43-44). -/
def plotLearning (time : Bool) (a : Attrs) : Except PyErr Figure :=
  match a.objective with
  | none => .error .attributeError
  | some [] => .error .indexError
  | some obj =>
    match inferenceRun a with
    | .error err => .error err
    | .ok run =>
      match positions time a obj.length with
      | .error err => .error err
      | .ok (byTime, inds) =>
        match curve inds obj with
        | .error err => .error err
        | .ok dual =>
          match primalCurve a inds with
          | .error err => .error err
          | .ok primal =>
            match marks a run inds obj.length with
            | .error err => .error err
            | .ok inference => .ok ⟨byTime, dual, primal, inference, lossCurve a inds⟩

/-! ### The attributes of the learners -/

/-- `loss_curve_` does not exist before the first loss is added, `pystruct/learners/ssvm.py` lines 88-95. -/
def existing {α : Type} (l : List α) : Option (List α) :=
  match l with
  | [] => none
  | _ => some l

/-- `pystruct/learners/one_slack_ssvm.py` lines 431-552. -/
def ofOneSlack {Y : Type} (o : OneSlack.Obj Y × List ℚ) : Attrs :=
  match o.1.attrs with
  | none => ⟨none, none, none, existing o.1.lossCurve, none, o.1.cfg.showLossEvery⟩
  | some a => ⟨some a.objectiveCurve, some a.primalCurve, some a.cachedFlags, existing o.1.lossCurve, some o.2,
      o.1.cfg.showLossEvery⟩

/-- `pystruct/learners/n_slack_ssvm.py` lines 270-400. -/
def ofNSlack {Y : Type} (o : NSlack.Obj Y × List ℚ) : Attrs :=
  match o.1.attrs with
  | none => ⟨none, none, none, existing o.1.lossCurve, none, o.1.cfg.showLossEvery⟩
  | some a => ⟨some a.objectiveCurve, some a.primalCurve, none, existing o.1.lossCurve, some o.2,
      o.1.cfg.showLossEvery⟩

/-- `pystruct/learners/subgradient_ssvm.py` lines 178-243 and `pystruct/learners/subgradient_latent_ssvm.py` lines
130-240. The objective curve of a learner that was trained is not empty. -/
def ofSubgradient (o : Subgradient.Obj × List ℚ) : Attrs :=
  ⟨existing o.1.curves.objective, none, none, existing o.1.curves.loss, existing o.2, o.1.cfg.showLossEvery⟩

/-- `pystruct/learners/frankwolfe_ssvm.py` lines 289-309. There is no training loss, although `show_loss_every` is a
parameter (line 107); its value is not part of the model of the learner and has no effect here. -/
def ofFrankWolfe (o : FrankWolfe.Obj × List ℚ) : Attrs :=
  ⟨existing o.1.curves.dual, existing o.1.curves.primal, none, none, existing o.2, 0⟩

/-- `pystruct/learners/structured_perceptron.py` lines 100-180: only a curve of losses. A loss without value (division by
zero) counts as 0 here; this has no effect. -/
def ofPerceptron (o : Perceptron.Obj) : Attrs :=
  ⟨none, none, none, some (o.lossCurve.map fun l => l.getD 0), none, 0⟩

end Verif.Plot
