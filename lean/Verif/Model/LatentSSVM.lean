import Verif.Model.NSlack

/-!
# Model of `pystruct/learners/latent_structured_svm.py`

Not modelled: `logger`, printing, `model.initialize`.
-/

namespace Verif.LatentSSVM

open Verif.Learner Verif.NSlack

/-- The methods of a latent model that the learner uses besides those of a structured model over
completed outputs `H`: `init_latent`, `latent`, `label_from_latent`, `base_loss`, and `max_loss` of
a label. `pystruct/learners/latent_structured_svm.py` lines 81-116, 131 and 155. -/
structure LModel (X Y H : Type) where
  m : SModel X H
  initLatent : List (X × Y) → List H
  latent : X → Y → W → H
  labelFromLatent : H → Y
  baseLoss : Y → Y → ℚ
  maxLoss : Y → ℚ

/-- The base learner: `fit(X, H, constraints=constraints, warm_start=…)` as a change of its
attributes, where the flag says that `warm_start="soft"` is passed; the attribute `w`; and
`constraints_` if the learner is a `NSlackSSVM`. `pystruct/learners/latent_structured_svm.py` lines
119-124. -/
structure Base (σ X H : Type) where
  fit : σ → List (X × H) → Option (List (List (NCon H))) → Bool → Except PyErr σ
  w : σ → W
  constraints : σ → Option (List (List (NCon H)))

/-- Lines 108-116 of `pystruct/learners/latent_structured_svm.py`: the constraints of a `NSlackSSVM` for the new
completions. -/
def recomputed {X Y H : Type} (m : SModel X H) (samples : List (X × Y)) (hNew : List H) (w : W)
    (cs : List (List (NCon H))) : List (List (NCon H)) :=
  (List.range samples.length).map fun i =>
    match cs[i]?, hNew[i]?, samples[i]? with
    | some sample, some h, some s => sample.map fun c =>
      let k := findConstraint m s.1 h w (some c.yhat) true true
      ⟨k.yhat, k.delta, k.loss⟩
    | _, _, _ => []

/-- The attributes of the base learner, the local variables `w` and `H` (here `hs`), and, for every
call of `base_ssvm.fit` so far, the completions and the base learner after the call (the code keeps
the weights in `ws`). `pystruct/learners/latent_structured_svm.py` lines 82-88 and 124-125. -/
structure St (σ H : Type) where
  base : σ
  w : W
  hs : List H
  hist : List (List H × σ)

/-- `pystruct/learners/latent_structured_svm.py` line 97: the new completions. -/
def completions {X Y H : Type} (L : LModel X Y H) (samples : List (X × Y)) (w : W) : List H :=
  samples.map fun s => L.latent s.1 s.2 w

/-- `pystruct/learners/latent_structured_svm.py` lines 118-125: one call of the base learner. -/
def refit {σ X Y H : Type} (B : Base σ X H) (samples : List (X × Y)) (st : St σ H) (h : List H)
    (constraints : Option (List (List (NCon H)))) (warm : Bool) : Except PyErr (St σ H) :=
  match B.fit st.base ((samples.map Prod.fst).zip h) constraints warm with
  | .error err => .error err
  | .ok b => .ok ⟨b, B.w b, h, st.hist ++ [(h, b)]⟩

/-- One iteration, `pystruct/learners/latent_structured_svm.py` lines 90-127; `same` compares arrays
entry by entry (line 98). The flag says that the loop ends because no completion changed. -/
def iteration {σ X Y H : Type} (L : LModel X Y H) (B : Base σ X H) (same : H → H → Bool)
    (samples : List (X × Y)) (it : ℕ) (st : St σ H) : Except PyErr (St σ H × Bool) :=
  if it = 0 then
    match refit B samples st st.hs none false with
    | .error err => .error err
    | .ok st => .ok (st, false)
  else if ((completions L samples st.w).zip st.hs).all fun p => same p.1 p.2 then .ok (st, true)
  else
    match refit B samples st (completions L samples st.w)
      ((B.constraints st.base).map (recomputed L.m samples (completions L samples st.w) st.w)) true with
    | .error err => .error err
    | .ok st => .ok (st, false)

/-- The loop, `pystruct/learners/latent_structured_svm.py` lines 90-127: `fuel` iterations are left,
the next one has number `it`. -/
def loop {σ X Y H : Type} (L : LModel X Y H) (B : Base σ X H) (same : H → H → Bool) (samples : List (X × Y)) :
    ℕ → ℕ → St σ H → Except PyErr (St σ H × Bool)
  | 0, _, st => .ok (st, false)
  | fuel + 1, it, st =>
    match iteration L B same samples it st with
    | .error err => .error err
    | .ok (st, true) => .ok (st, true)
    | .ok (st, false) => loop L B same samples fuel (it + 1) st

/-- `fit`, `pystruct/learners/latent_structured_svm.py` lines 57-127. The result is the state at the
end (`fit` itself returns `None`) and whether the loop ended because no completion changed. -/
def fit {σ X Y H : Type} (L : LModel X Y H) (B : Base σ X H) (same : H → H → Bool) (latentIter : ℕ) (base : σ)
    (samples : List (X × Y)) (hInit : Option (List H)) : Except PyErr (St σ H × Bool) :=
  loop L B same samples latentIter 0 ⟨base, fun _ => 0, hInit.getD (L.initLatent samples), []⟩

/-- `predict`, `pystruct/learners/latent_structured_svm.py` lines 129-131. -/
def predict {X Y H : Type} (L : LModel X Y H) (w : W) (X : List X) : List Y :=
  (Learner.predict L.m w X).map L.labelFromLatent

/-- `score`, `pystruct/learners/latent_structured_svm.py` lines 136-158. A zero denominator gives
`nan` in numpy and `0/0 = 0` here. -/
def score {X Y H : Type} (L : LModel X Y H) (w : W) (samples : List (X × Y)) : ℚ :=
  1 - (((samples.map Prod.snd).zip (predict L w (samples.map Prod.fst))).map fun p => L.baseLoss p.1 p.2).sum /
    (samples.map fun s => L.maxLoss s.2).sum

end Verif.LatentSSVM
