import Verif.Model.SubgradientLatent

/-!
# Latent models without latent states
-/

namespace Verif.Spec

open Verif.Learner Verif.SubgradientLatent

variable {X Y H Z : Type}

/-- On the samples `data` the latent model `L` behaves like the model `m` without latent states: labels `y` of
`L` are the outputs `emb y` of `m`, and completing a label and decoding against it changes neither features nor
losses. -/
structure NoLatent (L : SLModel X Y H) (m : SModel X Z) (emb : Y → Z) (data : List (X × Y)) : Prop where
  dim : L.m.dim = m.dim
  plain : m.rescaleC = false
  delta : ∀ s ∈ data, ∀ w k,
    L.m.jointFeature s.1 (L.latent s.1 s.2 w) k -
        L.m.jointFeature s.1 (L.m.lossAug s.1 (L.latent s.1 s.2 w) w true) k =
      m.jointFeature s.1 (emb s.2) k - m.jointFeature s.1 (m.lossAug s.1 (emb s.2) w true) k
  loss : ∀ s ∈ data, ∀ w, L.m.loss (L.latent s.1 s.2 w) (L.m.lossAug s.1 (L.latent s.1 s.2 w) w true) =
    m.lossOf (emb s.2) (m.lossAug s.1 (emb s.2) w true)
  lossLabel : ∀ s ∈ data, ∀ w, L.lossLabel s.2 (L.m.lossAug s.1 (L.latent s.1 s.2 w) w true) =
    m.lossOf (emb s.2) (m.lossAug s.1 (emb s.2) w true)
  predicted : ∀ s ∈ data, ∀ w, L.lossLabel s.2 (L.m.inference s.1 w) = m.loss (emb s.2) (m.inference s.1 w)
  maxLoss : ∀ s ∈ data, L.maxLoss s.2 = m.maxLoss (emb s.2)

end Verif.Spec
