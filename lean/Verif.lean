import Verif.Basic.Arr
import Verif.Spec.Labelling
import Verif.Model.Viterbi
import Verif.Lemmas.Viterbi
import Verif.Props.C01
import Verif.Model.Common
import Verif.Props.C32
import Verif.Model.GraphCRF
import Verif.Props.C12
import Verif.Props.C13
import Verif.Model.MaxProd
import Verif.Props.C24
import Verif.Props.C26
import Verif.Props.C27
import Verif.Lemmas.Chain
import Verif.Props.C14
import Verif.Props.C03
import Verif.Lemmas.Explore
import Verif.Lemmas.Tree
import Verif.Props.C04
import Verif.Lemmas.TreeBP
import Verif.Props.C02
import Verif.Props.C06
import Verif.Lemmas.LP
import Verif.Props.C09
import Verif.Props.C07
import Verif.Model.LP
import Verif.Lemmas.Denotes
import Verif.Props.C10
import Verif.Props.C11
import Verif.Props.C23
import Verif.Props.C18
import Verif.Props.C19
import Verif.Props.C25
import Verif.Props.C31
import Verif.Props.C15
import Verif.Props.C22
import Verif.Model.MultiLabel
import Verif.Props.C17
import Verif.Model.Learner
import Verif.Model.Instances
import Verif.Spec.Learning
import Verif.Props.C29
import Verif.Model.LatentGraph
import Verif.Lemmas.Blocks
import Verif.Props.C33
import Verif.Model.Dispatch
import Verif.Model.LatentNode
import Verif.Lemmas.LatentNode
import Verif.Props.C20
import Verif.Props.C34
import Verif.Model.Perceptron
import Verif.Spec.Perceptron
import Verif.Props.C52
import Verif.Props.C53
import Verif.Model.FrankWolfe
import Verif.Spec.Duality
import Verif.Lemmas.Duality
import Verif.Lemmas.Averaging
import Verif.Props.C45
import Verif.Props.C47
import Verif.Model.Subgradient
import Verif.Spec.Subgradient
import Verif.Props.C50
import Verif.Props.C48
import Verif.Model.QP
import Verif.Model.OneSlack
import Verif.Spec.CuttingPlane
import Verif.Lemmas.QP
import Verif.Lemmas.OneSlack
import Verif.Props.C39
import Verif.Props.C40
import Verif.Props.C41
import Verif.Model.NSlack
import Verif.Lemmas.NSlack
import Verif.Lemmas.NSlackLoop
import Verif.Props.C43
import Verif.Props.C44
import Verif.Props.C70
import Verif.Model.Typed
import Verif.Spec.Typed
import Verif.Lemmas.Typed
import Verif.Lemmas.TypedEnergy
import Verif.Lemmas.TypedLabels
import Verif.Props.C21
import Verif.Props.C36
import Verif.Props.C74
import Verif.Props.C76
import Verif.Props.C60
import Verif.Props.C77
import Verif.Props.C55
import Verif.Props.C62
import Verif.Props.C59
import Verif.Props.C57
import Verif.Props.C58
import Verif.Props.C84
import Verif.Lemmas.FWRate
import Verif.Props.C85
import Verif.Props.C86
import Verif.Props.C68
import Verif.Props.C87
import Verif.Spec.GraphOutputs
import Verif.Lemmas.GraphOutputs
import Verif.Props.C65
import Verif.Props.C88
import Verif.Props.C60CRF
import Verif.Props.C62ML
import Verif.Model.InitMore
import Verif.Props.C89
import Verif.Model.SVM
import Verif.Props.C90
import Verif.Lemmas.QPExists
import Verif.Lemmas.LPExists
import Verif.Lemmas.QPInstances
import Verif.Props.C67
import Verif.Lemmas.GraphTraining
import Verif.Props.C91
import Verif.Props.C88Total
import Verif.Props.C67N
import Verif.Lemmas.NSlackRate
import Verif.Props.C93
import Verif.Props.C94
import Verif.Spec.Datasets
import Verif.Model.Datasets
import Verif.Lemmas.Gen
import Verif.Props.C95
import Verif.Props.C96
import Verif.Props.C97
import Verif.Props.C98
import Verif.Lemmas.TreeLP
import Verif.Props.C99
import Verif.Props.C100
import Verif.Lemmas.Descent
import Verif.Lemmas.RiskDescent
import Verif.Props.C101
import Verif.Spec.Monge
import Verif.Lemmas.Monge
import Verif.Props.C103
import Verif.Spec.Classification
import Verif.Spec.NearOptimal
import Verif.Lemmas.RiskMin
import Verif.Lemmas.RiskClose
import Verif.Props.C105
import Verif.Props.C106
import Verif.Props.C107
import Verif.Model.BinaryInstance
import Verif.Props.C108
import Verif.Model.EdgeInstance
import Verif.Spec.EdgeOutputs
import Verif.Lemmas.EdgeOutputs
import Verif.Lemmas.PairwiseTraining
import Verif.Props.C110
import Verif.Props.C111
import Verif.Spec.Span
import Verif.Lemmas.Span
import Verif.Props.C112
import Verif.Props.C113
import Verif.Model.MultiLabelInstance
import Verif.Props.C114
import Verif.Model.GridInstance
import Verif.Spec.Grid
import Verif.Props.C115
import Verif.Lemmas.Trace
import Verif.Spec.Curve
import Verif.Props.C116
import Verif.Props.C117
import Verif.Props.C118
import Verif.Props.C119
import Verif.Spec.Pruning
import Verif.Props.C70P
import Verif.Model.LatentBases
import Verif.Props.C120
import Verif.Props.C80P
import Verif.Props.C92P
import Verif.Props.C93G
import Verif.Props.C121
import Verif.Model.TrainingLog
import Verif.Props.C122
import Verif.Props.C122O
import Verif.Props.C123
import Verif.Props.C123L
import Verif.Props.C124
import Verif.Props.C125
import Verif.Props.C126
import Verif.Model.LatentFacade
import Verif.Spec.Attribute
import Verif.Props.C127
import Verif.Props.C128
import Verif.Props.C129
import Verif.Props.C130
import Verif.Props.C89More
import Verif.Model.LatentGridInstance
import Verif.Lemmas.ImageTraining
import Verif.Props.C131
import Verif.Model.TypedInstance
import Verif.Lemmas.TypedTraining
import Verif.Props.C132
import Verif.Model.LatentNodeInit
import Verif.Spec.NeighborShare
import Verif.Props.C133
import Verif.Lemmas.Ball
import Verif.Lemmas.BallLatent
import Verif.Lemmas.HiddenNodes
import Verif.Model.LatentNodeInstance
import Verif.Lemmas.NodeTraining
import Verif.Props.C134
import Verif.Lemmas.SpanLatent
import Verif.Lemmas.EdgeNodeTraining
import Verif.Props.C135
import Verif.Spec.LatentPrediction
import Verif.Props.C136
import Verif.Spec.LatentMarginals
import Verif.Props.C137
import Verif.Model.Timing
import Verif.Spec.Timing
import Verif.Lemmas.Timing
import Verif.Props.C138
import Verif.Model.Plot
import Verif.Spec.Plot
import Verif.Lemmas.Plot
import Verif.Props.C139
import Verif.Spec.TypedPrediction
import Verif.Props.C140
import Verif.Model.Interrupt
import Verif.Props.C141
import Verif.Props.C142
import Verif.Props.C143
import Verif.Props.C144
import Verif.Props.C145
import Verif.Model.Memory
import Verif.Props.C146
import Verif.Spec.Copies
import Verif.Lemmas.Copies
import Verif.Props.C147
import Verif.Spec.Symmetry
import Verif.Props.C148
import Verif.Model.GridCalls
import Verif.Props.C149
import Verif.Props.Supplement
import Verif.Spec.Units
import Verif.Lemmas.Units
import Verif.Lemmas.UnitsDual
import Verif.Lemmas.UnitsOneSlack
import Verif.Props.C150
import Verif.Lemmas.UnitsNSlack
import Verif.Props.C149D
import Verif.Model.Repr
import Verif.Model.Helpers
import Verif.Props.C60Options
import Verif.Props.C151
import Verif.Props.C152
import Verif.Model.SignedLabels
import Verif.Props.C155
import Verif.Spec.Stability
import Verif.Lemmas.Stability
import Verif.Props.C156
import Verif.Props.C158
import Verif.Props.C159Graph
import Verif.Props.C160
import Verif.Props.C161
import Verif.Props.C162
import Verif.Props.C163
import Verif.Props.C164
import Verif.Props.C165
import Verif.Model.TypedSnakes
import Verif.Spec.TypedSwap
import Verif.Lemmas.TypedSwap
import Verif.Props.C166
import Verif.Spec.SideBySide
import Verif.Props.C167
import Verif.Spec.Rescaled
import Verif.Lemmas.ReadsEntries
import Verif.Lemmas.Rescale
import Verif.Props.C168
import Verif.Model.SnakeConstraints
import Verif.Spec.Logic
import Verif.Props.C169
import Verif.Lemmas.Pushforward
import Verif.Props.C170
import Verif.Props.C171
import Verif.Model.ShortenSnakes
import Verif.Spec.ShortSnakes
import Verif.Props.C172
import Verif.Props.C173
import Verif.Spec.Margin
import Verif.Props.C174
import Verif.Model.ChowLiu
import Verif.Spec.SpanningForest
import Verif.Lemmas.SpanningForest
import Verif.Props.C175
import Verif.Props.C176
import Verif.Props.C177
import Verif.Props.C178
import Verif.Props.C179
import Verif.Spec.Reordered
import Verif.Props.C180
import Verif.Props.C181
import Verif.Props.C182
import Verif.Props.C183
import Verif.Props.C184
import Verif.Props.C185
import Verif.Props.C186
import Verif.Model.ChainInit
import Verif.Props.C187
import Verif.Props.C188
import Verif.Props.C189
import Verif.Props.C190
import Verif.Props.C191
