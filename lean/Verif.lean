import Verif.Model.Core
import Verif.Spec
import Verif.Lemmas.Core
import Verif.Props.Core
import Verif.Model.Utils
import Verif.Lemmas.Utils
import Verif.Props.Utils
import Verif.Model.LayerUtils
import Verif.Lemmas.LayerUtils
import Verif.Props.LayerUtils
import Verif.Model.Layers
import Verif.Lemmas.Layers
import Verif.Props.Layers
import Verif.Model.Pooling
import Verif.Lemmas.Pooling
import Verif.Props.Pooling
import Verif.Model.Activations
import Verif.Lemmas.Activations
import Verif.Props.Activations
import Verif.Model.Backward
import Verif.Model.Network
import Verif.SpecNet
import Verif.Lemmas.Backward
import Verif.Lemmas.Network
import Verif.Lemmas.Mono
import Verif.Props.Network
import Verif.Props.Backward
import Verif.Model.Wrapper
import Verif.Lemmas.Wrapper
import Verif.Props.Wrapper
import Verif.Model.Metrics
import Verif.Props.Metrics
import Verif.Model.Graph
import Verif.Lemmas.Graph
import Verif.Props.Graph
import Verif.Model.State
import Verif.Props.State
import Verif.Props.Nested
import Verif.Model.Domain
import Verif.Props.Domain
import Verif.Model.Shapes
import Verif.Props.Shapes
import Verif.SpecTight
import Verif.Lemmas.Exact
import Verif.Props.Exact
import Verif.Lemmas.Refine
import Verif.Props.Refine
import Verif.Props.Merge
import Verif.Props.MaxHull
import Verif.Props.Weights
import Verif.Props.Reset
import Verif.Props.Convert
import Verif.Model.Dot
import Verif.Props.Dot
import Verif.Model.CrossEntropy
import Verif.Props.CrossEntropy
import Verif.Model.Tuning
import Verif.Props.Tuning
import Verif.Model.ByType
import Verif.Props.ByType
import Verif.SpecSlack
import Verif.Lemmas.Slack
import Verif.Props.Slack
import Verif.Model.Grid
import Verif.Lemmas.Grid
import Verif.Props.Grid
import Verif.Model.Share
import Verif.Props.Share
import Verif.Model.IbpNet
import Verif.SpecIbp
import Verif.Lemmas.IbpNet
import Verif.Props.IbpNet
import Verif.Model.Clone
import Verif.Props.Clone
import Verif.SpecRate
import Verif.Props.Rate
import Verif.SpecDc
import Verif.Model.Dc
import Verif.Props.Dc
import Verif.SpecBack
import Verif.Model.BackAct
import Verif.Props.BackAct
import Verif.Model.BackRank
import Verif.Props.BackRank
import Verif.Props.Sliver
import Verif.Model.MaxPool2D
import Verif.SpecPool
import Verif.Props.MaxPool2D
import Verif.Model.Radius
import Verif.Props.Radius
import Verif.Model.Names
import Verif.Props.Names
import Verif.Model.Rounded
import Verif.Props.Rounded
import Verif.SpecSymm
import Verif.Lemmas.Symm
import Verif.Lemmas.SymmBack
import Verif.Props.Symm
import Verif.SpecFold
import Verif.Lemmas.Fold
import Verif.Lemmas.FoldNet
import Verif.Lemmas.FoldCrown
import Verif.Props.Fold
import Verif.SpecDrift
import Verif.Lemmas.Drift
import Verif.Lemmas.Kink
import Verif.Props.Drift
import Verif.Model.OneSided
import Verif.Lemmas.Cross
import Verif.Props.OneSided
import Verif.SpecRuns
import Verif.Model.Runs
import Verif.Lemmas.Runs
import Verif.Props.Runs
import Verif.SpecOrder
import Verif.Lemmas.Order
import Verif.Props.Order
import Verif.SpecWidth
import Verif.Lemmas.Spread
import Verif.Props.Width
import Verif.SpecBall
import Verif.Lemmas.Swap
import Verif.Props.Ball
import Verif.SpecStable
import Verif.Lemmas.Stable
import Verif.Props.Stable
import Verif.Model.AnyNet
import Verif.SpecAny
import Verif.Lemmas.AnyNet
import Verif.Props.AnyNet
import Verif.Model.Flatten
import Verif.Props.Flatten
import Verif.Model.Permute
import Verif.Props.Permute
import Verif.Props.Pipeline
import Verif.Model.EndToEnd
import Verif.Props.EndToEnd
import Verif.Props.SlackReduce
import Verif.Props.LinearAdv
import Verif.Model.BackwardExtra
import Verif.Props.BackwardExtra
import Verif.Model.CrownGraph
import Verif.SpecCrownGraph
import Verif.Lemmas.CrownGraph
import Verif.Props.CrownGraph
import Verif.Model.CloneMethod
import Verif.Props.CloneMethod
import Verif.SpecUnfold
import Verif.Lemmas.Unfold
import Verif.Props.Unfold
import Verif.Props.CloneSlack
import Verif.Lemmas.IbpGraph
import Verif.Props.IbpGraph
import Verif.Props.HybridGraph
import Verif.Props.CloneWidth
import Verif.Props.CloneStable
import Verif.SpecSlackGraph
import Verif.Lemmas.SlackGraph
import Verif.Props.GraphSlack
import Verif.SpecTie
import Verif.Lemmas.Tends
import Verif.Lemmas.TendsNet
import Verif.Props.Tie
import Verif.SpecTol
import Verif.Model.RunsAffine
import Verif.Lemmas.RunsAffine
import Verif.Props.RunsAffine
import Verif.SpecTolBack
import Verif.Model.RunsBack
import Verif.Lemmas.RunsBack
import Verif.Props.RunsBack
import Verif.SpecFloat
import Verif.Model.FloatAffine
import Verif.Lemmas.FloatAffine
import Verif.Props.FloatAffine
import Verif.SpecFloatBack
import Verif.Model.FloatBack
import Verif.Lemmas.FloatBack
import Verif.Props.FloatBack
import Verif.SpecFloatMode
import Verif.Model.FloatMode
import Verif.Lemmas.FloatMode
import Verif.Props.FloatMode
import Verif.SpecFloatCrown
import Verif.Model.FloatCrown
import Verif.Lemmas.FloatCrown
import Verif.Props.FloatCrown
import Verif.SpecUnder
import Verif.Model.Under
import Verif.Lemmas.Under
import Verif.Props.Under
import Verif.SpecFloatSplit
import Verif.Model.FloatSplit
import Verif.Lemmas.FloatSplit
import Verif.Props.FloatSplit
import Verif.SpecFloatGraph
import Verif.Model.FloatGraph
import Verif.Model.RoundReal
import Verif.Lemmas.FloatGraph
import Verif.Lemmas.RoundReal
import Verif.Props.FloatGraph
import Verif.SpecPrune
import Verif.Lemmas.Prune
import Verif.Props.Prune
import Verif.SpecCopies
import Verif.Lemmas.Copies
import Verif.Props.Copies
import Verif.SpecLabelSets
import Verif.Props.LabelSets
import Verif.Props.ScoreRange
import Verif.Model.MetricsBack
import Verif.SpecBackScore
import Verif.Props.BackwardScore
import Verif.Props.CloneSliver
import Verif.SpecLogits
import Verif.Props.Logits
import Verif.Model.Split
import Verif.Props.Split
import Verif.Model.Primes
import Verif.Props.Primes
import Verif.Model.Count
import Verif.Props.Count
import Verif.Props.BackBias
