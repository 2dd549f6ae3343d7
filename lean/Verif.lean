import Verif.Adwin.Check
import Verif.Adwin.CutTest
import Verif.Adwin.Invariant
import Verif.Adwin.Lasting
import Verif.Adwin.Model
import Verif.Adwin.Props
import Verif.Adwin.Shift
import Verif.Anomaly.HST
import Verif.Bayes.NBColumns
import Verif.Bayes.NBData
import Verif.Bayes.NBUnits
import Verif.Bayes.NaiveBayes
import Verif.Buffers.Model
import Verif.Buffers.Props
import Verif.Common
import Verif.Core.Clone
import Verif.Core.Params
import Verif.Core.Pipeline
import Verif.Core.Renamed
import Verif.Core.Repr
import Verif.Core.Reset
import Verif.Dict
import Verif.Drift.DDMErrors
import Verif.Drift.DDMFound
import Verif.Drift.DDMLasting
import Verif.Drift.DDMMissed
import Verif.Drift.DDMProps
import Verif.Drift.EDDMErrors
import Verif.Drift.EDDMLasting
import Verif.Drift.EDDMProps
import Verif.Drift.HDDMProps
import Verif.Drift.HDDMRise
import Verif.Drift.HDDMW
import Verif.Drift.HDDMWRise
import Verif.Drift.KSFound
import Verif.Drift.KSOrder
import Verif.Drift.KSWINProps
import Verif.Drift.Levels
import Verif.Drift.Model
import Verif.Drift.PHMute
import Verif.Drift.PHRise
import Verif.Drift.Segments
import Verif.Evaluation.Classes
import Verif.Evaluation.Delayed
import Verif.Evaluation.DelayedFinal
import Verif.Evaluation.DelayedProps
import Verif.Evaluation.DelayedRows
import Verif.Evaluation.DelayedScores
import Verif.Evaluation.DelayedTogether
import Verif.Evaluation.FileBuffer
import Verif.Evaluation.HoldoutRows
import Verif.Evaluation.HoldoutTogether
import Verif.Evaluation.Honest
import Verif.Evaluation.MetricsList
import Verif.Evaluation.Model
import Verif.Evaluation.NoPretrain
import Verif.Evaluation.Plot
import Verif.Evaluation.PlotLimits
import Verif.Evaluation.PlotProps
import Verif.Evaluation.Props
import Verif.Evaluation.Report
import Verif.Evaluation.ReportProps
import Verif.Evaluation.Reuse
import Verif.Evaluation.Run
import Verif.Evaluation.Schedule
import Verif.Evaluation.StreamSpeed
import Verif.Evaluation.Summary
import Verif.Evaluation.Timer
import Verif.Evaluation.Together
import Verif.Lazy.KNN
import Verif.Lazy.KNNAdwin
import Verif.Lazy.KNNLife
import Verif.Lazy.KNNOrder
import Verif.Lazy.Nearest
import Verif.Lazy.Sam
import Verif.Lazy.SamSizer
import Verif.Meta.AWE
import Verif.Meta.AWEScore
import Verif.Meta.BatchInc
import Verif.Meta.BoostRun
import Verif.Meta.Boosting
import Verif.Meta.Chains
import Verif.Meta.Experts
import Verif.Meta.Forest
import Verif.Meta.ForestProps
import Verif.Meta.ForestReg
import Verif.Meta.ForestRegProps
import Verif.Meta.ForestRegRun
import Verif.Meta.ForestSeeds
import Verif.Meta.LearnNSE
import Verif.Meta.LearnNSEProps
import Verif.Meta.LearnNSEVotes
import Verif.Meta.LearnNSEWeights
import Verif.Meta.LearnPP
import Verif.Meta.LearnPPProps
import Verif.Meta.LearnPPVotes
import Verif.Meta.LevBag
import Verif.Meta.LevBagProps
import Verif.Meta.Leverage
import Verif.Meta.Life
import Verif.Meta.LifeRun
import Verif.Meta.MultiOutput
import Verif.Meta.Oza
import Verif.Meta.OzaAdwin
import Verif.Meta.OzaProps
import Verif.Meta.OzaSilenced
import Verif.Meta.Parts
import Verif.Meta.Patches
import Verif.Meta.PatchesLife
import Verif.Meta.PatchesProps
import Verif.Meta.PatchesRun
import Verif.Meta.PatchesStep
import Verif.Meta.PatchesVotes
import Verif.Meta.ResetAll
import Verif.Meta.Skew
import Verif.Meta.SkewCost
import Verif.Meta.SkewProps
import Verif.Meta.SkewRows
import Verif.Meta.SkewRus
import Verif.Meta.SkewVotes
import Verif.Meta.Smote
import Verif.Meta.Windows
import Verif.Metrics.Baselines
import Verif.Metrics.Legacy
import Verif.Metrics.LegacyMulti
import Verif.Metrics.Model
import Verif.Metrics.MultiLabel
import Verif.Metrics.MultiLabelProps
import Verif.Metrics.Props
import Verif.Metrics.Regression
import Verif.Metrics.RegressionProps
import Verif.Metrics.Scores
import Verif.Neural.PerceptronMask
import Verif.Prototype.RSLVQ
import Verif.Prototype.RSLVQRun
import Verif.Rules.Adapt
import Verif.Rules.Criterion
import Verif.Rules.Examples
import Verif.Rules.Foil
import Verif.Rules.Model
import Verif.Rules.Nominal
import Verif.Rules.Props
import Verif.Rules.Reading
import Verif.Rules.Votes
import Verif.Stats
import Verif.Streams.AnomalySine
import Verif.Streams.ConceptDrift
import Verif.Streams.Concepts
import Verif.Streams.DataStream
import Verif.Streams.DataStreamProps
import Verif.Streams.Description
import Verif.Streams.GeneratorProps
import Verif.Streams.Generators
import Verif.Streams.LED
import Verif.Streams.Loading
import Verif.Streams.Logical
import Verif.Streams.RBF
import Verif.Streams.RandomTree
import Verif.Streams.Switches
import Verif.Streams.Synthetic
import Verif.Streams.TimeManager
import Verif.Streams.Waveform
import Verif.Transform.Filled
import Verif.Transform.Model
import Verif.Transform.Props
import Verif.Transform.Units
import Verif.Trees.ARFTree
import Verif.Trees.Attempt
import Verif.Trees.BinaryTreeObserver
import Verif.Trees.Conserve
import Verif.Trees.Criteria
import Verif.Trees.EBST
import Verif.Trees.EBSTPrune
import Verif.Trees.EFDT
import Verif.Trees.EFDTCount
import Verif.Trees.EFDTProps
import Verif.Trees.EFDTRoute
import Verif.Trees.Gaussian
import Verif.Trees.GaussianBest
import Verif.Trees.Grow
import Verif.Trees.GrowMap
import Verif.Trees.HAT
import Verif.Trees.HATProps
import Verif.Trees.HATR
import Verif.Trees.HATRLeaf
import Verif.Trees.HATRNorm
import Verif.Trees.HATRRefine
import Verif.Trees.HATRSafe
import Verif.Trees.HATRefine
import Verif.Trees.HATSafe
import Verif.Trees.HATVotes
import Verif.Trees.HTR
import Verif.Trees.HTRLeaf
import Verif.Trees.HTRMean
import Verif.Trees.HTRPerc
import Verif.Trees.HTRProps
import Verif.Trees.HTRSplit
import Verif.Trees.Hoeffding
import Verif.Trees.Inactive
import Verif.Trees.Kinds
import Verif.Trees.Known
import Verif.Trees.LC
import Verif.Trees.Learn
import Verif.Trees.LearnMap
import Verif.Trees.MTR
import Verif.Trees.MTRAdapt
import Verif.Trees.MTRMerit
import Verif.Trees.MTRPerc
import Verif.Trees.MTRProps
import Verif.Trees.MTRReset
import Verif.Trees.MTRSplit
import Verif.Trees.MTRUnits
import Verif.Trees.MemoryPolicy
import Verif.Trees.Names
import Verif.Trees.Nominal
import Verif.Trees.NumSplit
import Verif.Trees.PercStep
import Verif.Trees.Predict
import Verif.Trees.SplitTest
import Verif.Trees.Units
import Verif.Utils.CleanHeader
import Verif.Utils.Dicts
import Verif.Utils.ObjectSize
import Verif.Utils.Statistics
