import Verif.Lemmas.Additive
import Verif.Lemmas.BatchBias
import Verif.Lemmas.BatchLimit
import Verif.Lemmas.BatchLog
import Verif.Lemmas.Binned
import Verif.Lemmas.BinormalLevels
import Verif.Lemmas.BmmMixture
import Verif.Lemmas.BmmMoments
import Verif.Lemmas.BmmNormal
import Verif.Lemmas.BmmPmi
import Verif.Lemmas.BmmTransform
import Verif.Lemmas.BmmWitness
import Verif.Lemmas.Canonical
import Verif.Lemmas.Cca
import Verif.Lemmas.CcaBent
import Verif.Lemmas.CcaMixture
import Verif.Lemmas.CcaOther
import Verif.Lemmas.CcaPairs
import Verif.Lemmas.CcaScalar
import Verif.Lemmas.CcaSpiral
import Verif.Lemmas.CcaStrict
import Verif.Lemmas.CcaTasks
import Verif.Lemmas.CcaTower
import Verif.Lemmas.CentralLimit
import Verif.Lemmas.Chernoff
import Verif.Lemmas.Concat
import Verif.Lemmas.Consistency
import Verif.Lemmas.Covariance
import Verif.Lemmas.CriticNet
import Verif.Lemmas.CriticPlots
import Verif.Lemmas.Density
import Verif.Lemmas.Digamma
import Verif.Lemmas.Discrete
import Verif.Lemmas.DiscreteWitness
import Verif.Lemmas.ExpPoisson
import Verif.Lemmas.Extremes
import Verif.Lemmas.FactsPositive
import Verif.Lemmas.Fitting
import Verif.Lemmas.Gaps
import Verif.Lemmas.Gaussian
import Verif.Lemmas.GaussianDensity
import Verif.Lemmas.GaussianMI
import Verif.Lemmas.Gebelein
import Verif.Lemmas.Histogram
import Verif.Lemmas.HistogramLimit
import Verif.Lemmas.IdealWitness
import Verif.Lemmas.InfiniteMI
import Verif.Lemmas.InfoNCE
import Verif.Lemmas.Integration
import Verif.Lemmas.KSG
import Verif.Lemmas.KSGFit
import Verif.Lemmas.Kde
import Verif.Lemmas.KdeBlocks
import Verif.Lemmas.KdeCurve
import Verif.Lemmas.KdeLaws
import Verif.Lemmas.KdeLimit
import Verif.Lemmas.KdeMaps
import Verif.Lemmas.KdeMixture
import Verif.Lemmas.KdeMollify
import Verif.Lemmas.KdeMoments
import Verif.Lemmas.KdeNormal
import Verif.Lemmas.KdeRule
import Verif.Lemmas.KdeScale
import Verif.Lemmas.KdeShape
import Verif.Lemmas.KdeShrink
import Verif.Lemmas.KdeTransforms
import Verif.Lemmas.Losses
import Verif.Lemmas.MatrixUtils
import Verif.Lemmas.Maxcor
import Verif.Lemmas.Mine
import Verif.Lemmas.MixtureChannel
import Verif.Lemmas.MixtureMI
import Verif.Lemmas.MixtureMore
import Verif.Lemmas.MixtureTasks
import Verif.Lemmas.MutualInfo
import Verif.Lemmas.NeuralData
import Verif.Lemmas.OneDim
import Verif.Lemmas.OptimalCritic
import Verif.Lemmas.Outliers
import Verif.Lemmas.PaperBenchmark
import Verif.Lemmas.Percentile
import Verif.Lemmas.PiDensity
import Verif.Lemmas.PlugIn
import Verif.Lemmas.PmiFigure
import Verif.Lemmas.PmiProfile
import Verif.Lemmas.Profiles
import Verif.Lemmas.ProfilesU
import Verif.Lemmas.RankCor
import Verif.Lemmas.Registry
import Verif.Lemmas.Rotation
import Verif.Lemmas.SampleCov
import Verif.Lemmas.SamplerInv
import Verif.Lemmas.Samplers
import Verif.Lemmas.Scaling
import Verif.Lemmas.Sparsity
import Verif.Lemmas.StrictDpi
import Verif.Lemmas.Student
import Verif.Lemmas.StudentCorrection
import Verif.Lemmas.StudentCov
import Verif.Lemmas.StudentMI
import Verif.Lemmas.StudentNumbers
import Verif.Lemmas.StudentWitness
import Verif.Lemmas.TestFunctions
import Verif.Lemmas.TrainLoop
import Verif.Lemmas.Training
import Verif.Lemmas.Transforms
import Verif.Lemmas.UniversalApprox
import Verif.Lemmas.Variational
import Verif.Lemmas.VariationalLimit
import Verif.Lemmas.Workflow
import Verif.Lemmas.ZeroInflated
import Verif.Lemmas.ZeroInflatedDraw
import Verif.Model.AddNoise
import Verif.Model.Appearing
import Verif.Model.Basic
import Verif.Model.Bmm
import Verif.Model.Cca
import Verif.Model.ChiCheck
import Verif.Model.Chunker
import Verif.Model.CompareFigure
import Verif.Model.Concept
import Verif.Model.Configs
import Verif.Model.CoolTasks
import Verif.Model.CorrectionFigure
import Verif.Model.Critic
import Verif.Model.CriticPlots
import Verif.Model.Discrete
import Verif.Model.Dumper
import Verif.Model.External
import Verif.Model.FigureTables
import Verif.Model.Fitting
import Verif.Model.FunctionWrapper
import Verif.Model.Gallery
import Verif.Model.Gmm
import Verif.Model.GmmBenchmark
import Verif.Model.HighMi
import Verif.Model.Histogram
import Verif.Model.Integration
import Verif.Model.KSG
import Verif.Model.Kde
import Verif.Model.Losses
import Verif.Model.MatrixUtils
import Verif.Model.MiFigure
import Verif.Model.Mine
import Verif.Model.MixtureTasks
import Verif.Model.NeuralData
import Verif.Model.NeuralEstimator
import Verif.Model.NeuralNamed
import Verif.Model.Outliers
import Verif.Model.PaperBenchmark
import Verif.Model.PmiFigure
import Verif.Model.ProductSpace
import Verif.Model.Profiles
import Verif.Model.ReadResults
import Verif.Model.Registry
import Verif.Model.RunEstimator
import Verif.Model.SampleIO
import Verif.Model.SamplerFigure
import Verif.Model.Samplers
import Verif.Model.Scaling
import Verif.Model.Scripts
import Verif.Model.Search
import Verif.Model.Sparsity
import Verif.Model.SparsityFigure
import Verif.Model.Student
import Verif.Model.Subplots
import Verif.Model.Tables
import Verif.Model.Task
import Verif.Model.TaskIds
import Verif.Model.Timer
import Verif.Model.Training
import Verif.Model.Transforms
import Verif.Model.Workflow
import Verif.Props.AddNoise
import Verif.Props.AdditiveCritic
import Verif.Props.AdditiveUniform
import Verif.Props.Appearing
import Verif.Props.BatchLimit
import Verif.Props.Batches
import Verif.Props.Bimodal
import Verif.Props.BimodalStrict
import Verif.Props.Bmm
import Verif.Props.BmmMixtureMI
import Verif.Props.BmmPmi
import Verif.Props.BmmSampler
import Verif.Props.BmmTransform
import Verif.Props.Cca
import Verif.Props.CcaConsistent
import Verif.Props.CcaMixture
import Verif.Props.CcaRank
import Verif.Props.CcaStrict
import Verif.Props.CcaTasks
import Verif.Props.Chernoff
import Verif.Props.ChiCheck
import Verif.Props.Chunker
import Verif.Props.CompareFigure
import Verif.Props.Compose
import Verif.Props.Concept
import Verif.Props.CoolTasks
import Verif.Props.CorrectionFigure
import Verif.Props.Covariance
import Verif.Props.Critic
import Verif.Props.CriticPlots
import Verif.Props.CriticRich
import Verif.Props.Details
import Verif.Props.Discrete
import Verif.Props.DiscreteMixture
import Verif.Props.Dumper
import Verif.Props.External
import Verif.Props.FigureTables
import Verif.Props.Finer
import Verif.Props.Fitting
import Verif.Props.FunctionWrapper
import Verif.Props.Gallery
import Verif.Props.Gmm
import Verif.Props.GmmBenchmark
import Verif.Props.HighMi
import Verif.Props.Histogram
import Verif.Props.HistogramBounded
import Verif.Props.HistogramFine
import Verif.Props.HistogramLimit
import Verif.Props.Integration
import Verif.Props.InvertCdf
import Verif.Props.KSG
import Verif.Props.Kde
import Verif.Props.KdeBenchmark
import Verif.Props.KdeLimit
import Verif.Props.KdeMixture
import Verif.Props.KdeNormal
import Verif.Props.KdeRule
import Verif.Props.KdeStandard
import Verif.Props.KdeTasks
import Verif.Props.LVM
import Verif.Props.Losses
import Verif.Props.MatrixUtils
import Verif.Props.MiFigure
import Verif.Props.Mine
import Verif.Props.MixtureTasks
import Verif.Props.MixtureTasksMI
import Verif.Props.MixtureTasksRefuse
import Verif.Props.MonteCarloLimit
import Verif.Props.Multinormal
import Verif.Props.NeuralEstimator
import Verif.Props.NeuralNamed
import Verif.Props.NoisyKsg
import Verif.Props.NormalTasks
import Verif.Props.OptimalCritic
import Verif.Props.Outliers
import Verif.Props.PaperBenchmark
import Verif.Props.PaperSetups
import Verif.Props.PaperTasks
import Verif.Props.PmiFigure
import Verif.Props.PmiProfile
import Verif.Props.ProductSpace
import Verif.Props.Profiles
import Verif.Props.ProfilesPlot
import Verif.Props.ReadResults
import Verif.Props.Registry
import Verif.Props.RunEstimator
import Verif.Props.SampleIO
import Verif.Props.SamplerFigure
import Verif.Props.SamplerShapes
import Verif.Props.Scaling
import Verif.Props.Scripts
import Verif.Props.Search
import Verif.Props.SearchTasks
import Verif.Props.Sparsity
import Verif.Props.SparsityFigure
import Verif.Props.Spiral
import Verif.Props.Student
import Verif.Props.Subplots
import Verif.Props.Tables
import Verif.Props.Task
import Verif.Props.TaskIds
import Verif.Props.Timer
import Verif.Props.Training
import Verif.Props.Transforms
import Verif.Props.Workflow
import Verif.Props.ZeroInflated
import Verif.Spec.AddNoise
import Verif.Spec.Appearing
import Verif.Spec.BatchLimit
import Verif.Spec.Bmm
import Verif.Spec.CcaMixture
import Verif.Spec.CcaStrict
import Verif.Spec.CcaTasks
import Verif.Spec.ChiCheck
import Verif.Spec.CompareFigure
import Verif.Spec.Concept
import Verif.Spec.Consistency
import Verif.Spec.CoolTasks
import Verif.Spec.CriticPlots
import Verif.Spec.Discrete
import Verif.Spec.Fitting
import Verif.Spec.Gallery
import Verif.Spec.GmmBenchmark
import Verif.Spec.HighMi
import Verif.Spec.IdealRandom
import Verif.Spec.Integration
import Verif.Spec.KSG
import Verif.Spec.Kde
import Verif.Spec.KdeLimit
import Verif.Spec.KdeMixture
import Verif.Spec.KdeRule
import Verif.Spec.KdeTasks
import Verif.Spec.Losses
import Verif.Spec.MatrixUtils
import Verif.Spec.MiFigure
import Verif.Spec.Mine
import Verif.Spec.MixtureTasks
import Verif.Spec.MutualInfo
import Verif.Spec.NeuralData
import Verif.Spec.NormalTasks
import Verif.Spec.Outliers
import Verif.Spec.PaperBenchmark
import Verif.Spec.PlugIn
import Verif.Spec.PmiFigure
import Verif.Spec.Profiles
import Verif.Spec.Registry
import Verif.Spec.SamplerFigure
import Verif.Spec.Samplers
import Verif.Spec.SparsityFigure
import Verif.Spec.Student
import Verif.Spec.Training
import Verif.Spec.Transforms
import Verif.Spec.ZeroInflated
import Verif.Audit
