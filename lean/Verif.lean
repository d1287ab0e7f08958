import Verif.Props.Queue
import Verif.Props.MultiValue
import Verif.Props.Pruning
import Verif.Props.Archive
import Verif.Props.Tabu
import Verif.Props.Optimizer
import Verif.Props.Loss
import Verif.Props.Minimize
import Verif.Props.Pareto
import Verif.Props.Hypervolume
import Verif.Props.Nsga
import Verif.Props.NsgaRank
import Verif.Props.Transforms
import Verif.Props.IntModulo
import Verif.Props.Gaussian
import Verif.Props.Tree
import Verif.Props.Layers
import Verif.Props.Param
import Verif.Props.Discrete
import Verif.Props.Encoder
import Verif.Props.Choice
import Verif.Props.Primes
import Verif.Props.Sequences
import Verif.Props.Recast
import Verif.Props.RecastBatch
import Verif.Props.Jobs
import Verif.Props.Callbacks
import Verif.Props.Stopping
import Verif.Props.Tools
import Verif.Props.Flatten
import Verif.Props.Population
import Verif.Props.PopulationRuns
import Verif.Props.PopulationBest
import Verif.Props.Es
import Verif.Props.Crossover
import Verif.Props.Bench
import Verif.Props.Mutations
import Verif.Props.ArrayMut
import Verif.Props.Compare
import Verif.Props.Oneshot
import Verif.Props.Chain
import Verif.Props.Portfolio
import Verif.Props.Split
import Verif.Props.OnePlusOne
import Verif.Props.Spsa
import Verif.Props.Cga
import Verif.Props.PopSize
import Verif.Props.Eda
import Verif.Props.Cma
import Verif.Props.NGOpt
import Verif.Props.Delegate
import Verif.Props.CoreFuncs
import Verif.Props.Artificial
import Verif.Props.Experiment
import Verif.Model.Template
import Verif.Props.Template
import Verif.Model.Games
import Verif.Props.Games
import Verif.Model.Pbt
import Verif.Props.Pbt
import Verif.Model.Solvers
import Verif.Props.Solvers
import Verif.Model.Normalizer
import Verif.Props.Normalizer
import Verif.Model.Bounds
import Verif.Props.Bounds
import Verif.Model.ConstraintOp
import Verif.Props.ConstraintOp
import Verif.Model.Fight
import Verif.Props.Fight
import Verif.Model.Legend
import Verif.Props.Legend
import Verif.Model.XpData
import Verif.Props.XpData
import Verif.Model.Ready
import Verif.Props.Ready
import Verif.Model.ExtBo
import Verif.Props.ExtBo
import Verif.Model.HyperOpt
import Verif.Props.HyperOpt
import Verif.Model.LinkedHv
import Verif.Props.LinkedHv
import Verif.Model.Msr
import Verif.Props.Msr
import Verif.Model.Bandit
import Verif.Props.Bandit
import Verif.Model.NGOptF
import Verif.Props.NGOptF
import Verif.Model.RandState
import Verif.Props.RandState
import Verif.Model.MutSteps
import Verif.Props.MutSteps
import Verif.Model.TransForce
import Verif.Props.TransForce
import Verif.Model.Csec
import Verif.Props.Csec
import Verif.Model.IohChain
import Verif.Props.IohChain
import Verif.Model.ParamLog
import Verif.Props.ParamLog
import Verif.Model.Penalty
import Verif.Props.Penalty
import Verif.Model.Values
import Verif.Props.Values
import Verif.Model.Configured
import Verif.Props.Configured
import Verif.Model.Maps
import Verif.Props.Maps
import Verif.Model.Lsgo
import Verif.Props.Lsgo
import Verif.Model.Power
import Verif.Props.Power
import Verif.Model.Sims
import Verif.Props.Sims
import Verif.Model.Sphere
import Verif.Props.Sphere
import Verif.Props.SphereSearch
import Verif.Model.Rl
import Verif.Props.Rl
import Verif.Model.Mlda
import Verif.Props.Mlda
import Verif.Model.Cycling
import Verif.Props.Cycling
import Verif.Model.Arcoating
import Verif.Props.Arcoating
import Verif.Model.Causal
import Verif.Props.Causal
import Verif.Model.Topology
import Verif.Props.Topology
import Verif.Model.Rocket
import Verif.Props.Rocket
import Verif.Model.De
import Verif.Props.De
import Verif.Model.Photonics
import Verif.Props.Photonics
import Verif.Model.Solar
import Verif.Lemmas.Solar
import Verif.Props.Solar
import Verif.Model.Pymoo
import Verif.Props.Pymoo
import Verif.Model.Pyomo
import Verif.Props.Pyomo
import Verif.Model.Ml
import Verif.Props.Ml
import Verif.Model.GymNet
import Verif.Props.GymNet
import Verif.Model.GymSim
import Verif.Props.GymSim
import Verif.Model.Launch
import Verif.Props.Launch
import Verif.Model.Command
import Verif.Props.Command
import Verif.Model.HullRule
import Verif.Props.HullRule
import Verif.Model.Yabbob
import Verif.Props.Yabbob
import Verif.Model.MutChoice
import Verif.Props.MutChoice
import Verif.Model.Smooth
import Verif.Props.Smooth
import Verif.Model.Callbacks
import Verif.Model.Morpho
import Verif.Lemmas.Morpho
import Verif.Props.Morpho
import Verif.Model.Fdfd
import Verif.Props.Fdfd
import Verif.Model.CrossVal
import Verif.Props.CrossVal
import Verif.Model.Sampling
import Verif.Props.Sampling
import Verif.Model.Names
import Verif.Props.Names
import Verif.Model.Fourier
import Verif.Props.Fourier
import Verif.Model.Control
import Verif.Props.Control
import Verif.Model.SphereMetric
import Verif.Props.SphereMetric
import Verif.Model.Pooling
import Verif.Props.Pooling
import Verif.Model.Images
import Verif.Props.Images
import Verif.Props.Details
import Verif.Model.Ceviche
import Verif.Props.Ceviche
import Verif.Model.ExportTable
import Verif.Props.ExportTable
import Verif.Model.Nash
import Verif.Props.Nash
import Verif.Model.Datasets
import Verif.Props.Datasets
import Verif.Model.AngleParam
import Verif.Props.AngleParam
import Verif.Model.OptGroups
import Verif.Props.OptGroups
import Verif.Model.PlotCases
import Verif.Props.PlotCases
import Verif.Model.Neural
import Verif.Props.Neural
import Verif.Model.FarOptimum
import Verif.Props.FarOptimum
import Verif.Model.BlockClass
import Verif.Props.BlockClass
import Verif.Model.TypeNorm
import Verif.Props.TypeNorm
import Verif.Model.BoundShape
import Verif.Props.BoundShape
import Verif.Model.PlotFrame
import Verif.Props.PlotFrame
import Verif.Model.Waiting
import Verif.Props.Waiting
import Verif.Model.LazyChoice
import Verif.Props.LazyChoice
import Verif.Model.PlotCommand
import Verif.Props.PlotCommand
import Verif.Model.Hiplot
import Verif.Props.Hiplot
import Verif.Model.GymRuns
import Verif.Props.GymRuns
import Verif.Model.Circuit
import Verif.Props.Circuit
import Verif.Model.RollingMean
import Verif.Props.RollingMean
import Verif.Model.ModeConv
import Verif.Props.ModeConv
import Verif.Model.SphereTable
import Verif.Props.SphereTable
import Verif.Model.CheapLayer
import Verif.Props.CheapLayer
import Verif.Model.InitRecord
import Verif.Props.InitRecord
import Verif.Model.IterCases
import Verif.Props.IterCases
import Verif.Model.Olympus
import Verif.Props.Olympus
import Verif.Model.EnvNames
import Verif.Props.EnvNames
import Verif.Model.MinLosses
import Verif.Props.MinLosses
