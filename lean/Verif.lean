import Verif.Basic
import Verif.Ga.Solver
import Verif.Ga.SolverLemmas
import Verif.Ga.Crossover
import Verif.Ga.CrossoverLemmas
import Verif.Props.GaSolver
import Verif.Props.CrossoverLocus
import Verif.Props.CrossoverPerm
import Verif.Props.Mutation
import Verif.Props.Selection
import Verif.Props.Replacement
import Verif.Props.Population
import Verif.Props.PermGa
import Verif.Props.Presets
import Verif.Props.Builder
import Verif.Props.Probe
import Verif.Props.Pso
import Verif.Props.Pso2
import Verif.Props.Ff
import Verif.Props.Ff2
import Verif.Props.Ff3
import Verif.Exc
import Verif.Aco.Matrix
import Verif.Aco.Tsp
import Verif.Aco.Aco
import Verif.Props.AcoAnts
import Verif.Props.AcoAcs
import Verif.Props.AcoPheromone
import Verif.Props.AcoHistory
import Verif.Props.AcoBest
import Verif.Props.AcoRun
import Verif.Props.AcoPossible
import Verif.Props.AcoParts
import Verif.Jssp.Model
import Verif.Jssp.Shop
import Verif.Jssp.Schedule
import Verif.Jssp.Graph
import Verif.Jssp.Swap
import Verif.Jssp.LocalSearch
import Verif.Jssp.Spec
import Verif.Jssp.Instance
import Verif.Jssp.Determinism
import Verif.Jssp.Evaluate
import Verif.Jssp.Arises
import Verif.Jssp.Bounds
import Verif.Props.Jssp
import Verif.Props.JsspZero
import Verif.Props.JsspGraph
import Verif.Ga.Staged
import Verif.Jssp.Operators
import Verif.Props.JsspRun
import Verif.Props.JsspCrossover
import Verif.TestFunctions.Core
import Verif.TestFunctions.Model
import Verif.TestFunctions.Lemmas
import Verif.Props.TestFunctions
import Verif.Props.TestFunctions2
import Verif.Props.TestFunctions3
import Verif.Props.TestFunctions4
import Verif.Props.TestFunctions5
import Verif.Props.TestFunctions6
import Verif.Props.TestFunctions7
import Verif.Props.TestFunctions8
import Verif.Props.TestFunctions9
import Verif.Props.TestFunctions10
import Verif.Props.TestFunctions11
import Verif.Ga.Stdout
import Verif.Props.GaRuns
import Verif.Props.GaRuns2
import Verif.Props.Mutation2
import Verif.Ga.RealAssemble
import Verif.Props.RealGa
import Verif.Props.Selection2
import Verif.Props.Selection3
import Verif.Jssp.Report
import Verif.Props.JsspReport
import Verif.Props.JsspDistance
import Verif.Jssp.Config
import Verif.Props.JsspConfig
import Verif.Props.Replacement2
import Verif.Props.JsspDecode
import Verif.Props.JsspLocalOpt
import Verif.Float.Rounding
import Verif.Ga.Rounded
import Verif.Props.FloatSelection
import Verif.Aco.Rounded
import Verif.Props.FloatAco
import Verif.Props.Possible
import Verif.Props.Possible2
import Verif.Props.Possible3
import Verif.Props.Possible4
import Verif.Props.PossiblePmx
import Verif.Props.ProbSelection
import Verif.ProbRun
import Verif.Props.ProbVariation
import Verif.Props.ProbVariation2
import Verif.Props.ProbVariation3
import Verif.Props.ProbVariation4
import Verif.Ga.ProbSolver
import Verif.Props.ProbConverge
import Verif.Aco.Sampled
import Verif.Props.ProbAco
import Verif.Props.ProbAcoRun
import Verif.Ga.Boltzmann
import Verif.Props.ProbBoltzmann
import Verif.Ga.Examples
import Verif.Props.GaExamples
import Verif.Props.ProbStuck
import Verif.Coco.Model
import Verif.Props.Coco
import Verif.Props.PointGenerator
import Verif.Ff.Examples
import Verif.Props.FfExamples
import Verif.Props.FfCooling
import Verif.Props.GaTimed
import Verif.Props.OrderInvariance
import Verif.Props.Symmetry
import Verif.Props.FfSymmetry
import Verif.Props.Published
import Verif.Props.Generalised
import Verif.Props.Console
import Verif.Props.FfAuxiliary
import Verif.Props.Relabel
import Verif.Props.JsspUnreachable
import Verif.Props.AcoRanges
import Verif.Props.AcoMetric
import Verif.Props.ProbSus
import Verif.Props.RankNan
import Verif.PsoMoments
import Verif.Props.PsoStability
import Verif.Props.Linkage
import Verif.ProbExpect
import Verif.Props.Schema
import Verif.Props.Published2
import Verif.Props.Benches
import Verif.Props.Overflow
import Verif.Props.Copies
import Verif.Props.Individual
import Verif.RepoTests
import Verif.Props.RepoTests
import Verif.Props.RepoExamples
import Verif.Ga.RoundedPoints
import Verif.Props.RoundedPoints
import Verif.ProbCount
import Verif.Props.Drift
import Verif.Props.MissingEdges
import Verif.Props.FfInfinity
import Verif.Ga.Integer
import Verif.Props.IntegerRoulette
import Verif.Props.MutationBias
import Verif.Props.FfBias
import Verif.Text.Csv
import Verif.Props.CsvText
import Verif.Text.Json
import Verif.Props.JsonText
import Verif.Text.InstanceFile
import Verif.Props.InstanceText
import Verif.Jssp.Logs
import Verif.Props.JsspLogs
import Verif.Ga.NewBlood
import Verif.Jssp.SameView
import Verif.Props.JsspConverge
import Verif.Props.Waiting
import Verif.Props.Anytime
import Verif.Props.Again
import Verif.Props.Numbering
import Verif.Props.FreshTimes
import Verif.Props.FfNumbering
import Verif.Props.LocusNumbering
import Verif.Props.PopulationOrder
import Verif.Props.JsspGuarantee
import Verif.Props.BlackBox
import Verif.Props.SwarmBlackBox
