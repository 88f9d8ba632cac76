import Verif.Model.Py
import Verif.Model.Population
import Verif.Model.Crossover
import Verif.Model.Mutation
import Verif.Model.Penalty
import Verif.Model.Fitness
import Verif.Model.Selection
import Verif.Model.NewGeneration
import Verif.Model.Data
import Verif.Model.Run
import Verif.Model.Advanced
import Verif.Model.FillAgain
import Verif.Model.InPlace
import Verif.Model.Offspring
import Verif.Model.Refill
import Verif.Spec.Chance
import Verif.Spec.Coding
import Verif.Spec.Fitness
import Verif.Spec.Float
import Verif.Spec.Mean
import Verif.Spec.Mutation
import Verif.Spec.Own
import Verif.Spec.Pareto
import Verif.Spec.Penalty
import Verif.Spec.Population
import Verif.Spec.Reach
import Verif.Spec.Run
import Verif.Spec.RunRank
import Verif.Spec.Selection
import Verif.Proofs.AnySelection
import Verif.Proofs.Chance
import Verif.Proofs.Clones
import Verif.Proofs.Coding
import Verif.Proofs.Crossover
import Verif.Proofs.Exact
import Verif.Proofs.Facade
import Verif.Proofs.Fill
import Verif.Proofs.Fitness
import Verif.Proofs.Float
import Verif.Proofs.FloatRun
import Verif.Proofs.FloatWheel
import Verif.Proofs.Frame
import Verif.Proofs.Generation
import Verif.Proofs.History
import Verif.Proofs.Hom
import Verif.Proofs.HomRun
import Verif.Proofs.Image
import Verif.Proofs.ImageRanked
import Verif.Proofs.ImageRun
import Verif.Proofs.InPlace
import Verif.Proofs.Individ
import Verif.Proofs.Keeps
import Verif.Proofs.Live
import Verif.Proofs.LiveMulti
import Verif.Proofs.Liveness
import Verif.Proofs.Monad
import Verif.Proofs.Multi
import Verif.Proofs.MultiRun
import Verif.Proofs.Mutation
import Verif.Proofs.NewGeneration
import Verif.Proofs.Own
import Verif.Proofs.Pareto
import Verif.Proofs.Penalty
import Verif.Proofs.Ranked
import Verif.Proofs.Reach
import Verif.Proofs.Roulette
import Verif.Proofs.Run
import Verif.Proofs.RunRankSpec
import Verif.Proofs.RunRanks
import Verif.Proofs.Safe
import Verif.Proofs.SafeEvolve
import Verif.Proofs.SafeMulti
import Verif.Proofs.SafeMultiRun
import Verif.Proofs.SafeRanked
import Verif.Proofs.SafeRun
import Verif.Proofs.SafeVega
import Verif.Proofs.SafeWheel
import Verif.Proofs.Selection
import Verif.Proofs.Sentinel
import Verif.Proofs.Sort
import Verif.Proofs.Strike
import Verif.Proofs.StrikeMulti
import Verif.Proofs.Sure
import Verif.Proofs.SureMulti
import Verif.Proofs.SureWheel
import Verif.Proofs.Tame
import Verif.Proofs.Touch
import Verif.Proofs.TwoBranch
import Verif.Proofs.Update
import Verif.Proofs.Vega
import Verif.Proofs.Walk
import Verif.Props.Advanced
import Verif.Props.Again
import Verif.Props.AlmostSure
import Verif.Props.Anytime
import Verif.Props.Assembled
import Verif.Props.ByHand
import Verif.Props.Chances
import Verif.Props.Coding
import Verif.Props.Connected
import Verif.Props.Convergence
import Verif.Props.Crash
import Verif.Props.Crossover
import Verif.Props.Expected
import Verif.Props.ExpectedTours
import Verif.Props.FailFast
import Verif.Props.FillAgain
import Verif.Props.Fitness
import Verif.Props.Float
import Verif.Props.Genotypes
import Verif.Props.HandConvergence
import Verif.Props.HandSure
import Verif.Props.HandTours
import Verif.Props.Honoured
import Verif.Props.InPlace
import Verif.Props.Independent
import Verif.Props.Invariance
import Verif.Props.Ledger
import Verif.Props.Linkage
import Verif.Props.Liveness
import Verif.Props.Locality
import Verif.Props.Lost
import Verif.Props.MachineRuns
import Verif.Props.Matching
import Verif.Props.Modes
import Verif.Props.Multi
import Verif.Props.MultiAssembled
import Verif.Props.MultiLedger
import Verif.Props.MultiLiveness
import Verif.Props.MultiNoCrash
import Verif.Props.MultiRuns
import Verif.Props.MultiSure
import Verif.Props.Mutation
import Verif.Props.Neighbourhood
import Verif.Props.NoCrash
import Verif.Props.Objectives
import Verif.Props.Offspring
import Verif.Props.OneFlip
import Verif.Props.Optimum
import Verif.Props.Own
import Verif.Props.ParetoConvergence
import Verif.Props.Penalty
import Verif.Props.PenaltyFloat
import Verif.Props.Population
import Verif.Props.Pressure
import Verif.Props.Reach
import Verif.Props.Refill
import Verif.Props.Repeat
import Verif.Props.Respect
import Verif.Props.Restart
import Verif.Props.Resume
import Verif.Props.Run
import Verif.Props.RunRanks
import Verif.Props.Seed
import Verif.Props.Selection
import Verif.Props.Sentinel
import Verif.Props.Survivors
import Verif.Props.Tours
import Verif.Props.VegaSelection
import Verif.Props.Words
