import Verif.Num.FloatOps
import Verif.Num.Fl
import Verif.Num.Ieee
import Verif.Num.Real
import Verif.Num.FlSign
import Verif.Model.Basic
import Verif.Model.Optimizer
import Verif.Model.Solvers
import Verif.Model.Output
import Verif.Model.Cost
import Verif.Model.MathH
import Verif.Model.Params
import Verif.Lemmas.Step
import Verif.Lemmas.Loop
import Verif.Lemmas.Total
import Verif.Lemmas.Sim
import Verif.Lemmas.RunInv
import Verif.Lemmas.Benign
import Verif.Lemmas.Solvers
import Verif.Lemmas.Reuse
import Verif.Lemmas.RealLin
import Verif.Lemmas.Works
import Verif.Examples.Toy
import Verif.Examples.Solver1
import Verif.Props.Termination
import Verif.Props.History
import Verif.Props.Position
import Verif.Props.Stopping
import Verif.Props.Limits
import Verif.Props.Control
import Verif.Props.Callbacks
import Verif.Props.Failures
import Verif.Props.Reuse
import Verif.Props.Damping
import Verif.Props.System
import Verif.Props.LmSystem
import Verif.Props.Descent
import Verif.Props.LinearLS
import Verif.Props.OutputStats
import Verif.Props.CostCount
import Verif.Props.MathHelpers
import Verif.Props.ParamUpdate
import Verif.Model.Dispatch
import Verif.Props.DispatchProps
import Verif.Model.Losses
import Verif.Lemmas.Calc
import Verif.Props.RobustLosses
import Verif.Props.Norms
import Verif.Props.Activations
import Verif.Props.Mahalanobis
import Verif.Model.NumDiff
import Verif.Model.Jet
import Verif.Model.AutoDiff
import Verif.Props.NumDiffProps
import Verif.Props.JetProps
import Verif.Props.DynJetProps
import Verif.Props.AutoDiffProps
import Verif.Lemmas.CallLog
import Verif.Props.Hooks
import Verif.Num.Round
import Verif.Props.Rollback
import Verif.Props.CostScaling
import Verif.Props.DampingFloat
import Verif.Props.Integrated
import Verif.Props.GradientDescent
import Verif.Lemmas.Hom
import Verif.Model.Sparse
import Verif.Props.SparseProps
import Verif.Model.Log
import Verif.Props.LogProps
import Verif.Props.Indefinite
import Verif.Props.ReportedCost
import Verif.Props.LmRate
import Verif.Props.FiniteX
import Verif.Model.ClassifFl
import Verif.Props.SoftmaxFloat
import Verif.Lemmas.DescentRun
import Verif.Props.GnQuadratic
import Verif.Props.LmNonlin
import Verif.Model.Seed
import Verif.Props.AutoDiffTypes
import Verif.Model.Prog
import Verif.Props.ProgAD
import Verif.Props.LmGlobal
import Verif.Props.FullRuns
import Verif.Lemmas.QuietRun
import Verif.Lemmas.CoSim
import Verif.Props.Invariance
import Verif.Props.SizeKind
import Verif.Model.NumDiffFl
import Verif.Lemmas.NumDiffFl
import Verif.Props.NumDiffFloat
import Verif.Props.NoResiduals
import Verif.Model.Time
import Verif.Lemmas.QuadRun
import Verif.Props.RobustRun
import Verif.Props.RealTime
import Verif.Lemmas.StopRun
import Verif.Lemmas.QuadStop
import Verif.Props.Sqrt
import Verif.Model.Format
import Verif.Props.Format
import Verif.Props.Converged
import Verif.Props.StationaryStart
import Verif.Lemmas.RunSim
import Verif.Lemmas.Twin
import Verif.Props.Units
import Verif.Props.Lie
import Verif.Props.LiePrior
import Verif.Lemmas.Lie
import Verif.Model.Lie
import Verif.Props.Covariance
import Verif.Props.Stuck
import Verif.Props.Recover
import Verif.Props.SqrtFloat
import Verif.Props.Prefix
import Verif.Lemmas.Local
import Verif.Props.Outliers
import Verif.Props.Retry
import Verif.Props.Circle
import Verif.Model.SoftmaxScalar
import Verif.Props.SoftmaxScalar
import Verif.Props.Kernel
import Verif.Props.Prior
import Verif.Props.Powers
import Verif.Props.JetLimits
import Verif.Model.JetLimits
import Verif.Props.SparseLog
import Verif.Props.RankDef
import Verif.Props.EigenLDLT
import Verif.Lemmas.Pad
import Verif.Props.Unused
import Verif.Props.NestedJet
import Verif.Model.NestedJet
import Verif.Props.Newton
import Verif.Lemmas.Bowl
import Verif.Props.JetTypes
import Verif.Model.JetTypes
import Verif.Props.JetMax
import Verif.Model.JetMax
import Verif.Props.SimplicialLDLT
import Verif.Model.SimplicialLDLT
import Verif.Props.CostOrder
import Verif.Props.LieQuat
import Verif.Props.GdConvex
import Verif.Num.Rounded
import Verif.Num.RoundedBin
import Verif.Lemmas.LdltRound
import Verif.Lemmas.LdltRoundGo
import Verif.Lemmas.LdltRoundSolve
import Verif.Lemmas.RunIndexed
import Verif.Props.LdltFloat
import Verif.Props.LmFloat
import Verif.Props.LdltIeee
import Verif.Model.Defaults
import Verif.Lemmas.Tries
import Verif.Props.Defaults
import Verif.Model.EigenLLT
import Verif.Lemmas.Llt
import Verif.Lemmas.LltRound
import Verif.Props.EigenLLT
import Verif.Props.LltFloat
import Verif.Props.DampingLimits
import Verif.Lemmas.Convergent
import Verif.Props.GdRuns
import Verif.Lemmas.Contracting
import Verif.Props.LsRuns
import Verif.Lemmas.Double
import Verif.Props.FloatRun
import Verif.Props.FloatGn
import Verif.Props.FloatGd
import Verif.Props.TestDerivs
import Verif.Lemmas.LdltDiag
import Verif.Lemmas.SumDouble
import Verif.Props.FloatGnN
import Verif.Model.Mixed
import Verif.Lemmas.Mixed
import Verif.Lemmas.MixedFl
import Verif.Props.SinglePrec
import Verif.Model.RobustFl
import Verif.Lemmas.SqrtProd
import Verif.Props.RobustFloat
import Verif.Model.ActivFl
import Verif.Props.ActivFloat
import Verif.Model.NormsFl
import Verif.Lemmas.SqrtSquare
import Verif.Props.NormsFloat
import Verif.Model.MahaDist
import Verif.Props.MahaDist
import Verif.Lemmas.SqrtStep
import Verif.Props.SqrtLmDouble
import Verif.Model.PosixBessel
import Verif.Props.PosixBessel
import Verif.Props.FloatLmN
import Verif.Num.SignedZero
import Verif.Lemmas.NumHom
import Verif.Lemmas.NumSolvers
import Verif.Props.SignedZero
import Verif.Props.SignedRuns
import Verif.Model.JetSign
import Verif.Props.JetSign
import Verif.Model.Printing
import Verif.Props.Printing
import Verif.Model.Rectangle
import Verif.Props.Rectangle
import Verif.Model.Landscape
import Verif.Props.Landscape
import Verif.Props.LandscapeHard
import Verif.Props.LandscapeMore
import Verif.Props.NewtonTests
import Verif.Lemmas.FailedTries
import Verif.Props.GivesUp
import Verif.Model.PriorBench
import Verif.Props.PriorBench
import Verif.Model.SolverCalls
import Verif.Props.SolverCalls
import Verif.Model.SparseBench
import Verif.Lemmas.DiagRate
import Verif.Props.SparseBench
import Verif.Props.Forgot
