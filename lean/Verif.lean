import Verif.Py
import Verif.Tac
import Verif.Spec.Unimodal
import Verif.Unimodal.Model
import Verif.Unimodal.Lemmas
import Verif.Unimodal.Fit
import Verif.Unimodal.Split
import Verif.Unimodal.Rounding
import Verif.Unimodal.AnyRounding
import Verif.Unimodal.RoundExact
import Verif.Props.Unimodal
import Verif.Props.UnimodalInt
import Verif.Props.UnimodalFloat
import Verif.CMF.NP
import Verif.CMF.Model
import Verif.Spec.CMF
import Verif.CMF.Validate
import Verif.CMF.Convert
import Verif.CMF.Random
import Verif.Props.CMF
import Verif.Props.CMFConv
import Verif.Props.Random
import Verif.Spec.Prox
import Verif.Penalties.Model
import Verif.Penalties.Geometry
import Verif.Penalties.Elementwise
import Verif.Penalties.Simplex
import Verif.Penalties.GenL2
import Verif.Penalties.TV
import Verif.Props.Penalties
import Verif.Props.Simplex
import Verif.Props.GenL2
import Verif.Props.TV
import Verif.Props.Parafac2
import Verif.Spec.Objective
import Verif.ADMM.Model
import Verif.ADMM.Abstract
import Verif.ADMM.Periodic
import Verif.ADMM.Limit
import Verif.ADMM.LimitModes
import Verif.ADMM.LeastSquares
import Verif.ADMM.Modes
import Verif.ADMM.Steps
import Verif.ADMM.Contracts
import Verif.ADMM.Converge
import Verif.Props.ADMMStep
import Verif.Props.ADMMConv
import Verif.Props.InnerLoop
import Verif.Penalties.SVDExists
import Verif.ADMM.Concrete
import Verif.Props.ADMMExamples
import Verif.ADMM.ErrorModel
import Verif.Props.Diagnostics
import Verif.Loop.Model
import Verif.Loop.Lemmas
import Verif.Props.Loop
import Verif.Props.LoopObjective
import Verif.Loop.Scalar
import Verif.Props.LoopStop
import Verif.Props.LoopFalse
import Verif.Penalties.UnimodalPen
import Verif.Props.LoopFeasible
import Verif.Loop.Init
import Verif.Props.LoopInit
import Verif.Penalties.Init
import Verif.Props.PenInit
import Verif.Props.LoopWarm
import Verif.Props.Mro
import Verif.Props.Cache
import Verif.Props.Simulated
import Verif.Parse.Model
import Verif.Parse.Heap
import Verif.Parse.Result
import Verif.Parse.Call
import Verif.Parse.Front
import Verif.Props.ParseRegs
import Verif.Props.ParseArgs
import Verif.Props.ParseMeaning
import Verif.Props.ParseCall
import Verif.Props.ParseFront
import Verif.Alias.Model
import Verif.Alias.Frame
import Verif.Alias.Steps
import Verif.Alias.Steps2
import Verif.Alias.Refine
import Verif.Props.Alias
import Verif.Alias.Trace
import Verif.Alias.TraceLemmas
import Verif.Alias.TraceFrame
import Verif.Props.AliasRaise
import Verif.Props.LoopExamples
import Verif.Whole.Model
import Verif.Whole.Run
import Verif.Props.WholeFeasible
import Verif.Props.WholeLoss
import Verif.Props.WholeReturns
import Verif.Props.WholeExamples
import Verif.Props.WholeStart
import Verif.Props.WholeSolve
import Verif.ADMM.Saddle
import Verif.ADMM.SaddleModes
import Verif.Props.LoopSolve
import Verif.Props.LoopFixed
import Verif.Props.LoopLimit
import Verif.Examples.CustomPenalty
import Verif.Props.CustomPenalty
import Verif.Examples.Select
import Verif.Props.Select
import Verif.Examples.Order
import Verif.Props.Order
import Verif.Data.Etch
import Verif.Props.Etch
import Verif.CMF.Object
import Verif.CMF.Initialize
import Verif.Props.CMFObject
import Verif.Props.Initialize
import Verif.Props.InitRefine
import Verif.Loop.Print
import Verif.Loop.Return
import Verif.Props.LoopPrint
import Verif.Mro.Classes
import Verif.Props.Classes
import Verif.Props.PenaltyLaws
import Verif.Props.LoopSimplex
import Verif.Props.LoopStops
import Verif.Props.WholeStops
import Verif.Props.LoopBound
import Verif.Props.WholeBound
import Verif.Props.WholeLowRank
import Verif.Props.WholeLasso
import Verif.Props.WholeBox
import Verif.Props.WholeBall
import Verif.Props.WholeTV
import Verif.Props.WholeGenL2
import Verif.Props.LoopRidge
import Verif.Props.WholeRidge
import Verif.Props.RandomDraws
import Verif.Props.Utils
import Verif.Props.Divisors
import Verif.Loop.Continue
import Verif.Loop.Container
import Verif.Repr.Model
import Verif.Loop.Transform
import Verif.Props.LoopContinue
import Verif.Props.LoopPerm
import Verif.Props.LoopLocal
import Verif.Props.LoopColumns
import Verif.Props.LoopExact
import Verif.Props.LoopExplained
import Verif.Spec.LowRank
import Verif.Props.LoopLowRank
import Verif.Props.LoopLasso
import Verif.Props.LoopBox
import Verif.Props.LoopBall
import Verif.Props.LoopTV
import Verif.Props.LoopGenL2
import Verif.Props.LoopStationary
import Verif.Props.LoopKKT
import Verif.Props.LoopSparse
import Verif.Props.LoopEnergy
import Verif.Props.LoopSvd
import Verif.Props.LoopRegs
import Verif.Props.LoopIso
import Verif.Props.LoopLabels
import Verif.Props.LoopSymmetry
import Verif.Props.LoopUnits
import Verif.Raise.Model
import Verif.Raise.Lemmas
import Verif.Props.Raise
import Verif.Dtype.Model
import Verif.Dtype.Loop
import Verif.Props.DtypeTensor
import Verif.Props.DtypeLoop
import Verif.FloatFit.Model
import Verif.Props.FloatFit
import Verif.Props.FloatExact
import Verif.FloatFit.Full
import Verif.Props.FloatDiag
import Verif.Props.FloatRun
import Verif.Props.FloatExactDiag
import Verif.Props.DocObjective
import Verif.Props.DocStop
import Verif.Kit.Model
import Verif.Props.Kit
import Verif.Props.LoopBalance
import Verif.Penalties.P2Any
import Verif.Props.Parafac2Short
import Verif.Shapes.Model
import Verif.Shapes.Kinds
import Verif.Props.Shapes
import Verif.Props.ShapesRank
import Verif.Props.ShapesKinds
import Verif.Props.Indeterminacy
import Verif.Unimodal.Steps
import Verif.Shapes.Cost
import Verif.Props.Linear
import Verif.ADMM.Rate
import Verif.ADMM.RateModes
import Verif.Props.ADMMRate
import Verif.Props.InnerStops
import Verif.Props.LoopRate
import Verif.Props.Unchecked
import Verif.Props.Parafac2Unique
import Verif.Props.Recovery
import Verif.Props.GapDoc
import Verif.Props.Container
import Verif.Props.Repr
import Verif.Props.NormAll
