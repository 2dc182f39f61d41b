import Verif.Model.Arr
import Verif.Model.CuttingPlane
import Verif.Model.EllCalc
import Verif.Model.Ell
import Verif.Model.EllStable
import Verif.Props.Loops
import Verif.Props.LoopsExamples
import Verif.Props.Bsearch
import Verif.Props.EllGeneric
import Verif.Props.ArrProps
import Verif.Props.EllReal
import Verif.Props.EllReal2
import Verif.Props.EllRealExamples
import Verif.Props.Converge
import Verif.Props.ConvergeExamples
import Verif.Props.LdltProps
import Verif.Props.LmiProps
import Verif.Props.LmiRate
import Verif.Props.LmiExamples
import Verif.Props.ConjGradProps
import Verif.Props.PowerProps
import Verif.Props.PowerConverge
import Verif.Props.Solve
import Verif.Props.QcvxProps
import Verif.Props.ExampleProps
import Verif.Model.Maxcut
import Verif.Model.Svm
import Verif.Model.Profit
import Verif.Model.Lowpass
import Verif.FloatTests
import Verif.Props.SolveExamples
import Verif.Props.ProfitProps
import Verif.Props.ProfitRbProps
import Verif.Props.ProfitQProps
import Verif.Props.SolveSmooth
import Verif.Props.ProfitSolve
import Verif.Props.ProfitExamples
import Verif.Props.SvmProps
import Verif.Props.SvmSolve
import Verif.Props.MaxcutProps
import Verif.Props.SvmExamples
import Verif.Props.LowpassProps
import Verif.Props.LowpassSolve
import Verif.Props.LowpassExamples
import Verif.Props.StableProps
import Verif.Props.StableWrong
import Verif.Props.StableExamples
import Verif.Props.BsearchSolve
import Verif.Props.AdaptorEll
import Verif.Props.Adaptor1D
import Verif.Lib.MinVolume
import Verif.Lib.StratOpt
import Verif.Lib.Volume
import Verif.Props.MinVolumeProps
import Verif.Spec.Affine
import Verif.Lib.LoopSim
import Verif.Lib.ScaleCut
import Verif.Props.Invariance
import Verif.Spec.Checked
import Verif.Lib.Checked
import Verif.Props.CheckedProps
import Verif.Props.CheckedExamples
import Verif.Lib.StepQ
import Verif.Props.OptimQ
import Verif.Props.OptimQExamples
import Verif.Spec.Rounded
import Verif.Lib.Rounded
import Verif.Lib.Bin53
import Verif.Props.RoundedProps
import Verif.Props.RoundedExamples
import Verif.Props.RoundedLoss
import Verif.Props.Rate
import Verif.Props.RateExamples
import Verif.Model.TestOracles
import Verif.Spec.Quadratic
import Verif.Props.GoalLoop
import Verif.Props.QuadProps
import Verif.Props.QuadExamples
import Verif.Spec.MyLmi
import Verif.Props.MyLmiProps
import Verif.Spec.Portfolio
import Verif.Props.PortfolioProps
import Verif.Props.PortfolioSolve
import Verif.Spec.CheckedOracles
import Verif.Lib.CheckedArr
import Verif.Lib.CheckedLdlt
import Verif.Lib.CheckedNum
import Verif.Lib.CheckedOracles
import Verif.Props.CheckedOracleProps
import Verif.Props.CheckedOracleExamples
import Verif.Props.Certificates
import Verif.Props.CertificateExamples
import Verif.Spec.Termination
import Verif.Lib.DetMono
import Verif.Lib.StepPotential
import Verif.Props.Termination
import Verif.Props.TerminationExamples
import Verif.Spec.PowerSeq
import Verif.Lib.PowerSeq
import Verif.Lib.PowerRate
import Verif.Lib.PowerSettle
import Verif.Props.PowerDominant
import Verif.Props.PowerDominantExamples
import Verif.Spec.SemiBlocks
import Verif.Props.LdltSemi
import Verif.Props.StableRun
import Verif.Spec.Krylov
import Verif.Lib.Krylov
import Verif.Lib.KrylovRate
import Verif.Props.CgKrylov
import Verif.Props.CgKrylovExamples
import Verif.Props.NanEll
import Verif.Props.NanLmi
import Verif.Props.NanNum
import Verif.Props.NanOracles
import Verif.Props.NanRuns
import Verif.Props.NanExamples
import Verif.Spec.Nan
import Verif.Lib.NanLemmas
import Verif.Lib.NanLdlt
import Verif.Spec.RoundedLmi
import Verif.Lib.LdltGeneric
import Verif.Lib.LdltErr
import Verif.Lib.LdltFl
import Verif.Lib.LdltFlOps
import Verif.Props.RoundedLdlt
import Verif.Props.RoundedLmi
import Verif.Props.RoundedLmiCut
import Verif.Props.RoundedLmiExamples
import Verif.Spec.TestProblems
import Verif.Props.NoSolnComplete
import Verif.Props.TestOracleProps
import Verif.Props.TestOracleExamples
import Verif.Spec.InfStart
import Verif.Lib.ClosedOps
import Verif.Props.InfStart
import Verif.Props.InfOracles
import Verif.Props.InfRuns
import Verif.Props.InfExamples
import Verif.Spec.RoundedOracle
import Verif.Lib.StableShape
import Verif.Props.StableShapes
import Verif.Props.RoundedPlane
import Verif.Props.RoundedPlaneExamples
import Verif.Spec.RoundedLowpass
import Verif.Props.RoundedLowpass
import Verif.Props.RoundedLowpassRuns
import Verif.Props.RoundedLowpassExamples
import Verif.Spec.OneDim
import Verif.Lib.OneDimLemmas
import Verif.Props.OneDim
import Verif.Props.OneDimExamples
import Verif.Model.CpTests
import Verif.Spec.Repeat
import Verif.Spec.CpTests
import Verif.Lib.RepeatLemmas
import Verif.Props.RepeatProps
import Verif.Props.CpTestsProps
import Verif.Props.CpTestsRuns
import Verif.Props.CpTestsRuns2
import Verif.Props.QuickcheckProps
import Verif.Spec.RoundedSvm
import Verif.Props.RoundedSvm
import Verif.Props.RoundedSvmExamples
import Verif.Spec.RoundedMaxcut
import Verif.Props.RoundedMaxcut
import Verif.Props.RoundedMaxcutExamples
import Verif.Spec.RoundedProfit
import Verif.Props.RoundedProfit
import Verif.Props.RoundedProfitExamples
import Verif.Props.DiscreteRuns
import Verif.Spec.StableFl
import Verif.Lib.StableFl
import Verif.Lib.Near
import Verif.Lib.StableNear
import Verif.Props.StableRounded
import Verif.Props.StableRoundedExamples
import Verif.Spec.RoundedPower
import Verif.Lib.PowerFl
import Verif.Lib.PowerFlMath
import Verif.Props.RoundedPower
import Verif.Props.RoundedPowerExamples
import Verif.Spec.CgIter
import Verif.Lib.CgFl
import Verif.Props.CgIterates
import Verif.Props.CgRounded
import Verif.Props.CgRoundedExamples
import Verif.Lib.Rnd64
import Verif.Spec.Binary64
import Verif.Lib.Binary64
import Verif.Props.Binary64Ell
import Verif.Props.Binary64Huge
import Verif.Props.Binary64Examples
import Verif.Props.Binary64Stable
import Verif.Props.Binary64Range
import Verif.Props.Binary64Num
import Verif.Props.Binary64NumExamples
import Verif.Model.Ell1D
import Verif.Props.Ell1DProps
import Verif.Model.SpectralFact
import Verif.Props.SpectralProps
import Verif.Spec.RoundedCut
import Verif.Lib.Inflate
import Verif.Lib.CutFl
import Verif.Lib.CutFlStep
import Verif.Props.RoundedCut
import Verif.Props.RoundedDeepCut
import Verif.Props.RoundedCutExamples
import Verif.Spec.RoundedConverge
import Verif.Lib.FlConverge
import Verif.Lib.BinP
import Verif.Props.RoundedConverge
import Verif.Props.RoundedPrecision
import Verif.Props.RoundedConvergeF64
import Verif.Props.RoundedConvergeExamples
import Verif.Spec.RoundedOptim
import Verif.Lib.AnyCut
import Verif.Props.RoundedDefer
import Verif.Props.RoundedOptim
import Verif.Props.RoundedSolve
import Verif.Props.RoundedOptimF64
import Verif.Model.Error
import Verif.Props.ErrorProps
import Verif.Spec.RoundedBsearch
import Verif.Props.RoundedBsearch
import Verif.Props.RoundedBsearchSolve
import Verif.Props.RoundedMargin
import Verif.Props.RoundedLmiConverge
import Verif.Props.RoundedLmiConvergeExamples
import Verif.Spec.Binary64Run
import Verif.Lib.Same64
import Verif.Lib.Pw64
import Verif.Props.Binary64Run
import Verif.Props.Binary64RunExamples
import Verif.Spec.RoundedParallel
import Verif.Lib.SlabFl
import Verif.Lib.SlabExact
import Verif.Lib.SlabStep
import Verif.Lib.SlabCore
import Verif.Lib.SlabAny
import Verif.Lib.DeepAny
import Verif.Props.RoundedParallel
import Verif.Props.RoundedParallelLowpass
import Verif.Props.RoundedParallelExamples
import Verif.Lib.SlabCentral
import Verif.Props.RoundedParallelOptim
import Verif.Lib.PowerPsd
import Verif.Props.PowerPsd
import Verif.Props.RoundedSvmConverge
import Verif.Lib.Approx
import Verif.Lib.ProfitFl
import Verif.Lib.ProfitFlAccept
import Verif.Lib.ProfitFlQuery
import Verif.Props.RoundedDrift
import Verif.Props.RoundedProfitSolve
import Verif.Lib.CgHigh
import Verif.Props.CgHighPrecision
import Verif.Props.CgHighExamples
import Verif.Spec.PowerIter
import Verif.Props.PowerIterates
import Verif.Lib.PowerHigh
import Verif.Props.PowerHighPrecision
import Verif.Props.PowerHighExamples
import Verif.Model.SpectralFactFft
import Verif.Props.SpectralFactProps
import Verif.Lib.QcvxFl
import Verif.Props.RoundedQcvx
import Verif.Props.Instances
import Verif.Props.RoundedSolveRr
import Verif.Props.RoundedMyLmi
import Verif.Props.PortfolioRounded
import Verif.Lib.Bsearch64
import Verif.Props.Binary64Bsearch
import Verif.Spec.Binary64RunQ
import Verif.Props.Binary64RunQ
import Verif.Spec.Binary64Iter
import Verif.Lib.Iter64
import Verif.Props.Binary64Cg
import Verif.Props.Binary64CgExamples
import Verif.Props.Binary64Power
import Verif.Props.Binary64PowerExamples
import Verif.Spec.Binary64Lmi
import Verif.Lib.Lmi64
import Verif.Props.Binary64Lmi
import Verif.Props.Binary64LmiExamples
import Verif.Spec.StableRun64
import Verif.Lib.StableGeneric
import Verif.Lib.StableSame64
import Verif.Props.Binary64StableRun
import Verif.Props.Binary64StableRunExamples
import Verif.Spec.Oracles64
import Verif.Lib.Oracles64
import Verif.Props.Oracles64
import Verif.Props.Oracles64Svm
import Verif.Props.Oracles64Runs
import Verif.Props.Oracles64Examples
import Verif.Props.Oracles64StableExamples
import Verif.Spec.Maxcut64
import Verif.Lib.Maxcut64
import Verif.Props.Maxcut64
import Verif.Props.Maxcut64Examples
import Verif.Spec.Profit64
import Verif.Lib.ExpLog64
import Verif.Lib.Profit64
import Verif.Props.Profit64
import Verif.Props.Profit64Q
import Verif.Props.Profit64Examples
import Verif.Spec.Svm64
import Verif.Lib.Order64
import Verif.Props.Svm64
import Verif.Props.Svm64Examples
import Verif.Spec.Lowpass64
import Verif.Props.Lowpass64
import Verif.Props.Lowpass64Runs
import Verif.Props.Lowpass64New
import Verif.Props.Lowpass64Examples
import Verif.Spec.Portfolio64
import Verif.Props.Portfolio64
import Verif.Props.Portfolio64Runs
import Verif.Props.Portfolio64Examples
import Verif.Spec.Quasicvx64
import Verif.Props.Quasicvx64
import Verif.Props.Quasicvx64Examples
import Verif.Spec.Lmi64
import Verif.Props.Lmi64
import Verif.Props.Lmi64Examples
import Verif.Spec.Lmi064
import Verif.Props.Lmi064
import Verif.Props.Lmi064Examples
