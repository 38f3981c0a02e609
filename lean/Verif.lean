import Verif.Props.TrackManagement
import Verif.Props.Scoring
import Verif.Props.Matching
import Verif.Props.Angle
import Verif.Props.Motion
import Verif.Props.Distance
import Verif.Props.Rounding
import Verif.Props.Augmented
import Verif.Props.Uuid
import Verif.Props.Clustering
import Verif.Props.Fusing
import Verif.Props.Ukf
import Verif.Props.Json
import Verif.Props.Pipeline
import Verif.Props.Objects
import Verif.Props.Ieee
import Verif.Props.Frames
import Verif.Props.Mirror
import Verif.Props.Order
import Verif.Props.Lifetime
import Verif.Props.Information
import Verif.Props.LinearPart
import Verif.Props.FloatPose
import Verif.Props.FloatRound
import Verif.Props.FloatAngle
import Verif.Props.FloatMotion
import Verif.Props.FloatCtra
import Verif.Props.FloatNoise
import Verif.Props.NoiseEffects
import Verif.Props.FloatUt
import Verif.Props.FloatSums
import Verif.Props.Indefinite
import Verif.Props.Swap
import Verif.Props.CostRange
import Verif.Props.Print
import Verif.Props.FloatPredict
import Verif.Spec.FloatPredict
import Verif.Proofs.FloatMean
import Verif.Proofs.FloatHeading
import Verif.Props.FloatExact
import Verif.Props.FloatExactCtra
import Verif.Props.FloatExactExample
import Verif.Proofs.HeadingCut
import Verif.Props.HeadingCut
import Verif.Model.FloatMahalanobis
import Verif.Spec.FloatMahalanobis
import Verif.Proofs.FloatMahalanobis
import Verif.Proofs.FloatInverse
import Verif.Proofs.FloatDiagonal
import Verif.Props.FloatMahalanobis
import Verif.Props.FloatInverse
import Verif.Model.FloatFusing
import Verif.Spec.FloatFusing
import Verif.Proofs.FloatFusing
import Verif.Proofs.FloatCi
import Verif.Props.FloatFusing
import Verif.Props.FloatCi
import Verif.Model.FloatClustering
import Verif.Spec.FloatClustering
import Verif.Proofs.FloatClustering
import Verif.Proofs.FloatClusterHeading
import Verif.Props.FloatClustering
import Verif.Proofs.Cycle
import Verif.Spec.Period
import Verif.Proofs.Period
import Verif.Props.Period
import Verif.Spec.FloatPipeline
import Verif.Proofs.FloatPipeline
import Verif.Props.FloatPipeline
import Verif.Spec.Identity
import Verif.Proofs.Identity
import Verif.Props.Identity
import Verif.Model.FloatTime
import Verif.Spec.FloatTime
import Verif.Proofs.FloatTime
import Verif.Props.FloatTime
import Verif.Model.FloatEq
import Verif.Spec.FloatEq
import Verif.Proofs.FloatEq
import Verif.Props.FloatEq
import Verif.Checks.Interval
import Verif.Checks.TestTracking
import Verif.Checks.TestStates
import Verif.Checks.TestScoring
import Verif.Checks.TestJson
import Verif.Checks.IntervalUkf
import Verif.Checks.TestUkf
import Verif.Checks.IntervalCtra
import Verif.Checks.TestUkfCtra
import Verif.Checks.TestFusing
import Verif.Checks.TestUt
import Verif.Model.PrintNumber
import Verif.Spec.PrintNumber
import Verif.Proofs.PrintNumber
import Verif.Proofs.PrintText
import Verif.Props.PrintNumber
import Verif.Spec.Converge
import Verif.Proofs.Converge
import Verif.Proofs.ConvergeHeading
import Verif.Props.Converge
import Verif.Spec.Doubling
import Verif.Proofs.Doubling
import Verif.Props.Doubling
import Verif.Proofs.Compromise
import Verif.Props.Compromise
import Verif.Props.Bounded
import Verif.Model.FloatState
import Verif.Spec.FloatState
import Verif.Proofs.FloatState
import Verif.Props.FloatState
import Verif.Spec.TimeFrames
import Verif.Proofs.TimeFrames
import Verif.Props.TimeFrames
import Verif.Proofs.Displacement
import Verif.Proofs.TwoSteps
import Verif.Proofs.Singular
import Verif.Props.Singular
import Verif.Props.Displacement
import Verif.Model.Solver
import Verif.Proofs.Solver
import Verif.Props.Solver
import Verif.Checks.TestSolver
import Verif.Spec.Crowd
import Verif.Proofs.Crowd
import Verif.Props.Crowd
import Verif.Props.Stable
import Verif.Model.Llt
import Verif.Spec.Llt
import Verif.Proofs.Llt
import Verif.Props.Llt
import Verif.Model.FloatLlt
import Verif.Spec.FloatLlt
import Verif.Proofs.LltMargin
import Verif.Proofs.FloatLlt
import Verif.Proofs.FloatLltCases
import Verif.Props.FloatLlt
import Verif.Spec.FloatCovariance
import Verif.Proofs.FloatCovariance
import Verif.Props.FloatCovariance
import Verif.Spec.Thresholds
import Verif.Proofs.Thresholds
import Verif.Props.Thresholds
import Verif.Spec.FloatSigma
import Verif.Proofs.FloatSigma
import Verif.Props.FloatSigma
import Verif.Proofs.Sensitivity
import Verif.Props.Sensitivity
import Verif.Proofs.Growth
import Verif.Props.Growth
import Verif.Spec.FloatPeriod
import Verif.Props.FloatPeriod
import Verif.Spec.FloatBounds
import Verif.Proofs.FloatBounds
import Verif.Props.FloatBounds
import Verif.Spec.Covers
import Verif.Proofs.Covers
import Verif.Proofs.CoversCtra
import Verif.Props.Covers
import Verif.Props.CoversCtra
import Verif.Props.CoversPosition
import Verif.Spec.Gate
import Verif.Props.Gate
import Verif.Props.StatGate
import Verif.Spec.StatGate
import Verif.Props.StatAssociation
