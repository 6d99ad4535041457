import Verif.Float.Flt
import Verif.Float.Ext
import Verif.Float.ExtLaws
import Verif.Float.Signed
import Verif.Float.Bin64
import Verif.Float.XR
import Verif.Model.Basic
import Verif.Model.Mode
import Verif.Model.Sampling
import Verif.Model.History
import Verif.Model.Options
import Verif.Model.Parameters
import Verif.Model.State
import Verif.Model.Termination
import Verif.Model.Plot
import Verif.Model.Cmaes
import Verif.Model.Functions
import Verif.Model.Restart
import Verif.Lemmas.Order
import Verif.Lemmas.Sampling
import Verif.Lemmas.CallOrder
import Verif.Lemmas.Sort
import Verif.Lemmas.Next
import Verif.Lemmas.Exec
import Verif.Lemmas.Invariant
import Verif.Lemmas.History
import Verif.Lemmas.Resample
import Verif.Lemmas.Simulation
import Verif.Lemmas.Parallel
import Verif.Lemmas.SearchSim
import Verif.Lemmas.Mirror
import Verif.Spec.Trace
import Verif.Spec.Resample
import Verif.Spec.Simulation
import Verif.Spec.Termination
import Verif.Witness
import Verif.Props.Accuracy
import Verif.Props.AccuracyNegative
import Verif.Props.Best
import Verif.Props.Counting
import Verif.Props.Sampling
import Verif.Props.Parallel
import Verif.Props.Invariance
import Verif.Props.Mirror
import Verif.Spec.Move
import Verif.Lemmas.Move
import Verif.Props.Move
import Verif.Lemmas.Check
import Verif.Lemmas.Range
import Verif.Lemmas.Run
import Verif.Props.Termination
import Verif.WitnessSqrt
import Verif.Props.History
import Verif.Props.Tolerance
import Verif.Props.TolX
import Verif.Spec.Options
import Verif.Props.Build
import Verif.Spec.Plot
import Verif.Lemmas.Plot
import Verif.Props.Plot
import Verif.Props.Print
import Verif.Float.XRLemmas
import Verif.Props.Covariance
import Verif.Props.NoPanic
import Verif.Props.Functions
import Verif.Spec.Restart
import Verif.Lemmas.Restart
import Verif.Props.Restart
import Verif.Props.RestartStrategy
import Verif.Props.RestartSetup
import Verif.Spec.Exact
import Verif.Spec.Generation
import Verif.Lemmas.ParamsReal
import Verif.Props.Params
import Verif.Lemmas.RealMat
import Verif.WitnessReal
import Verif.Lemmas.RealState
import Verif.Lemmas.RealPosDef
import Verif.Lemmas.RealExec
import Verif.Lemmas.RealInv
import Verif.Lemmas.RealStep
import Verif.Props.Exact
import Verif.Model.FormatNum
import Verif.Spec.Format
import Verif.Lemmas.Format
import Verif.Props.Format
import Verif.Model.Draw
import Verif.Spec.Draw
import Verif.Lemmas.Draw
import Verif.Lemmas.DrawPoints
import Verif.Props.Draw
import Verif.Spec.DrawAxes
import Verif.Lemmas.DrawAxes
import Verif.Props.DrawAxes
import Verif.Spec.Stream
import Verif.Props.Stream
import Verif.Spec.Defaults
import Verif.Props.Defaults
import Verif.Spec.RestartPrint
import Verif.Props.RestartPrint
import Verif.Model.PrintText
import Verif.Spec.PrintText
import Verif.Props.PrintText
import Verif.Lemmas.Twin
import Verif.Spec.Reproduce
import Verif.Lemmas.RestartSim
import Verif.Props.Reproduce
import Verif.Props.RestartParallel
import Verif.Props.MirrorOutcome
import Verif.Spec.RestartMirror
import Verif.Props.RestartMirror
import Verif.Spec.RestartMove
import Verif.Props.RestartMove
import Verif.Spec.Rotation
import Verif.Lemmas.Rotation
import Verif.Lemmas.RotationSample
import Verif.Lemmas.RotationStep
import Verif.Lemmas.RotationRun
import Verif.Props.Rotation
import Verif.Spec.Sane
import Verif.Float.ExtSign
import Verif.Props.Sane
import Verif.Props.SaneSigned
import Verif.Spec.Loop
import Verif.Props.Loop
import Verif.Spec.RestartDraws
import Verif.Props.RestartDraws
import Verif.Float.Rel
import Verif.Spec.Accuracy
import Verif.Lemmas.Accuracy
import Verif.Lemmas.AccuracyRates
import Verif.Lemmas.AccuracyDamp
import Verif.Lemmas.AccuracyWeights
import Verif.Lemmas.AccuracyNegative
import Verif.Props.Plateau
import Verif.Model.Unwind
import Verif.Spec.Unwind
import Verif.Props.Unwind
import Verif.Props.Feasible
import Verif.Props.Collapse
import Verif.Spec.Causal
import Verif.Lemmas.Causal
import Verif.Props.Causal
import Verif.Spec.Gaussian
import Verif.Props.Gaussian
import Verif.Props.Neutral
import Verif.Props.Descent
import Verif.Props.Downhill
import Verif.Props.Schedule
import Verif.Props.FirstFeasible
import Verif.Props.Conditional
import Verif.Props.MoveOutcome
import Verif.Props.QuietOutcome
import Verif.Props.StepSize
import Verif.Model.PlotMemory
import Verif.Props.PlotMemory
import Verif.Model.SavePlot
import Verif.Props.SavePlot
import Verif.Lemmas.Moments
import Verif.Props.Shape
import Verif.Props.RotationLaw
import Verif.Model.TwoMethods
import Verif.Spec.TwoMethods
import Verif.Lemmas.TwoMethods
import Verif.Props.TwoMethods
import Verif.Model.Release
import Verif.Props.Release
import Verif.Model.RestartRelease
import Verif.Props.RestartRelease
import Verif.Props.RestartReleaseBipop
import Verif.Props.RestartChoice
import Verif.Model.Memory
import Verif.Spec.Memory
import Verif.Lemmas.Memory
import Verif.Props.Memory
import Verif.Lemmas.Slope
import Verif.Props.Slope
import Verif.Spec.PrintedResults
import Verif.Props.PrintedResults
import Verif.Props.Reach
import Verif.Props.Explode
import Verif.Props.Overflow
import Verif.Props.OverflowSigned
import Verif.Props.ScaleMove
import Verif.Props.RestartUnwind
import Verif.Props.FirstLimited
import Verif.Props.ExplodeLikely
import Verif.Props.RestartMaker
