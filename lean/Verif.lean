import Verif.Basic
import Verif.Loop
import Verif.Util.Model
import Verif.Util.Lemmas
import Verif.Util.Props
import Verif.Util.CubicProps
import Verif.LU.Model
import Verif.LU.Spec
import Verif.LU.Memory
import Verif.LU.Factor
import Verif.LU.Solve
import Verif.LU.Algebra
import Verif.LU.SetMatrix
import Verif.LU.Update
import Verif.LU.Proportional
import Verif.LU.Fast
import Verif.LU.Props
import Verif.LU.ToMatrixProps
import Verif.LU.Repeat
import Verif.LU.Ops
import Verif.Sparse.Model
import Verif.Sparse.Spec
import Verif.Sparse.Lemmas
import Verif.Sparse.Product
import Verif.Sparse.Views
import Verif.Sparse.Props
import Verif.Sparse.SelfAdd
import Verif.Witness
import Verif.RK.Trees
import Verif.RK.Series
import Verif.RK.Taylor
import Verif.RK.Model
import Verif.RK.Kernel
import Verif.RK.Orders
import Verif.RK.Solver
import Verif.RK.Spec
import Verif.RK.Pack
import Verif.RK.Props
import Verif.RK.FixedProps
import Verif.RK.Control
import Verif.RK.AdaptiveProps
import Verif.Event.Model
import Verif.Event.Lemmas
import Verif.Event.Props
import Verif.TestModels.Model
import Verif.TestModels.Props
import Verif.Vec.Model
import Verif.Vec.Spec
import Verif.Vec.Lemmas
import Verif.Vec.Props
import Verif.Vec.Text
import Verif.Infra.StorageModel
import Verif.Infra.StorageProps
import Verif.Infra.ObsModel
import Verif.Infra.ObsProps
import Verif.Infra.ObsMore
import Verif.Infra.ParamsModel
import Verif.Infra.PathProps
import Verif.Infra.ValueProps
import Verif.Extrap.Model
import Verif.Extrap.Seq
import Verif.Extrap.Neville
import Verif.Extrap.Step
import Verif.Extrap.Gragg
import Verif.Extrap.Poly
import Verif.Extrap.GraggPoly
import Verif.Extrap.Order
import Verif.Extrap.Refs
import Verif.Extrap.Props
import Verif.Alg.MapModel
import Verif.Alg.MapLemmas
import Verif.Alg.MapProps
import Verif.Alg.FiniteDiff
import Verif.Alg.JacModel
import Verif.Alg.CalcProps
import Verif.Alg.UpdateProps
import Verif.Alg.DirProps
import Verif.Alg.ProvProps
import Verif.Alg.NewtonModel
import Verif.Alg.NewtonProps
import Verif.Alg.SolverProps
import Verif.Implicit.Model
import Verif.Implicit.EulerProps
import Verif.Implicit.GuessProps
import Verif.Ros.Model
import Verif.Ros.BaseProps
import Verif.Ros.JacProps
import Verif.Ros.Props
import Verif.Ros.StepProps
import Verif.Ros.Order
import Verif.Ros.OrderProps
import Verif.Ros.OrderExamples
import Verif.Ros.RestartProps
import Verif.Driver.Model
import Verif.Driver.RunProps
import Verif.Driver.GateProps
import Verif.Driver.StatsProps
import Verif.Driver.IndexProps
import Verif.Driver.Names
import Verif.Driver.NamesProps
import Verif.Driver.ChangeProps
import Verif.Driver.InitProps
import Verif.Driver.RichardsonProps
import Verif.Driver.RichardsonLimit
import Verif.Driver.ReportProps
import Verif.Driver.Solvers
import Verif.Driver.Tells
import Verif.Driver.AccuracyProps
import Verif.RK.Uniform
import Verif.RK.Converge
import Verif.TestModels.More
import Verif.TestModels.SlidingProps
import Verif.TestModels.OscProps
import Verif.Ros.Converge
import Verif.Implicit.Converge
import Verif.Implicit.ConvergeEx
import Verif.Alg.RestartProps
import Verif.Alg.HartProps
import Verif.Alg.LazyProps
import Verif.Wiring.EulerProps
import Verif.Extrap.Converge
import Verif.Extrap.Rk4Order
import Verif.Extrap.Estimate
import Verif.Event.Solvers
import Verif.Config.Model
import Verif.Config.RoundTrip
import Verif.Config.Props
import Verif.Config.HelpModel
import Verif.Config.HelpProps
import Verif.Config.SetModel
import Verif.Config.SetSpec
import Verif.Config.SetParts
import Verif.Config.SetSolver
import Verif.Config.SetProvider
import Verif.Config.SetProps
import Verif.OdeWiring.Model
import Verif.OdeWiring.Lemmas
import Verif.OdeWiring.Inv
import Verif.OdeWiring.Props
import Verif.Special.NewtonProps
import Verif.Special.StepProps
import Verif.Special.AgreeProps
import Verif.Special.EventLemmas
import Verif.Special.EventProps
import Verif.Special.RunProps
import Verif.Round.Model
import Verif.Round.Kernel
import Verif.Round.TimeProps
import Verif.Round.Perturb
import Verif.Round.StepErr
import Verif.Round.ErrProps
import Verif.Round.LuErr
import Verif.Round.LuProps
import Verif.Driver.ReplaceProps
import Verif.Round.Adaptive
import Verif.Round.AdaptProps
import Verif.Round.Grid
import Verif.Event.Ops
import Verif.Round.EventProps
import Verif.RK.Tolerance
import Verif.Driver.ToleranceProps
import Verif.Timing.Model
import Verif.Timing.Props
import Verif.Timing.CostProps
import Verif.Timing.ClockModel
import Verif.Timing.ClockProps
import Verif.Sparse.Print
import Verif.Sparse.PrintProps
import Verif.Event.Locate
import Verif.Event.Watch
import Verif.Event.AccuracyProps
import Verif.Event.HybridConv
import Verif.Event.HybridModel
import Verif.Event.Guard
import Verif.Event.HybridProps
import Verif.Event.AnyModel
import Verif.Event.AnyProps
import Verif.Event.AnySolver
import Verif.Driver.PiecesProps
import Verif.Driver.InvariantProps
import Verif.Ros.InvariantProps
import Verif.Implicit.InvariantProps
import Verif.Ros.RhsMapProps
import Verif.Ros.NewtonProps
