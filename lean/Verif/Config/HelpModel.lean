import Verif.Config.Model

/-
Model of the help on parameters: `helpOnParameters` of all classes that have parameters, `appendNestedHelp`
(infra/OptionalParameters.h:317-331), `helpOnValue` (infra/ComponentConfiguration.h:118-127).

Simplifications:
 * texts of help are left out: none of them is empty (for `appendNestedHelp` see infra/OptionalParameters.h:330 and 338-346);
 * nested help is an empty set where the code has none: looking up anything in it gives an exception in both cases
   (infra/OptionalParameters.h:195-201, 226-229), which `helpOnValue` catches (infra/ComponentConfiguration.h:125).
-/

namespace Verif.Config

open Verif.Infra Verif.Driver

/-- A value of a set of help texts (infra/OptionalParameters.h:57-145): nested ones -/
inductive Help where
  | node (nested : List (String × Help))

/-- The set of help texts returned by `helpOnParameters` (infra/OptionalParameters.h:256) -/
abbrev Helps := List (String × Help)

/-- `Parameters result;` (e.g. ode/interfaces/OdeSolver.h:195) -/
def Helps.nil : Helps := []

/-- `result[k] = ...` (e.g. ode/interfaces/OdeSolver.h:196) -/
def Helps.put (H : Helps) (k : String) (v : Help) : Helps := insertKV k v H

/-- A text without nested help (infra/OptionalParameters.h:72-75) -/
def text : Help := .node []

/-- `appendNestedHelp` (infra/OptionalParameters.h:317-331) -/
def nestedHelp {α : Type} (f : α → Helps) : Option α → Help
  | some x => .node (f x)
  | none => .node []

/-- Objects without `helpOnParameters` (infra/OptionalParameters.h:256-258): step size controllers, error norm calculators, event
controllers, trimmers, step sequences, Jacobian providers, line searches, error estimators, iteration performers, initial
states -/
def noHelp {α : Type} (_ : α) : Helps := Helps.nil

section
variable {R : Type}

/-- Descent directions (alg/JacobianLazyFakeBroydenUpdateNewtonDescentDirection.h:110-116) -/
def DirKind.help : DirKind → Helps
  | .lazy _ => Helps.nil.put "lazy_iterations" text
  | _ => Helps.nil

/-- NewtonSolverInterface (alg/interfaces/NewtonSolverInterface.h:229-263) -/
def Newton.help (n : Newton R) : Helps :=
  let H := ((Helps.nil.put "itperf" (nestedHelp noHelp n.itperf)).put "regularizer" text).put "max_iterations" text
  match n.itperf with
  | none => H
  | some p =>
    let H := H.put "ddir" (nestedHelp (fun d => d.kind.help) p.ddir)
    let H := (match p.ddir with
      | none => H
      | some d =>
        let H := H.put "jacobian" (nestedHelp noHelp d.jp)
        match d.jp with
        | none => H
        | some j => H.put "jtrim" (nestedHelp noHelp j.trimmer))
    (H.put "linsearch" (nestedHelp noHelp p.search)).put "err" (nestedHelp noHelp p.est)

/-- OdeSolver without the components (ode/interfaces/OdeSolver.h:195-202) -/
def baseHelp : Helps := (Helps.nil.put "h_init" text).put "h_min" text

/-- `addHelpOnParameters` (ode/interfaces/OdeSolverErrorNormCalculator.h:45-49, OdeSolverStepSizeController.h:40-44) -/
def Ctl.addHelp (c : Ctl R) (H : Helps) : Helps :=
  (H.put "enorm" (nestedHelp noHelp c.enorm)).put "stepsizectl" (nestedHelp noHelp c.stepCtl)

/-- `addHelpOnParameters` (ode/interfaces/OdeSolverEventController.h:47-51) -/
def evHelp (ec : Option EvCtl) (H : Helps) : Helps := H.put "eventctl" (nestedHelp noHelp ec)

/-- `addHelpOnParameters` (ode/interfaces/OdeSolverJacobianTrimmer.h:40-44) -/
def trimHelp (t : Option (Trim R)) (H : Helps) : Helps := H.put "jtrim" (nestedHelp noHelp t)

/-- `helpOnParameters` of ODE solvers (ode/interfaces/OdeSolver.h:192-206 with the components, OdeSolverRosenbrock_W1.h:121-126,
OdeSolverRosenbrock_SW2_4.h:202-208, OdeSolverGragg.h:139-144, OdeSolverExtrapolator.h:232-239, OdeSolverImplicitEuler.h:198-208
with interfaces/OdeNewtonSolver.h:40-44). The embedded solvers have no help of their own; the extrapolator does not call the help of
its base class. The help on the reordering mapping, if there is one, has no nested texts. -/
def Solver.help : Solver R → Helps
  | .null => Helps.nil
  | .fixed _ _ ec => evHelp ec baseHelp
  | .embedded _ _ c ec _ => evHelp ec (c.addHelp baseHelp)
  | .w1 _ t ec _ => (evHelp ec (trimHelp t baseHelp)).put "d" text
  | .sw24 _ t c ec _ _ => ((evHelp ec (c.addHelp (trimHelp t baseHelp))).put "d" text).put "disable_error_check" text
  | .gragg _ ec _ => (evHelp ec baseHelp).put "smooth" text
  | .extrapolator _ _ _ _ seq ref =>
    ((Helps.nil.put "disable_error_check" text).put "step_sequence" (nestedHelp noHelp seq)).put "reference_solver"
      (.node ref.help)
  | .implicit _ n ec _ pr _ _ =>
    ((((evHelp ec (baseHelp.put "algsolver" (.node n.help))).put "alpha" text).put "predictor" (.node pr.help)).put
      "predictor_steps" text).put "reorder" text

/-- Test models (ode/test_models/Oscillator.h:59-65, CoupledNonlinearOscillators.h:75-83, StiffOde1D.h:55-60,
SlidingPoint.h:88-99, BouncingBall.h:110-117) -/
def Model.help : Model R → Helps
  | .oscillator .. => (Helps.nil.put "c" text).put "f" text
  | .coupled .. => (((Helps.nil.put "n" text).put "c0" text).put "c2" text).put "f" text
  | .stiff .. => Helps.nil.put "a" text
  | .sliding .. => ((((((Helps.nil.put "friction" text).put "mass" text).put "f0" text).put "v0" text).put "F1" text).put
      "F2" text).put "omega" text
  | .ball .. => ((Helps.nil.put "gravity_acceleration" text).put "recovery_factor" text).put "stick_speed" text

/-- Output options (ode/ode_solver_output.h:58-63, 397-402, 527-532) -/
def Output.help : Output → Helps
  | .stats _ => Helps.nil.put "file_name" text
  | .general _ => Helps.nil.put "file_name" text
  | .solution .. => (Helps.nil.put "file_name" text).put "size_half_lim" text
  | .columnwise .. => (Helps.nil.put "file_name" text).put "max_steps" text

/-- OdeSolverConfiguration (ode/OdeSolverConfiguration.h:145-164) -/
def Provider.help (p : Provider R) : Helps :=
  let H := ((Helps.nil.put "rhs" (nestedHelp Model.help p.rhs)).put "solver" (.node p.solver.help)).put "reference_solver"
    (.node p.ref.help)
  let H := ((H.put "time" text).put "output_timing" text).put "simout_basename" text
  let out := nestedHelp Output.help
  let H := ((H.put "output_stats" (out p.stats)).put "output_con" (out p.con)).put "output_file" (out p.file)
  H.put "init_state" (nestedHelp noHelp p.init)

end

/-- Does `value` find something at the path? (infra/OptionalParameters.h:186-204, 220-231) -/
def Params.has : Params → List String → Bool
  | _, [] => false
  | P, [k] => (findKV k P).isSome
  | P, k :: l => match findKV k P with
    | some (.node _ (some Q)) => Params.has Q l
    | _ => false

/-- `helpOnValue` (infra/ComponentConfiguration.h:118-127): is there a text other than "No help is available"? -/
def Helps.has : Helps → List String → Bool
  | _, [] => false
  | H, [k] => (findKV k H).isSome
  | H, k :: l => match findKV k H with
    | some (.node Q) => Helps.has Q l
    | none => false

end Verif.Config
