import Verif.Event.Model

/-
The calls a solver makes to its event controller in one step.
-/

namespace Verif.Event

open Verif.Res Verif.RK

section
variable {K V Q : Type} [Field K] [LinearOrder K] [AddCommGroup V] [Module K V]

/-- `atStepStart` is called once more for each rejected attempt at a step (OdeSolverExplicitEmbeddedRK.h:76-91,
OdeSolverExtrapolator.h:91-106, OdeSolverRosenbrock_SW2_4.h:71-90); solvers without step size control call it once
(OdeSolverExplicitRK.h:66, OdeSolverGragg.h:82, OdeSolverImplicitEuler.h:119, OdeSolverRosenbrock_W1.h:74). -/
def Ctl.starts (r : EvRhs K V Q) (q : Q) (x : V) (t : K) : Nat → Ctl K → Res (Ctl K)
  | 0, e => e.atStepStart r q x t
  | m + 1, e => do
    let e ← e.atStepStart r q x t
    e.starts r q x t m

/-- A step from (`x1`, `t1`) that is accepted after `m` rejected attempts, with (`x2`, `t2`) as its proposed end: `atStepEnd` is
called once (OdeSolverExplicitEmbeddedRK.h:119-122, OdeSolverExtrapolator.h:177-180, OdeSolverRosenbrock_SW2_4.h:157-160,
OdeSolverExplicitRK.h:82, OdeSolverGragg.h:106, OdeSolverImplicitEuler.h:140, OdeSolverRosenbrock_W1.h:92). -/
def Ctl.handle (r : EvRhs K V Q) (q : Q) (m : Nat) (e : Ctl K) (x1 : V) (t1 : K) (x2 : V) (t2 : K) :
    Res ((Ctl K × Q) × V × K × Trunc) := do
  let e ← e.starts r q x1 t1 m
  e.atStepEnd r q x1 x2 t2

end

end Verif.Event
