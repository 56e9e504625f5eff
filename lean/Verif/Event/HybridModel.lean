import Verif.Event.Model

/-! # Solvers with a right-hand side that depends on the phase state -/

namespace Verif.Event

open Verif.RK

/-- `doStep` of the solver with fixed steps (OdeSolverExplicitRK.h:50-99) for a right-hand side whose values depend on the phase
state, too (interfaces/OdeRhs.h:58-79). Within a step the phase state is changed only by `switchPhaseState`, which
`atStepEnd` calls after the last evaluation of the right-hand side in it (OdeSolverExplicitRK.h:60-83); `beforeStep`, called at
the beginning of a step, is taken not to change it. -/
def phaseStep {K V Q : Type} [Field K] [LinearOrder K] [AddCommGroup V] [Module K V] (co : Coefficients K) (F : Q → K → V → V)
    (r : EvRhs K V Q) (s : FixedSt K V (Ctl K × Q)) : Res (FixedSt K V (Ctl K × Q)) :=
  s.doStep ⟨co, F s.ec.2, some (controller r)⟩

end Verif.Event
