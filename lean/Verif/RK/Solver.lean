import Verif.RK.Model
import Mathlib.Algebra.Order.Field.Basic

/-
Model of include/ode_num_int/ode/OdeSolverExplicitRK.h, OdeSolverExplicitEmbeddedRK.h and
OdeStepSizeSimpleController.h.

Simplifications:
 * the right-hand side is a function; observers only observe (their calls are recorded in a
   log); timers are left out;
 * the event controller is any object with the interface OdeEventController; the interpolator
   passed to `atStepEnd` is the linear one between its first two arguments;
 * `m_h` is `none` until first assigned (the constructors do not initialise it).
-/

namespace Verif.RK

open Verif.Res

/-- What `atStepEnd` reports: step truncated, `izfTrunc` (`none` for `~0u`), transition type
(interfaces/OdeEventController.h:24-26) -/
structure Trunc where
  truncated : Bool
  izf : Option Nat
  transition : Int
  deriving DecidableEq, Repr

/-- Values of `izfTrunc` and `transitionType` before the call (OdeSolverExplicitRK.h:77-79) -/
def Trunc.none : Trunc := ⟨false, Option.none, 0⟩

/-- Interface of event controllers with state `E` (interfaces/OdeEventController.h:22-26);
`atStepEnd` gets x1, x2, t2 and returns the new x2, t2. -/
structure EventCtl (R V E : Type) where
  reset : E → E
  atStepStart : E → V → R → Res E
  atStepEnd : E → V → V → R → Res (E × V × R × Trunc)

/-- Calls of observers: `odeSolverPreObservers` with the step size, and
`odeSolverPostObservers` with the fields of OdeSolverPostObserverArg
(interfaces/OdeSolver.h:25-58) -/
inductive Obs (R : Type) where
  | pre (h : Option R)
  | post (h : R) (accepted changed : Bool) (tr : Trunc) (err : R)
  deriving DecidableEq, Repr

section
variable {R V E : Type} [Zero R] [Add R] [Mul R] [DecidableEq R] [Zero V] [Add V] [SMul R V]

/-- Fields of the solver that never change: coefficients, right-hand side, event controller
(OdeSolverExplicitRK.h:106-107, components) -/
structure Method (R V E : Type) where
  co : Coefficients R
  rhs : R → V → V
  ec : Option (EventCtl R V E)

/-- State of OdeSolverExplicitRK (109-114), with `initialStepSize` of OdeSolver
(interfaces/OdeSolver.h:127-128), the state of the event controller, and the log of observer
calls (latest first). -/
structure FixedSt (R V E : Type) where
  t : R
  x : V
  h : Option R
  out : Output V
  hInit : R
  ec : E
  log : List (Obs R)

/-- Default-constructed `Output` (ExplicitRKHelper.h:43-46) -/
def Output.mkEmpty : Output V := ⟨[], [], 0⟩

/-- `Output( stages, varCount, x2Count )` (ExplicitRKHelper.h:48-54) -/
def Output.mk' (stages x2Count : Nat) : Output V :=
  ⟨List.replicate stages 0, List.replicate x2Count 0, 0⟩

/-- `initStep` (OdeSolverExplicitRK.h:116-132) -/
def FixedSt.initStep (m : Method R V E) (s : FixedSt R V E) : FixedSt R V E :=
  if s.out.k.isEmpty then
    { s with out := Output.mk' (m.co.c.length + 1) 1, h := some s.hInit }
  else s

/-- Reading `m_h`; undefined while uninitialised. -/
def readH (h : Option R) : Res R :=
  match h with
  | some v => .ok v
  | Option.none => .error .ub

/-- Calls of the event controller are made only if there is one
(OdeSolverExplicitRK.h:64-66, 80-83) -/
def ecStart (m : Method R V E) (e : E) (x : V) (t : R) : Res E :=
  match m.ec with
  | some c => c.atStepStart e x t
  | Option.none => .ok e

/-- See `ecStart`. -/
def ecEnd (m : Method R V E) (e : E) (x1 x2 : V) (t2 : R) : Res (E × V × R × Trunc) :=
  match m.ec with
  | some c => c.atStepEnd e x1 x2 t2
  | Option.none => .ok (e, x2, t2, Trunc.none)

/-- `doStep` (OdeSolverExplicitRK.h:50-99). The pre-observers get `m_h` before `initStep`. -/
def FixedSt.doStep (m : Method R V E) (s : FixedSt R V E) : Res (FixedSt R V E) := do
  let s := { s with log := .pre s.h :: s.log }
  let s := s.initStep m
  let e ← ecStart m s.ec s.x s.t
  let h ← readH s.h
  let out ← compute s.out m.co m.rhs s.x s.t h
  let next ← raw out.x2 0
  let (e, next, nextTime, tr) ← ecEnd m e s.x next (s.t + h)
  let x2 ← rawSet out.x2 0 s.x
  .ok { s with
    t := nextTime
    x := next
    out := { out with x2 := x2 }
    ec := e
    log := .post h true false tr 0 :: s.log }

/-- `cleanupStep`, `setInitialState` (OdeSolverExplicitRK.h:43-48, 134-139) -/
def FixedSt.setInitialState (m : Method R V E) (t : R) (x : V) (s : FixedSt R V E) :
    FixedSt R V E :=
  { s with
    t := t
    x := x
    out := Output.mkEmpty
    ec := match m.ec with
      | some c => c.reset s.ec
      | Option.none => s.ec }

/-- `OdeSolver::setInitialStepSize` (interfaces/OdeSolver.h:103-105) -/
def FixedSt.setInitialStepSize (h : R) (s : FixedSt R V E) : FixedSt R V E :=
  { s with hInit := h }

end

section
variable {K : Type}

/-- Parameters of OdeStepSizeSimpleController (OdeStepSizeSimpleController.h:85-90) -/
structure CtlParams (K : Type) where
  tolerance : K
  insurance : K
  incMin : K
  incMax : K
  decMax : K
  maxThreshold : K

/-- OdeStepSizeController::Result (interfaces/OdeStepSizeController.h:29-43) -/
structure CtlResult (K : Type) where
  newStepSize : K
  acceptStep : Bool
  changeStepSize : Bool
  deriving DecidableEq, Repr

section
variable [Zero K] [One K] [OfNat K 100000] [Add K] [Sub K] [Mul K] [Div K] [DecidableEq K] [LT K] [DecidableLT K] [LE K] [DecidableLE K]

/-- `GEOM_EPS` (util/m_tolerance.h:25) -/
def geomEps : K := 1 / 100000

/-- `controlStepSize` (OdeStepSizeSimpleController.h:32-60); `pow` stands for `std::pow`. -/
def CtlParams.control (c : CtlParams K) (pow : K → K → K) (h err order : K) : CtlResult K :=
  if err = 0 then ⟨h, true, false⟩
  else
    let p := pow (c.tolerance / err) (1 / (order + 1))
    let pd := p * c.insurance
    if 1 ≤ p then
      let over := 0 < c.maxThreshold ∧ c.maxThreshold < pd * h
      let pd := if over then c.maxThreshold / h else pd
      if over ∧ pd < 1 then ⟨h, true, false⟩
      else if 0 < c.incMin ∧ pd < c.incMin then ⟨h, true, false⟩
      else
        let pd := if 0 < c.incMax ∧ c.incMax < pd then c.incMax else pd
        ⟨h * pd, true, true⟩
    else if 1 - geomEps < p then ⟨h, true, false⟩
    else
      let pd := if 0 < c.decMax ∧ pd < c.decMax then c.decMax else pd
      ⟨h * pd, false, true⟩

end

/-- Default parameters (OdeStepSizeSimpleController.h:23-30) -/
def CtlParams.default [Field K] : CtlParams K :=
  ⟨1 / 1000000, 8 / 10, 13 / 10, 2, 1 / 10, 0⟩

end

section
variable {K V E : Type} [Zero K] [Add K] [Mul K] [NatCast K] [DecidableEq K] [LT K] [DecidableLT K] [LE K]
  [DecidableLE K] [Zero V] [Add V] [Sub V] [SMul K V]

/-- Fields of OdeSolverExplicitEmbeddedRK that are set by the user or never change
(OdeSolverExplicitEmbeddedRK.h:184-191), with the components of the solver: the norm of the
error and the step size controller (given old step, error norm, order). `mode` is 0 (high) or
1 (low). -/
structure EmbMethod (K V E : Type) extends Method K V E where
  highOrder : Nat
  lowOrder : Nat
  disableErrorCheck : Bool
  forceErrorCalc : Bool
  hAfterSwitch : K
  lowMode : Bool
  hMin : K
  norm : V → K
  control : K → K → K → CtlResult K

/-- `m_mode` as an index (OdeSolverExplicitEmbeddedRK.h:25-28) -/
def EmbMethod.modeIndex (m : EmbMethod K V E) : Nat := if m.lowMode then 1 else 0

/-- `order` (OdeSolverExplicitEmbeddedRK.h:47-49) -/
def EmbMethod.order (m : EmbMethod K V E) : Nat := if m.lowMode then m.lowOrder else m.highOrder

/-- `initStep` of the embedded solver (OdeSolverExplicitEmbeddedRK.h:200-216): two outputs. -/
def FixedSt.initStep2 (m : EmbMethod K V E) (s : FixedSt K V E) : FixedSt K V E :=
  if s.out.k.isEmpty then
    { s with out := Output.mk' (m.co.c.length + 1) 2, h := some s.hInit }
  else s

/-- Outcome of one pass of the loop in `doStep`: an exception leaves the fields as they are at
the moment of the throw. -/
inductive Attempt (S : Type) where
  | accepted (s : S)
  | rejected (s : S)
  | thrown (msg : String) (s : S)

/-- One pass of the loop in `doStep` (OdeSolverExplicitEmbeddedRK.h:76-150). The state is shared
with the fixed-step solver. The faults of `Res` are those of the kernel and of the event
controller. -/
def FixedSt.attempt (m : EmbMethod K V E) (s : FixedSt K V E) :
    Res (Attempt (FixedSt K V E)) := do
  let s := { s with log := .pre s.h :: s.log }
  let s := s.initStep2 m
  let e ← ecStart m.toMethod s.ec s.x s.t
  let h ← readH s.h
  let out ← compute s.out m.co m.rhs s.x s.t h
  let high ← raw out.x2 0
  let low ← raw out.x2 1
  let check : Bool := !m.disableErrorCheck || m.forceErrorCalc
  let out := if check then { out with buf := high - low } else out
  let err : K := if check then m.norm (high - low) else 0
  let res := if m.disableErrorCheck then ⟨h, true, false⟩ else m.control h err m.lowOrder
  let s := { s with ec := e, out := out }
  let (s, tr) ← (if res.acceptStep then do
      let next ← raw out.x2 m.modeIndex
      let (e, next, nextTime, tr) ← ecEnd m.toMethod e s.x next (s.t + h)
      let x2 ← rawSet out.x2 m.modeIndex s.x
      .ok ({ s with t := nextTime, x := next, ec := e, out := { out with x2 := x2 } }, tr)
    else .ok (s, Trunc.none) : Res (FixedSt K V E × Trunc))
  let s := if res.changeStepSize then { s with h := some res.newStepSize } else s
  if res.changeStepSize && decide (res.newStepSize ≤ m.hMin) then
    .ok (.thrown "Step size has decreased to the minimum or below" s)
  else do
    let s := { s with log := .post h res.acceptStep res.changeStepSize tr err :: s.log }
    let hNow ← readH s.h
    let s := if tr.truncated && decide (0 < m.hAfterSwitch) && decide (m.hAfterSwitch < hNow) then
        { s with h := some m.hAfterSwitch } else s
    if res.acceptStep then .ok (.accepted s) else .ok (.rejected s)

/-- `doStep` (OdeSolverExplicitEmbeddedRK.h:74-151): passes of the loop up to `fuel`; `none` if
the loop has not ended. -/
def FixedSt.doStepEmb (m : EmbMethod K V E) : Nat → FixedSt K V E →
    Option (Res (Attempt (FixedSt K V E)))
  | 0, _ => Option.none
  | fuel + 1, s =>
    match s.attempt m with
    | .error e => some (.error e)
    | .ok (.rejected s') => FixedSt.doStepEmb m fuel s'
    | .ok r => some (.ok r)

end

end Verif.RK
