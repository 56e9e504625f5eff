import Verif.Vec.Model
import Verif.Alg.NewtonModel
import Verif.RK.Solver

/-
Model of include/ode_num_int/ode/OdeStepMappingEuler.h and OdeSolverImplicitEuler.h.

Simplifications:
 * exact arithmetic; observers only observe; timers are left out; ASSERT does nothing; pointers
   are not null;
 * the right-hand side is a function that gives the whole new contents of its destination;
   `beforeStep` does nothing (as in the interface);
 * a predictor is what its steps do to time and state.
-/

namespace Verif.Implicit

open Verif.Res Verif.Alg

/-- `OdeRhs` (interfaces/OdeRhs.h:55-56, 65): counts of variables of second and first order, and `rhs` -/
structure Rhs (K : Type) where
  n2 : Nat
  n1 : Nat
  rhs : K → List K → Res (List K)

/-- `varCount` (interfaces/OdeRhs.h:81-83) -/
def Rhs.varCount {K : Type} (r : Rhs K) : Nat := 2 * r.n2 + r.n1

/-- The vector an operation on it leaves, if it does not fail -/
def done {K : Type} (r : List K × Option Fault) : Res (List K) :=
  match r.2 with
  | none => .ok r.1
  | some e => .error e

section
variable {K : Type} [Field K]

/-! ### OdeStepMappingEuler -/

/-- Members of OdeStepMappingEuler (OdeStepMappingEuler.h:169-174); `f0` is `m_f0scaled`, `valid` is
`m_f0scaledValid`. -/
structure EMap (K : Type) where
  alpha : K
  h : K
  t0 : K
  x0 : List K
  f0 : List K
  valid : Bool

/-- The constructor (OdeStepMappingEuler.h:20-25) -/
def EMap.new : EMap K := ⟨1, 1 / 10, 0, [], [], false⟩

/-- `setInitialState` (OdeStepMappingEuler.h:88-93) -/
def EMap.setInitialState (t : K) (x : List K) (m : EMap K) : EMap K :=
  { m with x0 := x, t0 := t, valid := false }

/-- `setTimeStep` (OdeStepMappingEuler.h:99-104) -/
def EMap.setTimeStep (h : K) (m : EMap K) : EMap K := { m with h := h, valid := false }

/-- `setImplicitnessParameter` (OdeStepMappingEuler.h:146-150) -/
def EMap.setAlpha (a : K) (m : EMap K) : EMap K := { m with alpha := a, valid := false }

/-- `expandState` (OdeStepMappingEuler.h:176-191); `U` is the block at the beginning of `dst`. -/
def EMap.expandState (r : Rhs K) (m : EMap K) (dst x : List K) : Res (List K) := do
  let U : Vec.Tgt := ⟨0, r.n2⟩
  let dst ← done (Vec.assignBlock dst U (.block (.vec m.x0) 0 r.n2))
  let dst ← done (Vec.addAssign dst U (.scale (.block (.vec m.x0) r.n2 r.n2) (m.h * (1 - m.alpha))))
  let dst ← done (Vec.addAssign dst U (.scale (.block (.vec x) 0 r.n2) (m.h * m.alpha)))
  done (Vec.assignBlock dst ⟨r.n2, r.n2 + r.n1⟩ (.vec x))

/-- `computeF0Scaled` (OdeStepMappingEuler.h:193-200) -/
def EMap.computeF0Scaled (r : Rhs K) (m : EMap K) : Res (EMap K) :=
  if m.valid then .ok m
  else do
    let f ← r.rhs m.t0 m.x0
    let f ← done (Vec.mulAssign f ⟨0, f.length⟩ (-m.h * (1 - m.alpha)))
    .ok { m with f0 := f, valid := true }

/-- `map` (OdeStepMappingEuler.h:42-69): the mapping with its cache, and the value -/
def EMap.map (r : Rhs K) (m : EMap K) (x : List K) : Res (EMap K × List K) := do
  let m ← m.computeF0Scaled r
  let stateBuf ← m.expandState r (List.replicate (2 * r.n2 + r.n1) 0) x
  let rhsBuf ← r.rhs (m.t0 + m.h) stateBuf
  let dst ← done (Vec.subAssign x ⟨0, x.length⟩ (.block (.vec m.x0) r.n2 (r.n2 + r.n1)))
  let dst ← done (Vec.addAssign dst ⟨0, dst.length⟩ (.block (.vec m.f0) r.n2 (r.n2 + r.n1)))
  let dst ← done (Vec.addAssign dst ⟨0, dst.length⟩
    (.scale (.block (.vec rhsBuf) r.n2 (r.n2 + r.n1)) (-m.h * m.alpha)))
  .ok (m, dst)

/-- `eqnInitialState` (OdeStepMappingEuler.h:106-112) -/
def EMap.eqnInitialState (r : Rhs K) (m : EMap K) : Res (List K) :=
  Vec.clone [] (.block (.vec m.x0) r.n2 (r.n2 + r.n1))

/-- `computeOdeState` (OdeStepMappingEuler.h:114-119) -/
def EMap.computeOdeState (r : Rhs K) (m : EMap K) (odeState eqnState : List K) : Res (List K) :=
  m.expandState r (Vec.resize odeState r.varCount) eqnState

/-- `computeEqnState` (OdeStepMappingEuler.h:125-131) -/
def computeEqnState (r : Rhs K) (eqnState odeState : List K) : Res (List K) :=
  done (Vec.assign eqnState (.block (.vec odeState) r.n2 (r.n2 + r.n1)))

/-- The step mapping as the mapping of a Newton solver (`inputSize`, `outputSize`:
OdeStepMappingEuler.h:28-40). What `map` leaves in the cache is left out here; `C36_calls` says that it
makes no difference. -/
def EMap.mapping (r : Rhs K) (m : EMap K) : Mapping K where
  inSize := r.n1 + r.n2
  outSize := r.n1 + r.n2
  map x := do
    let p ← m.map r x
    .ok p.2

end

/-! ### OdeSolverImplicitEuler -/

section
variable {K D E : Type} [Field K] [LinearOrder K]

/-- Components and settings of the solver (OdeSolverImplicitEuler.h:215-219): right-hand side (it depends
on the phase state, which only `atStepEnd` of the event controller changes), components of the Newton solver for a mapping, its iteration observers and limit, the input and output orders of the reordering
mapping (`m_reorder`), the predictor (all its steps: step size, number of steps, time, state), the number of
its steps, and the event controller -/
structure IMethod (D K E : Type) where
  rhs : E → Rhs K
  parts : Mapping K → Parts D K
  observers : Nat → Perf D K → Res Bool
  limit : Nat
  order : Option (List Nat × List Nat)
  predictor : Option (K → Nat → K → List K → Res (List K))
  predictorSteps : Nat
  ec : Option (RK.EventCtl K (List K) E)

/-- State of the solver (OdeSolverImplicitEuler.h:219-223) with the initial step size, the Newton solver
and the event controller -/
structure ISolver (D K E : Type) where
  map : EMap K
  buf : List K
  eqnbuf : List K
  hard : Bool
  hInit : K
  perf : Perf D K
  ec : E

/-- The mapping the Newton solver has (OdeSolverImplicitEuler.h:165-173) -/
def IMethod.mapping4Newton (M : IMethod D K E) (e : E) (m : EMap K) : Mapping K :=
  match M.order with
  | some ord => reordered (m.mapping (M.rhs e)) ord.1 ord.2
  | none => m.mapping (M.rhs e)

/-- `setInitialState` (OdeSolverImplicitEuler.h:71-76) -/
def ISolver.setInitialState (t : K) (x : List K) (soft : Bool) (s : ISolver D K E) : ISolver D K E :=
  { s with map := s.map.setInitialState t x, hard := s.hard || !soft }

/-- The initial guess (OdeSolverImplicitEuler.h:92-112): `m_eqnbuf`, and what is given to
`setInitialGuess` -/
def ISolver.guess (M : IMethod D K E) (s : ISolver D K E) (h : K) : Res (List K × List K) :=
  match M.predictor with
  | some p => do
    let x ← p (h / M.predictorSteps) M.predictorSteps s.map.t0 s.map.x0
    let e ← computeEqnState (M.rhs s.ec) s.eqnbuf x
    match M.order with
    | some ord => do
      let e ← order e ord.1
      .ok (e, e)
    | none => .ok (e, e)
  | none =>
    match M.order with
    | some ord => do
      let x ← s.map.eqnInitialState (M.rhs s.ec)
      let e ← order x ord.1
      .ok (e, e)
    | none => do
      let x ← s.map.eqnInitialState (M.rhs s.ec)
      .ok (s.eqnbuf, x)

/-- `statusText` (alg/interfaces/NewtonSolverInterface.h:39-53) -/
def statusText : RunStatus → String
  | .converged => "converged"
  | .diverged => "diverged"
  | .terminated => "terminated"
  | .limitExceeded => "iteration count limit exceeded"

/-- `doStep` (OdeSolverImplicitEuler.h:78-159) -/
def ISolver.doStep (M : IMethod D K E) (s : ISolver D K E) : Res (ISolver D K E × RK.Trunc) := do
  let h := s.hInit
  let s := { s with map := s.map.setTimeStep h }
  let P := M.parts (M.mapping4Newton s.ec s.map)
  let g ← s.guess M h
  let perf := s.perf.setInitialGuess P g.2 s.hard
  let e ← (match M.ec with
    | some c => c.atStepStart s.ec s.map.x0 s.map.t0
    | none => .ok s.ec : Res E)
  let r ← (P.env M.observers).run M.limit perf
  if r.2 ≠ .converged then .error (.exc ("Algebraic solver failed: " ++ statusText r.2))
  else do
    let eqn ← (match M.order with
      | some ord => unorder g.1 r.1.x ord.1
      | none => .ok r.1.x : Res (List K))
    let buf ← s.map.computeOdeState (M.rhs s.ec) s.buf eqn
    let q ← (match M.ec with
      | some c => c.atStepEnd e s.map.x0 buf (s.map.t0 + h)
      | none => .ok (e, buf, s.map.t0 + h, RK.Trunc.none) : Res (E × List K × K × RK.Trunc))
    let perf := if q.2.2.2.truncated then { r.1 with dir := P.dirReset true r.1.dir } else r.1
    .ok ({ s with
      map := s.map.setInitialState q.2.2.1 q.2.1
      buf := q.2.1
      eqnbuf := (match M.order with
        | some _ => eqn
        | none => g.1)
      hard := false
      perf := perf
      ec := q.1 }, q.2.2.2)

end

end Verif.Implicit
