import Verif.RK.Solver

/-
Model of include/ode_num_int/ode/OdeSolverExtrapolator.h, OdeSolverGragg.h and
ExtrapolatorStepSequence{Harmonic,Romberg,Bulirsch}.h.

Simplifications:
 * arithmetic on reals is exact; state vectors are elements of a module over the scalars;
 * the right-hand side is a function of time and state, shared by a solver and its reference
   solver; `beforeStep` does nothing; timers are left out; observers only observe;
 * scratch vectors that are assigned before each use (`m_nextU`, `m_buf`) are left out;
 * the reference solver is any object with the interface used by the extrapolator.
-/

namespace Verif.Extrap

open Verif.Res Verif.RK

/-! ### Step sequences -/

/-- Interface of step sequences (interfaces/ExtrapolatorStepSequence.h:16-17) with state `Q`.
Numbers are modelled as naturals; an `int` overflow is undefined behaviour. -/
structure StepSeq (Q : Type) where
  reset : Q → Q
  next : Q → Res (Nat × Q)

/-- Largest value of `int` -/
def intMax : Nat := 2147483647

/-- A value assigned to an `int` -/
def toIntVar (n : Nat) : Res Nat := if n ≤ intMax then .ok n else .error .ub

/-- ExtrapolatorStepSequenceHarmonic (ExtrapolatorStepSequenceHarmonic.h:20-26); the state is
`m_current`. -/
def harmonic : StepSeq Nat where
  reset _ := 1
  next c := do
    let c' ← toIntVar (c + 1)
    .ok (c, c')

/-- ExtrapolatorStepSequenceRomberg (ExtrapolatorStepSequenceRomberg.h:20-29); the state is
`m_current`. A shift out of the range of `int` is taken as undefined. -/
def romberg : StepSeq Nat where
  reset _ := 1
  next c := do
    let c' ← toIntVar (2 * c)
    .ok (c, c')

/-- Fields `m_ordinal`, `m_currentOdd`, `m_currentEven`
(ExtrapolatorStepSequenceBulirsch.h:43-45) -/
structure BulirschSt where
  ordinal : Nat
  odd : Nat
  even : Nat
  deriving DecidableEq, Repr

/-- ExtrapolatorStepSequenceBulirsch (ExtrapolatorStepSequenceBulirsch.h:20-40) -/
def bulirsch : StepSeq BulirschSt where
  reset _ := ⟨0, 1, 2⟩
  next s := do
    let ord ← toIntVar (s.ordinal + 1)
    if ord % 2 = 1 then .ok (s.odd, { s with ordinal := ord })
    else do
      let odd ← (if ord = 2 then .ok 3 else toIntVar (2 * s.odd) : Res Nat)
      let even ← toIntVar (2 * s.even)
      .ok (s.even, ⟨ord, odd, even⟩)

section
variable {K V E : Type} [Field K] [AddCommGroup V] [Module K V]

/-! ### The Gragg solver -/

/-- Fields of OdeSolverGragg (OdeSolverGragg.h:147-154): `m_initialTime`, `m_initialU`,
`m_initialV`, `m_fbuf`, `m_stepsRunning`, with the initial step size, the state of the event
controller and the log of observer calls. -/
structure GrSt (K V E : Type) where
  t : K
  u : V
  v : V
  f : V
  running : Bool
  hInit : K
  ec : E
  log : List (Obs K)

/-- The right-hand side, the event controller, and `m_smooth` -/
structure GrMethod (K V E : Type) where
  rhs : K → V → V
  ec : Option (EventCtl K V E)
  smooth : Bool

/-- Calls of the event controller, made only if there is one (OdeSolverGragg.h:80-82) -/
def GrMethod.ecStart (m : GrMethod K V E) (e : E) (x : V) (t : K) : Res E :=
  match m.ec with
  | some c => c.atStepStart e x t
  | none => .ok e

/-- See `GrMethod.ecStart` (OdeSolverGragg.h:104-107). -/
def GrMethod.ecEnd (m : GrMethod K V E) (e : E) (x1 x2 : V) (t2 : K) :
    Res (E × V × K × Trunc) :=
  match m.ec with
  | some c => c.atStepEnd e x1 x2 t2
  | none => .ok (e, x2, t2, Trunc.none)

/-- `initialState` (OdeSolverGragg.h:39-49) -/
def GrSt.initialState (m : GrMethod K V E) (s : GrSt K V E) : V :=
  if m.smooth && s.running then (1 / 2 : K) • s.u + (1 / 2 : K) • s.v else s.u

/-- `setInitialStepSize` (OdeSolverGragg.h:51-55) -/
def GrSt.setInitialStepSize (h : K) (s : GrSt K V E) : GrSt K V E :=
  { s with hInit := h, running := false }

/-- `setInitialState` (OdeSolverGragg.h:57-62) -/
def GrSt.setInitialState (t : K) (x : V) (s : GrSt K V E) : GrSt K V E :=
  { s with t := t, u := x, running := false }

/-- What happens to the solver when the right-hand side is replaced (OdeSolverGragg.h:28); the
new one is an argument of the calls that follow. -/
def GrSt.onRhsChanged (s : GrSt K V E) : GrSt K V E := { s with running := false }

/-- `doStep` (OdeSolverGragg.h:64-124) -/
def GrSt.doStep (m : GrMethod K V E) (s : GrSt K V E) : Res (GrSt K V E) := do
  let h := s.hInit
  let log := .pre (some h) :: s.log
  let h2 := h / 2
  let e ← m.ecStart s.ec s.u s.t
  let v := if s.running then s.v else s.u
  let f := if s.running then s.f else m.rhs s.t s.u
  let v := v + h2 • f
  let f := m.rhs (s.t + h2) v
  let nextU := s.u + h • f
  let f := m.rhs (s.t + h) nextU
  let v := v + h2 • f
  let (e, nextU, nextTime, tr) ← m.ecEnd e s.u nextU (s.t + h)
  .ok { s with
    t := nextTime
    u := nextU
    v := v
    f := f
    running := !tr.truncated
    ec := e
    log := .post h true false tr 0 :: log }

end

/-! ### The extrapolator -/

/-- What the extrapolator uses of its reference solver (interfaces/OdeSolver.h:103-119); `order`
is the declared order. -/
structure RefSolver (K V S : Type) where
  order : Int
  setInitialState : K → V → S → S
  setInitialStepSize : K → S → S
  doStep : S → Res S
  initialState : S → V

section
variable {K V E S Q : Type} [Field K] [LinearOrder K] [AddCommGroup V] [Module K V]

/-- The Gragg solver as a reference solver; `order` is at OdeSolverGragg.h:31-33. -/
def GrMethod.ref (m : GrMethod K V E) : RefSolver K V (GrSt K V E) where
  order := 2
  setInitialState := GrSt.setInitialState
  setInitialStepSize := GrSt.setInitialStepSize
  doStep := GrSt.doStep m
  initialState := GrSt.initialState m

/-- A solver with a fixed step as a reference solver (OdeSolverExplicitRK.h:39-48) with the
declared order. -/
def _root_.Verif.RK.Method.ref (m : Method K V E) (order : Int) : RefSolver K V (FixedSt K V E) where
  order := order
  setInitialState := FixedSt.setInitialState m
  setInitialStepSize := FixedSt.setInitialStepSize
  doStep := FixedSt.doStep m
  initialState s := s.x

/-- Settings and components of OdeSolverExtrapolator (OdeSolverExtrapolator.h:242-245 and base
classes). Pointers to the reference solver and to the step sequence can be null. -/
structure ExMethod (K V E S Q : Type) where
  ref : Option (RefSolver K V S)
  seq : Option (StepSeq Q)
  ec : Option (EventCtl K V E)
  symmetric : Bool
  disableErrorCheck : Bool
  maxStages : Nat
  hMin : K
  norm : V → K
  control : K → K → K → CtlResult K

/-- Fields (OdeSolverExtrapolator.h:247-255), the initial step size, the states of the
components and the log of observer calls; `m_h` is not initialised by the constructor. -/
structure ExSt (K V E S Q : Type) where
  t : K
  x : V
  h : Option K
  T : List V
  n : List Nat
  hInit : K
  ref : S
  seq : Q
  ec : E
  log : List (Obs K)

/-- `order` (OdeSolverExtrapolator.h:40-48); unsigned arithmetic wraps and comes back to `int`. -/
def ExMethod.order (m : ExMethod K V E S Q) : Int :=
  match m.ref with
  | some r => r.order + ((m.maxStages : Int) - 1) * (if m.symmetric then 2 else 1)
  | none => -1

/-- `lowOrder` (OdeSolverExtrapolator.h:50-52) -/
def ExMethod.lowOrder (m : ExMethod K V E S Q) : Int :=
  m.order - (if m.symmetric then 2 else 1)

/-- `setInitialState` with `cleanupStep` (OdeSolverExtrapolator.h:80-87, 279-284). Without a
reference solver a null pointer is dereferenced. -/
def ExSt.setInitialState (m : ExMethod K V E S Q) (t : K) (x : V) (soft : Bool)
    (s : ExSt K V E S Q) : Res (ExSt K V E S Q) := do
  let ref ← (if soft then .ok s.ref else
    match m.ref with
    | some r => .ok (r.setInitialState t x s.ref)
    | none => .error .ub : Res S)
  .ok { s with
    t := t
    x := x
    ref := ref
    ec := match m.ec with
      | some c => c.reset s.ec
      | none => s.ec
    T := [] }

/-- `OdeSolver::setInitialStepSize` (interfaces/OdeSolver.h:103-105) -/
def ExSt.setInitialStepSize (h : K) (s : ExSt K V E S Q) : ExSt K V E S Q :=
  { s with hInit := h }

/-- `computeTsize` (OdeSolverExtrapolator.h:286-293) -/
def computeTsize (sq : StepSeq Q) (maxStages : Nat) (q : Q) : Res (Nat × Q) := do
  let q ← loop 0 (maxStages - 1) (fun _ q => do
    let r ← sq.next q
    .ok r.2) (sq.reset q)
  sq.next q

/-- `std::vector<unsigned>::resize`: keeps what fits and fills up with zeros -/
def resizeTo (n : Nat) (l : List Nat) : List Nat := (l ++ List.replicate n 0).take n

/-- `initStep` (OdeSolverExtrapolator.h:257-277) -/
def ExSt.initStep (m : ExMethod K V E S Q) (s : ExSt K V E S Q) : Res (ExSt K V E S Q) :=
  if !s.T.isEmpty then .ok s
  else
    match m.ref with
    | none => .error (.exc "Reference solver is not set")
    | some _ =>
      match m.seq with
      | none => .error (.exc "Step sequence is not set")
      | some sq => do
        let (size, q) ← computeTsize sq m.maxStages s.seq
        .ok { s with
          h := some s.hInit
          T := List.replicate size 0
          n := resizeTo size s.n
          seq := q }

/-- The loop over stages (OdeSolverExtrapolator.h:113-122); the state is the reference solver,
the step sequence, `m_T` and `m_n`. -/
def stages (r : RefSolver K V S) (sq : StepSeq Q) (maxStages : Nat) (t h : K) (x : V)
    (st : S × Q × List V × List Nat) : Res (S × Q × List V × List Nat) :=
  loop 0 maxStages (fun k st => do
    let s := r.setInitialState t x st.1
    let (n, q) ← sq.next st.2.1
    let hk ← div h (n : K)
    let s := r.setInitialStepSize hk s
    let s ← loop 0 n (fun _ s => r.doStep s) s
    let T ← rawSet st.2.2.1 k (r.initialState s)
    let n ← rawSet st.2.2.2 k n
    .ok (s, q, T, n)) st

/-- Inner loop body of the Aitken-Neville recursion (OdeSolverExtrapolator.h:136-143) -/
def nevilleStep (symmetric : Bool) (n : List Nat) (k j : Nat) (T : List V) : Res (List V) := do
  let T1 ← raw T (j - k - 1)
  let T2 ← raw T (j - k)
  let a ← raw n (j - 1)
  let b ← raw n (j - k - 1)
  let r ← div (a : K) (b : K)
  let r := if symmetric then r * r else r
  let d ← div 1 (r - 1)
  rawSet T (j - k - 1) ((-d) • T1 + (1 + d) • T2)

/-- The Aitken-Neville recursion (OdeSolverExtrapolator.h:134-145) -/
def neville (symmetric : Bool) (maxStages : Nat) (n : List Nat) (T : List V) : Res (List V) :=
  loop 1 maxStages (fun k T =>
    loop (k + 1) (maxStages + 1) (nevilleStep (K := K) symmetric n k) T) T

/-- Calls of the event controller, made only if there is one (OdeSolverExtrapolator.h:104-106,
178-181) -/
def ExMethod.ecStart (m : ExMethod K V E S Q) (e : E) (x : V) (t : K) : Res E :=
  match m.ec with
  | some c => c.atStepStart e x t
  | none => .ok e

/-- See `ExMethod.ecStart`. -/
def ExMethod.ecEnd (m : ExMethod K V E S Q) (e : E) (x1 x2 : V) (t2 : K) :
    Res (E × V × K × Trunc) :=
  match m.ec with
  | some c => c.atStepEnd e x1 x2 t2
  | none => .ok (e, x2, t2, Trunc.none)

/-- One pass of the loop in `doStep` (OdeSolverExtrapolator.h:89-205). The null checks of line
109 and 112 are assertions; the pointers are not null after `initStep` if `m_T` was empty. -/
def ExSt.attempt (m : ExMethod K V E S Q) (s : ExSt K V E S Q) :
    Res (Attempt (ExSt K V E S Q)) := do
  let s := { s with log := .pre s.h :: s.log }
  let s ← s.initStep m
  let e ← m.ecStart s.ec s.x s.t
  match m.ref, m.seq with
  | some r, some sq => do
    let h ← readH s.h
    let (ref, q, T, n) ← stages r sq m.maxStages s.t h s.x (s.ref, sq.reset s.seq, s.T, s.n)
    let T ← neville (K := K) m.symmetric m.maxStages n T
    let next ← raw T 0
    let (T, err) ← (if m.disableErrorCheck then .ok (T, 0) else do
        let low ← raw T 1
        let err := (-1 : K) • low + next
        let T ← rawSet T 1 err
        .ok (T, m.norm err) : Res (List V × K))
    let res := if m.disableErrorCheck then ⟨h, true, false⟩ else m.control h err m.lowOrder
    let s := { s with ref := ref, seq := q, T := T, n := n, ec := e }
    let (s, tr) ← (if res.acceptStep then do
        let (e, next, nextTime, tr) ← m.ecEnd e s.x next (s.t + h)
        let T ← rawSet T 0 s.x
        .ok ({ s with t := nextTime, x := next, ec := e, T := T }, tr)
      else .ok (s, Trunc.none) : Res (ExSt K V E S Q × Trunc))
    let s := if res.changeStepSize then { s with h := some res.newStepSize } else s
    if res.changeStepSize && decide (res.newStepSize ≤ m.hMin) then
      .ok (.thrown "Step size has decreased to the minimum or below" s)
    else do
      let hNow ← readH s.h
      let s := { s with log := .post hNow res.acceptStep res.changeStepSize tr err :: s.log }
      if res.acceptStep then .ok (.accepted s) else .ok (.rejected s)
  | _, _ => .error .ub

/-- `doStep` (OdeSolverExtrapolator.h:89-205): passes of the loop up to `fuel`; `none` if the loop
has not ended. -/
def ExSt.doStep (m : ExMethod K V E S Q) : Nat → ExSt K V E S Q →
    Option (Res (Attempt (ExSt K V E S Q)))
  | 0, _ => none
  | fuel + 1, s =>
    match s.attempt m with
    | .error e => some (.error e)
    | .ok (.rejected s') => ExSt.doStep m fuel s'
    | .ok r => some (.ok r)

end

end Verif.Extrap
