import Verif.Basic
import Verif.RK.Solver
import Verif.Util.Model

/-
Model of running a configured solver and of the reports it makes:
  include/ode_num_int/ode/OdeSolverConfiguration.h (apply, initOdeOutput, finalizeOdeOutput, solveOde)
  include/ode_num_int/ode/ode_solver_output.h
  include/ode_num_int/ode/util/RichardsonErrorCalculator.h
  include/ode_num_int/ode/SpecifiedOdeInitState.h

Simplifications:
 * a solver is any object with the interface used here; `doStep` returns or throws (a call that never
   returns is treated with the solvers themselves), and its calls of the post-observers are listed in
   order, each with the time and the state the solver shows at that moment;
 * reports are lists of the values written, not text (except names); formatting of reals, the flushing of
   streams, and timers are left out;
 * the reference solver is configured but never run by the code, and so it is here.
-/

namespace Verif.Driver

open Verif.Res

/-- What the post-observers are given (interfaces/OdeSolver.h:25-58), together with `initialTime` and
`initialState` of the solver at the time of the call -/
structure Note (K V : Type) where
  time : K
  state : V
  h : K
  accepted : Bool
  changed : Bool
  tr : RK.Trunc
  deriving DecidableEq

/-- The part of the interface OdeSolver used here (interfaces/OdeSolver.h:99-121): whether there is a
right-hand side, time, state, one step with the calls of the post-observers made during it. -/
structure Solver (K V S : Type) where
  hasRhs : S → Bool
  time : S → K
  state : S → V
  doStep : S → List (Note K V) × Res S

/-! ### solveOde -/

/-- The three output options of a configuration, in the order they are started
(OdeSolverConfiguration.h:322-324) -/
inductive Slot where
  | statistics
  | console
  | file
  deriving DecidableEq, Repr

/-- What happens to the outside during `solveOde`: an output option is started, a post-observer call, an
output option is finished (OdeSolverConfiguration.h:310-334) -/
inductive Ev (K V : Type) where
  | started (o : Slot)
  | note (n : Note K V)
  | finished (o : Slot)
  deriving DecidableEq

/-- The output options given by the configuration, each with the outcome of its `beforeFirstStep` (it
throws if the file cannot be opened, ode_solver_output.h:84-86) -/
structure Outputs where
  statistics : Option (Res Unit)
  console : Option (Res Unit)
  file : Option (Res Unit)

/-- `collectOutputOption` (OdeSolverConfiguration.h:316-321) on one option: the events so far, the options
collected so far -/
def collect (o : Slot) (r : Option (Res Unit)) (c : List Slot) : List Slot × Res Unit :=
  match r with
  | none => (c, .ok ())
  | some (.ok _) => (c ++ [o], .ok ())
  | some (.error e) => (c, .error e)

/-- `initOdeOutput` (OdeSolverConfiguration.h:310-326): the options started, and the exception if one of
them throws. -/
def initOutput (c : Outputs) : List Slot × Res Unit :=
  match collect .statistics c.statistics [] with
  | (l, .error e) => (l, .error e)
  | (l, .ok _) =>
    match collect .console c.console l with
    | (l, .error e) => (l, .error e)
    | (l, .ok _) => collect .file c.file l

section
variable {K V S : Type} [Add K] [LT K] [DecidableLT K]

/-- The loop of `solveOde` (OdeSolverConfiguration.h:352-356): the post-observer calls, and the solver
when the loop ends or the exception of a step. `none` if it has not ended after `fuel` steps. -/
def runLoop (sv : Solver K V S) (endTime : K) : Nat → S → Option (List (Note K V) × Res S)
  | 0, _ => none
  | fuel + 1, s =>
    match sv.doStep s with
    | (ns, .error e) => some (ns, .error e)
    | (ns, .ok s') =>
      if sv.time s' < endTime then
        (runLoop sv endTime fuel s').map fun r => (ns ++ r.1, r.2)
      else some (ns, .ok s')

/-- `solveOde` (OdeSolverConfiguration.h:337-358); the output options are finished only if no exception
was thrown. -/
def solveOde (sv : Solver K V S) (c : Outputs) (duration : K) (fuel : Nat) (s : S) :
    Option (List (Ev K V) × Res S) :=
  if sv.hasRhs s then
    match initOutput c with
    | (l, .error e) => some (l.map .started, .error e)
    | (l, .ok _) =>
      match runLoop sv (sv.time s + duration) fuel s with
      | none => none
      | some (ns, .error e) => some (l.map .started ++ ns.map .note, .error e)
      | some (ns, .ok s') => some (l.map .started ++ ns.map .note ++ l.map .finished, .ok s')
  else some ([], .error (.exc "ODE right hand size is not specified"))

end

section
variable {K V S : Type} [Field K] [LinearOrder K]

/-! ### Time filter of the reports -/

/-- `OdeSolverStreamOutputOption::D` (ode_solver_output.h:104-107) without the stream -/
structure Gate (K : Type) where
  timing : K
  start : K
  report : K
  deriving DecidableEq

/-- Constructor (ode_solver_output.h:76-88) -/
def Gate.new (timing start : K) : Gate K := ⟨timing, start, start - 2 * timing⟩

/-- `outputNow` (ode_solver_output.h:95-103). The divisions are made with a positive timing only. -/
def Gate.outputNow (g : Gate K) (cur : K) (force : Bool) : Bool × Gate K :=
  let r := force || decide (g.timing ≤ 0) ||
    decide ((g.report - g.start) / g.timing + 1 ≤ (cur - g.start) / g.timing)
  (r, if r then { g with report := cur } else g)

/-! ### Statistics -/

/-- Counters of OdeSolverStatisticsOutput (ode_solver_output.h:146-150); 32-bit counters do not wrap here. -/
structure Stats (K : Type) where
  nSteps : Nat
  nRejected : Nat
  nChanges : Nat
  nTruncated : Nat
  sum : K
  deriving DecidableEq

/-- Initial values (ode_solver_output.h:146-150) -/
def Stats.new : Stats K := ⟨0, 0, 0, 0, 0⟩

/-- `afterStep` (ode_solver_output.h:180-191) -/
def Stats.after (a : Stats K) (n : Note K V) : Stats K :=
  { nSteps := a.nSteps + 1
    nRejected := if n.accepted then a.nRejected else a.nRejected + 1
    nChanges := if n.changed then a.nChanges + 1 else a.nChanges
    nTruncated := if n.tr.truncated then a.nTruncated + 1 else a.nTruncated
    sum := if n.accepted then a.sum + n.h else a.sum }

/-- `Average step size` (ode_solver_output.h:257); the subtraction is that of unsigned numbers. -/
def Stats.average (a : Stats K) : Res K :=
  div a.sum ((if a.nRejected ≤ a.nSteps then a.nSteps - a.nRejected
    else a.nSteps + 4294967296 - a.nRejected : Nat) : K)

/-- Evaluations of the right-hand side and the beginnings and ends of Jacobian computations, as seen by the
statistics (ode_solver_output.h:197-211) -/
inductive RhsEv where
  | rhs
  | refresh (start : Bool)
  deriving DecidableEq, Repr

/-- `odeRhsTimingStats.count()`, `odeRhsInvocationCount4J`, `computingJacobian` (ode_solver_output.h:157-160) -/
structure RhsCount where
  total : Nat
  forJ : Nat
  computing : Bool
  deriving DecidableEq, Repr

/-- `afterOdeRhs`, `onStartStopJRefresh` (ode_solver_output.h:197-211) -/
def RhsCount.after (c : RhsCount) : RhsEv → RhsCount
  | .rhs => { c with total := c.total + 1, forJ := if c.computing then c.forJ + 1 else c.forJ }
  | .refresh b => { c with computing := b }

/-! ### Step report -/

/-- A line written by OdeSolverStepGeneralConsoleOutput (ode_solver_output.h:317-329) -/
structure Line (K : Type) where
  step : Nat
  time : K
  h : K
  accepted : Bool
  changed : Bool
  tr : RK.Trunc
  deriving DecidableEq

/-- OdeSolverStepGeneralConsoleOutput: number of attempts, time filter, lines written -/
structure General (K : Type) where
  nSteps : Nat
  gate : Gate K
  lines : List (Line K)
  deriving DecidableEq

/-- `beforeFirstStep` (ode_solver_output.h:277-284, 301-305) -/
def General.new (timing start : K) : General K := ⟨0, Gate.new timing start, []⟩

/-- `afterStep` (ode_solver_output.h:307-330): called for rejected attempts too, truncated steps are always
written. -/
def General.after (a : General K) (n : Note K V) : General K :=
  let r := a.gate.outputNow n.time n.tr.truncated
  { nSteps := a.nSteps + 1
    gate := r.2
    lines := if r.1 then a.lines ++ [⟨a.nSteps + 1, n.time, n.h, n.accepted, n.changed, n.tr⟩]
      else a.lines }

/-! ### Rows of the solution -/

/-- One iteration of `addIndices` (ode_solver_output.h:425-431); unsigned numbers have 32 bits. -/
def addIndicesStep (ibegin n L i : Nat) (l : List Nat) : Nat × List Nat :=
  if i = L ∧ (2 * L) % 4294967296 < n then (n - L, l)
  else (i + 1, l ++ [(ibegin + i) % 4294967296])

/-- Loop of `addIndices` (ode_solver_output.h:424-433); `none` if it takes more than `fuel` iterations. -/
def addIndicesLoop (ibegin n L : Nat) : Nat → Nat → List Nat → Option (List Nat)
  | 0, _, _ => none
  | fuel + 1, i, l =>
    if i < n then
      let r := addIndicesStep ibegin n L i l
      addIndicesLoop ibegin n L fuel r.1 r.2
    else some l

/-- `addIndices( ibegin, iend )` (ode_solver_output.h:424-433) -/
def addIndices (L fuel ibegin iend : Nat) (l : List Nat) : Option (List Nat) :=
  addIndicesLoop ibegin ((iend + 4294967296 - ibegin) % 4294967296) L fuel 0 l

/-- Selection of the components to write (ode_solver_output.h:420-441): `n` variables, `n2` of them
coordinates of second-order equations. -/
def indices (L fuel n n2 : Nat) : Option (List Nat) :=
  if n2 = 0 then addIndices L fuel 0 n []
  else do
    let l ← addIndices L fuel 0 n2 []
    let l ← addIndices L fuel n2 (2 * n2 % 4294967296) l
    addIndices L fuel (2 * n2 % 4294967296) n l

/-- `cxx::FormatInt` of an unsigned number (util/cxx_str_fmt_num.h:11-13): it is converted to `int`. -/
def formatInt (i : Nat) : List Char :=
  if i % 4294967296 < 2147483648 then Util.dec (i % 4294967296)
  else '-' :: Util.dec (4294967296 - i % 4294967296)

/-- Name in the header (ode_solver_output.h:451-458) -/
def columnName (n2 i : Nat) : List Char :=
  if n2 = 0 ∨ i < n2 then 'x' :: formatInt i
  else if i < 2 * n2 then 'v' :: formatInt (i - n2)
  else 'z' :: formatInt (i - 2 * n2)

/-- `write` (ode_solver_output.h:464-474): the selected components; `operator[]` of the vector checks the
index. -/
def row (ix : List Nat) (x : List K) : Res (List K) := ix.mapM (fun i => at' x i)

/-- OdeSolverStepSolutionConsoleOutput: selection, time filter, header, rows -/
structure Rows (K : Type) where
  ix : List Nat
  gate : Gate K
  header : List (List Char)
  rows : List (K × List K)
  deriving DecidableEq

/-- `beforeFirstStep` (ode_solver_output.h:367-377) with the selection already made: the header and the
initial state are written without asking the time filter. -/
def Rows.new (ix : List Nat) (n2 : Nat) (timing start : K) (x : List K) : Res (Rows K) := do
  let r ← row ix x
  .ok ⟨ix, Gate.new timing start, ix.map (columnName n2), [(start, r)]⟩

/-- `afterStep` (ode_solver_output.h:476-481) -/
def Rows.after (a : Rows K) (n : Note K (List K)) : Res (Rows K) :=
  if n.accepted then
    let g := a.gate.outputNow n.time false
    if g.1 then do
      let r ← row a.ix n.state
      .ok { a with gate := g.2, rows := a.rows ++ [(n.time, r)] }
    else .ok { a with gate := g.2 }
  else .ok a

/-! ### Columns of the solution -/

/-- OdeSolverStepSolutionColumnwiseOutput (ode_solver_output.h:537-543): limit, time filter, columns -/
structure Columns (K : Type) where
  maxSteps : Nat
  gate : Gate K
  columns : List (K × List K)
  deriving DecidableEq

/-- `accum` (ode_solver_output.h:561-569) -/
def Columns.accum (a : Columns K) (time : K) (x : List K) : Columns K :=
  if a.maxSteps ≤ a.columns.length then a
  else
    let g := a.gate.outputNow time false
    { a with gate := g.2, columns := if g.1 then a.columns ++ [(time, x)] else a.columns }

/-- `beforeFirstStep` (ode_solver_output.h:498-506) -/
def Columns.new (maxSteps : Nat) (timing start : K) (x : List K) : Columns K :=
  (⟨maxSteps, Gate.new timing start, []⟩ : Columns K).accum start x

/-- `afterStep` (ode_solver_output.h:555-559) -/
def Columns.after (a : Columns K) (n : Note K (List K)) : Columns K :=
  if n.accepted then a.accum n.time n.state else a

/-! ### Initial state given by parameters -/

/-- SpecifiedOdeInitState (SpecifiedOdeInitState.h:54-55) -/
structure InitState (K : Type) where
  time : K
  x : List K
  deriving DecidableEq

/-- Constructor (SpecifiedOdeInitState.h:21) -/
def InitState.new : InitState K := ⟨0, []⟩

/-- `resize` (SpecifiedOdeInitState.h:57-63): a negative size becomes a huge unsigned one, which the vector
refuses; for a smaller size the range to be filled begins after its end. -/
def InitState.resize (n : Int) (s : InitState K) : Res (InitState K) :=
  if n = s.x.length then .ok s
  else if n < 0 then .error (.exc "length_error")
  else if n < s.x.length then .error .ub
  else .ok { s with x := s.x ++ List.replicate (n.toNat - s.x.length) 0 }

/-- Parameters of the initial state: `size`, `time` and `x0`, `x1`, ... with the text of their names; values
are already converted to their types. -/
structure InitParams (K : Type) where
  size : Option Int
  time : Option K
  x : List (List Char × K)

/-- `varName` (SpecifiedOdeInitState.h:65-67) -/
def initVarName (i : Nat) : List Char := 'x' :: formatInt i

/-- Looking up a name (infra/OptionalParameters.h:284-285) -/
def InitParams.find (p : InitParams K) (name : List Char) : Option K :=
  (p.x.find? (fun e => decide (e.1 = name))).map (·.2)

/-- `parameters` (SpecifiedOdeInitState.h:31-40) -/
def InitState.parameters (s : InitState K) : InitParams K :=
  ⟨some s.x.length, some s.time, (List.range s.x.length).map (fun i => (initVarName i, s.x.getD i 0))⟩

/-- `setParameters` (SpecifiedOdeInitState.h:42-51) -/
def InitState.setParameters (p : InitParams K) (s : InitState K) : Res (InitState K) := do
  let s ← (match p.size with
    | some n => s.resize n
    | none => .ok s : Res (InitState K))
  let s := match p.time with
    | some t => { s with time := t }
    | none => s
  let x ← loop 0 s.x.length (fun i x =>
    match p.find (initVarName i) with
    | some v => atSet x i v
    | none => .ok x) s.x
  .ok { s with x := x }

/-! ### Applying a configuration -/

/-- What is set on a solver by `apply`: the number of variables of its right-hand side, if it has one, and
its initial time and state -/
structure Conf (K : Type) where
  varCount : Option Nat
  time : K
  x : List K
  deriving DecidableEq

/-- `configureSolver` (OdeSolverConfiguration.h:242-269): the right-hand side `rhs` (its number of
variables) and the initial state `init` (type identifier, value) are those of the configuration, the last
two arguments are those of `apply`. A missing right-hand side is dereferenced. -/
def configureSolver (rhs : Option Nat) (init : Option (String × InitState K)) (t : K) (x : List K)
    (c : Conf K) : Res (Conf K) :=
  let c := { c with varCount := rhs }
  match (match init with
    | some (id, s) => if id = "sim_dyn_initial" then none else some s
    | none => none : Option (InitState K)) with
  | some s =>
    match c.varCount with
    | none => .error .ub
    | some n =>
      if s.x.length = n then .ok { c with time := s.time, x := s.x }
      else .error (.exc ("Invalid initial state size: expected " ++ toString n ++ ", passed " ++
        toString s.x.length))
  | none => .ok { c with time := t, x := x }

/-- `apply` (OdeSolverConfiguration.h:226-285) with the solver and the reference solver of the
configuration, if given -/
def apply (solver ref : Option (Conf K)) (rhs : Option Nat) (init : Option (String × InitState K))
    (t : K) (x : List K) : Res (Conf K × Option (Conf K)) := do
  match solver with
  | none => .error (.exc "ODE solver is not specified")
  | some s => do
    let s ← configureSolver rhs init t x s
    match ref with
    | none => .ok (s, none)
    | some r => do
      let r ← configureSolver rhs init t x r
      .ok (s, some r)

end

/-! ### Richardson error -/

section
variable {K V S : Type} [Field K] [LinearOrder K] [AddCommGroup V] [Module K V]

/-- The part of the interface OdeSolver used by the error calculator (interfaces/OdeSolver.h:103-121) -/
structure RSolver (K V S : Type) extends Solver K V S where
  order : Nat
  disableErrorCheck : S → S
  setInitialState : K → V → Bool → S → Res S
  setInitialStepSize : K → S → S

/-- A step watched by the observer of the calculator (util/RichardsonErrorCalculator.h:48-55): the solver
after the step and whether the sample is to be skipped. The observer throws when the step size has changed,
which ends the step. -/
def watched (sv : RSolver K V S) (skip : Bool) (s : S) : Res (S × Bool) :=
  let r := sv.doStep s
  if r.1.any (·.changed) then
    .error (.exc "ODE solver changed step size, which is currently unexpected")
  else
    match r.2 with
    | .error e => .error e
    | .ok s' => .ok (s', skip || r.1.any (fun n => !n.accepted || n.tr.truncated))

/-- The body of the loop (util/RichardsonErrorCalculator.h:57-76) from time `t` and state `x`: the solver,
`x1`, and the error if there is a sample. `factor` is `2^p / (2^p - 1)`. -/
def richardsonStep (sv : RSolver K V S) (factor h t : K) (x : V) (s : S) : Res (S × V × Option V) := do
  let s ← sv.setInitialState t x true s
  let s := sv.setInitialStepSize (1 / 2 * h) s
  let a ← watched sv false s
  let b ← watched sv a.2 a.1
  let x1 := sv.state b.1
  let s ← sv.setInitialState t x true b.1
  let s := sv.setInitialStepSize h s
  let c ← watched sv b.2 s
  let x2 := sv.state c.1
  .ok (c.1, x1, if c.2 then none else some (factor • (x1 - x2)))

/-- What the step observers of the calculator are called with: time, step, error
(util/RichardsonErrorCalculator.h:74) -/
structure Sample (K V : Type) where
  t : K
  h : K
  error : V

/-- The loop (util/RichardsonErrorCalculator.h:56-80) -/
def richardsonLoop (sv : RSolver K V S) (factor h tEnd : K) : Nat → K → V → S →
    Option (Res (List (Sample K V)))
  | 0, _, _, _ => none
  | fuel + 1, t, x, s =>
    match richardsonStep sv factor h t x s with
    | .error e => some (.error e)
    | .ok (s', x1, err) =>
      let out := match err with
        | some e => [⟨t, h, e⟩]
        | none => []
      if t + h < tEnd then
        (richardsonLoop sv factor h tEnd fuel (t + h) x1 s').map fun r => r.map (out ++ ·)
      else some (.ok out)

/-- `factor` (util/RichardsonErrorCalculator.h:45): shifting a 32-bit one, undefined from 31 on. -/
def richardsonFactor (p : Nat) : Res K :=
  if 31 ≤ p then .error .ub else div (2 ^ p) (2 ^ p - 1)

/-- `calculateError` (util/RichardsonErrorCalculator.h:31-82): the calls of the step observers; the result is
the statistics of their errors (`Util.ErrorStats`). -/
def calculateError (sv : RSolver K V S) (T h : K) (fuel : Nat) (s : S) :
    Option (Res (List (Sample K V))) :=
  let s := sv.disableErrorCheck s
  match (richardsonFactor sv.order : Res K) with
  | .error e => some (.error e)
  | .ok f => richardsonLoop sv f h (sv.time s + T) fuel (sv.time s) (sv.state s) s

end

end Verif.Driver
