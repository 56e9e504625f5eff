import Mathlib.Data.Nat.Notation
import Mathlib.Algebra.Group.Basic

/-
Model of the timing statistics of LU factorizations:
 * `TimingStats`, `ScopedTimeMeasurer` (include/ode_num_int/timing/TimingStats.h);
 * `LUFactorizerTimingStats` (include/ode_num_int/lu/LUFactorizerTimingStats.h);
 * where `LUFactorizer` measures (include/ode_num_int/lu/LUFactorizer.h);
 * what the descent directions (include/ode_num_int/alg/*NewtonDescentDirection.h), the implicit Euler solver, the Rosenbrock solvers
   and the extrapolator do with the measurements;
 * the lines on LU of the statistics output (include/ode_num_int/ode/ode_solver_output.h).

Only what decides which operations are made and counted is kept: of a factorizer its size and whether it is factorized. Everything
else a call depends on is an input of the call, and arbitrary: whether the Jacobian is empty, its size, whether its elements fit
the stencil. Numbers computed are in Verif/LU, Verif/Alg, Verif/Ros.

Other simplifications:
 * the time an operation takes is arbitrary: `clk n` ticks for the `n`-th operation of the program; of an operation made inside
   another one (`setMatrix` inside `setMatrixFast`) the time is counted for both, as it is by the measurers;
 * `unsigned int` and tick counts are natural numbers (no wrap-around);
 * calls that throw are left out.
-/

namespace Verif.Timing

/-- `TimingStats` (TimingStats.h:14-46) -/
structure Stat where
  /-- `m_time` -/ time : Nat := 0
  /-- `m_count` -/ count : Nat := 0
  deriving DecidableEq

/-- `add` (TimingStats.h:38-41) -/
def Stat.add (s : Stat) (t : Nat) : Stat := { time := s.time + t, count := s.count + 1 }

/-- `operator+=` (TimingStats.h:18-22) -/
def Stat.plus (s that : Stat) : Stat := { time := s.time + that.time, count := s.count + that.count }

/-- `averageTime` (TimingStats.h:35-37) -/
def Stat.average (s : Stat) : Nat := if s.count > 0 then s.time / s.count else 0

/-- `LUFactorizerTimingStats` (LUFactorizerTimingStats.h:11-17) -/
structure LuStats where
  factorize : Stat := {}
  solve : Stat := {}
  setMatrix : Stat := {}
  setMatrixFast : Stat := {}
  update : Stat := {}
  deriving DecidableEq

/-- `operator+=` (LUFactorizerTimingStats.h:18-25) -/
def LuStats.plus (s that : LuStats) : LuStats :=
  { factorize := s.factorize.plus that.factorize
    solve := s.solve.plus that.solve
    setMatrix := s.setMatrix.plus that.setMatrix
    setMatrixFast := s.setMatrixFast.plus that.setMatrixFast
    update := s.update.plus that.update }

/-- The operations of `LUFactorizer` that are measured (LUFactorizer.h:42, 129, 160, 245, 411) -/
inductive Op where
  | factorize | solve | setMatrix | setMatrixFast | update
  deriving DecidableEq

/-- The program's history: all LU operations made so far, by whatever factorizer, with the time they took. Not part of the code:
it says what the statistics are about. -/
abbrev Log := List (Op × Nat)

/-- A factorizer: `m_p.size()`, `m_factorized`, `m_timingStats` (LUFactorizer.h:445, 453-454). As created: empty. -/
structure Lu where
  size : Nat := 0
  factorized : Bool := false
  stats : LuStats := {}
  deriving DecidableEq

/-- `ScopedTimeMeasurer` around an operation: the time is added where the measurer was told (TimingStats.h:48-63). -/
def measure (clk : Nat → Nat) (log : Log) (op : Op) (s : LuStats) : LuStats × Log :=
  let t := clk log.length
  (match op with
    | .factorize => { s with factorize := s.factorize.add t }
    | .solve => { s with solve := s.solve.add t }
    | .setMatrix => { s with setMatrix := s.setMatrix.add t }
    | .setMatrixFast => { s with setMatrixFast := s.setMatrixFast.add t }
    | .update => { s with update := s.update.add t },
   log ++ [(op, t)])

/-- `setMatrix` with a matrix of size `n` (LUFactorizer.h:40-119) -/
def Lu.setMatrix (clk : Nat → Nat) (n : Nat) (l : Lu) (log : Log) : Lu × Log :=
  let (s, log) := measure clk log .setMatrix l.stats
  ({ size := n, factorized := false, stats := s }, log)

/-- `setMatrixFast` (LUFactorizer.h:126-150): when the elements do not fit the stencil `setMatrix` is called, inside. -/
def Lu.setMatrixFast (clk : Nat → Nat) (n : Nat) (fits : Bool) (l : Lu) (log : Log) : Lu × Log :=
  let (l, log) := if fits then ({ l with factorized := false }, log) else l.setMatrix clk n log
  let (s, log) := measure clk log .setMatrixFast l.stats
  ({ l with stats := s }, log)

/-- `factorize` (LUFactorizer.h:407-443) -/
def Lu.factorize (clk : Nat → Nat) (l : Lu) (log : Log) : Lu × Log :=
  if l.factorized then (l, log)
  else
    let (s, log) := measure clk log .factorize l.stats
    ({ l with factorized := true, stats := s }, log)

/-- `solve` (LUFactorizer.h:157-179) -/
def Lu.solve (clk : Nat → Nat) (l : Lu) (log : Log) : Lu × Log :=
  let (l, log) := l.factorize clk log
  let (s, log) := measure clk log .solve l.stats
  ({ l with stats := s }, log)

/-- `secantUpdateHart` (LUFactorizer.h:242-285) -/
def Lu.updateHart (clk : Nat → Nat) (l : Lu) (log : Log) : Lu × Log :=
  let (l, log) := l.factorize clk log
  let (s, log) := measure clk log .update l.stats
  ({ l with stats := s }, log)

/-- `clearTimingStats` (LUFactorizer.h:338-340) -/
def Lu.clear (l : Lu) : Lu := { l with stats := {} }

/-- The descent directions that factorize matrices -/
inductive Kind where
  | simple | const | hart | broyden | fakeBroyden | lazyFakeBroyden
  deriving DecidableEq

/-- `m_jacobianAction` (JacobianLazyFakeBroydenUpdateNewtonDescentDirection.h) -/
inductive Action where
  | recompute | leave | update
  deriving DecidableEq

/-- A descent direction: `luTimingStats` (NewtonDescentDirection.h:41), `m_lu`, `m_havePrev`, and
`m_lastIterationNumber`, `m_lazyIterations`, `m_jacobianAction`
(JacobianLazyFakeBroydenUpdateNewtonDescentDirection.h:26-31, 120-127). -/
structure Dir where
  kind : Kind
  lu : Lu := {}
  stats : LuStats := {}
  havePrev : Bool := false
  lastIteration : Nat := 0
  lazyIterations : Nat := 10
  action : Action := .recompute
  deriving DecidableEq

/-- What a call of `computeDescentDirection` depends on besides the direction's own state: the iteration number, whether the
provider's Jacobian is empty before the call, the size of the Jacobian, and whether its elements fit the stencil of the factorizer
(twice, since the lazy direction may set the matrix twice). -/
structure In where
  iteration : Nat
  jEmpty : Bool
  n : Nat
  fits : Bool
  fits2 : Bool

/-- Set the matrix, fast if there is one already (SimpleNewtonDescentDirection.h:44-47) -/
def Lu.refresh (clk : Nat → Nat) (i : In) (l : Lu) (log : Log) : Lu × Log :=
  if l.size = 0 then l.setMatrix clk i.n log else l.setMatrixFast clk i.n i.fits log

/-- What `computeDescentDirection` does with factorizers, after the statistics of `m_lu` were cleared and before they are added:
SimpleNewtonDescentDirection.h:36-51, ConstJacobianNewtonDescentDirection.h:36-51, JacobianHartUpdateNewtonDescentDirection.h:44-80,
JacobianBroydenUpdateNewtonDescentDirection.h:70-72 (a factorizer of its own, made from the Jacobian),
JacobianFakeBroydenUpdateNewtonDescentDirection.h:41-72, JacobianLazyFakeBroydenUpdateNewtonDescentDirection.h:51-89 -/
def Dir.work (clk : Nat → Nat) (i : In) (d : Dir) (l : Lu) (log : Log) : Lu × Log :=
  match d.kind with
  | .simple =>
    let (l, log) := l.refresh clk i log
    l.solve clk log
  | .const =>
    let (l, log) := if l.factorized then (l, log) else l.setMatrix clk i.n log
    l.solve clk log
  | .hart =>
    let recalc := !l.factorized
    let (l, log) := if recalc then l.setMatrix clk i.n log else (l, log)
    let (l, log) := if !recalc && d.havePrev then l.updateHart clk log else (l, log)
    l.solve clk log
  | .broyden =>
    let (l, log) := ({} : Lu).setMatrix clk i.n log
    l.solve clk log
  | .fakeBroyden =>
    let (l, log) := l.refresh clk i log
    l.solve clk log
  | .lazyFakeBroyden =>
    let recalc := i.iteration == 0 && (i.jEmpty || d.action == .recompute)
    let (l, log) := if recalc then l.refresh clk i log else (l, log)
    let (l, log) := if i.iteration == 0 && d.action == .update then l.setMatrixFast clk i.n i.fits2 log else (l, log)
    l.solve clk log

/-- `computeDescentDirection`: clear, work, add (SimpleNewtonDescentDirection.h:33-53 and likewise in the others; the Broyden
direction has no `m_lu`, JacobianBroydenUpdateNewtonDescentDirection.h:42-76). -/
def Dir.compute (clk : Nat → Nat) (i : In) (d : Dir) (log : Log) : Dir × Log :=
  let (l, log) := d.work clk i d.lu.clear log
  ({ d with
      lu := if d.kind = .broyden then d.lu else l
      stats := d.stats.plus l.stats
      havePrev := true
      lastIteration := i.iteration }, log)

/-- `reset` (SimpleNewtonDescentDirection.h:22-27, JacobianHartUpdateNewtonDescentDirection.h:28-35,
JacobianBroydenUpdateNewtonDescentDirection.h:29-34, JacobianLazyFakeBroydenUpdateNewtonDescentDirection.h:33-41): a hard one gives a new
factorizer. -/
def Dir.reset (hard : Bool) (d : Dir) : Dir :=
  { d with
      lu := if hard && d.kind ≠ .broyden then {} else d.lu
      havePrev := false
      action := if hard then .recompute else d.action }

/-- `reportSuccess` (JacobianLazyFakeBroydenUpdateNewtonDescentDirection.h:93-97; the others do nothing) -/
def Dir.reportSuccess (success : Bool) (d : Dir) : Dir :=
  { d with action := if success then (if d.lastIteration + 1 ≤ d.lazyIterations then .leave else .update) else .recompute }

/-- The calls of a descent direction -/
inductive Call where
  | compute (i : In) | reset (hard : Bool) | reportSuccess (success : Bool)

/-- One call -/
def Dir.call (clk : Nat → Nat) (d : Dir) (log : Log) : Call → Dir × Log
  | .compute i => d.compute clk i log
  | .reset hard => (d.reset hard, log)
  | .reportSuccess s => (d.reportSuccess s, log)

/-- Calls in a row -/
def Dir.calls (clk : Nat → Nat) : List Call → Dir → Log → Dir × Log
  | [], d, log => (d, log)
  | c :: cs, d, log => let (d, log) := d.call clk log c; Dir.calls clk cs d log

/-- The implicit Euler solver: the descent direction of its Newton solver and its own `luTimingStats` (OdeSolver.h:80) -/
structure Euler where
  dir : Dir
  stats : LuStats := {}

/-- `doStep` of the implicit Euler solver (OdeSolverImplicitEuler.h:85-159): the Newton method calls the descent
direction, `cs`; in the end its statistics are moved to the solver (153-156). -/
def Euler.doStep (clk : Nat → Nat) (e : Euler) (log : Log) (cs : List Call) : Euler × Log :=
  let (d, log) := Dir.calls clk cs e.dir log
  ({ dir := { d with stats := {} }, stats := e.stats.plus d.stats }, log)

/-- Steps in a row -/
def Euler.steps (clk : Nat → Nat) : List (List Call) → Euler → Log → Euler × Log
  | [], e, log => (e, log)
  | cs :: css, e, log => let (e, log) := e.doStep clk log cs; Euler.steps clk css e log

/-- A Rosenbrock solver: `m_W_LU_cache` by the value of `h d`, the entry `m_W_LU` points to, `m_hd4W`
(OdeSolverRosenbrock_W_base.h:103-106), and `luTimingStats`. `Key` are the values of `h d`. -/
structure Ros (Key : Type) where
  cache : List (Key × Lu) := []
  cur : Option Key := none
  stats : LuStats := {}

variable {Key : Type} [DecidableEq Key]

/-- `updateW` (OdeSolverRosenbrock_W_base.h:150-171): a matrix of size `n` is decomposed for a new value of `h d`; a full cache is
cleared first. -/
def Ros.updateW (clk : Nat → Nat) (n : Nat) (hd : Key) (r : Ros Key) (log : Log) : Ros Key × Log :=
  if r.cur = some hd then (r, log)
  else if (r.cache.lookup hd).isSome then ({ r with cur := some hd }, log)
  else
    let c := if r.cache.length ≥ 100 then [] else r.cache
    let (l, log) := ({} : Lu).setMatrix clk n log
    ({ r with cache := (hd, l) :: c, cur := some hd }, log)

/-- `initStep` (OdeSolverRosenbrock_W_base.h:70-90, 143-148): after a hard reset the cache is cleared. -/
def Ros.initStep (clk : Nat → Nat) (hard : Bool) (n : Nat) (hd : Key) (r : Ros Key) (log : Log) : Ros Key × Log :=
  (if hard then { r with cache := [], cur := none } else r).updateW clk n hd log

/-- `linSolve` (OdeSolverRosenbrock_W_base.h:47-57); `m_W_LU` is set after `initStep`. -/
def Ros.linSolve (clk : Nat → Nat) (r : Ros Key) (log : Log) : Ros Key × Log :=
  match r.cur with
  | none => (r, log)
  | some hd =>
    match r.cache.lookup hd with
    | none => (r, log)
    | some l =>
      let (l, log) := l.clear.solve clk log
      ({ r with cache := r.cache.map (fun e => if e.1 = hd then (e.1, l) else e), stats := r.stats.plus l.stats }, log)

/-- `k` calls of `linSolve` -/
def Ros.linSolves (clk : Nat → Nat) : Nat → Ros Key → Log → Ros Key × Log
  | 0, r, log => (r, log)
  | k + 1, r, log => let (r, log) := r.linSolve clk log; Ros.linSolves clk k r log

/-- A `doStep` of a Rosenbrock solver: `initStep`, then `linSolve` once for every stage of every attempt
(OdeSolverRosenbrock_W1.h:57-106, OdeSolverRosenbrock_SW2_4.h:67-185). -/
structure RosStep (Key : Type) where
  hard : Bool
  n : Nat
  hd : Key
  solves : Nat

/-- Steps in a row -/
def Ros.steps (clk : Nat → Nat) : List (RosStep Key) → Ros Key → Log → Ros Key × Log
  | [], r, log => (r, log)
  | p :: ps, r, log =>
    let (r, log) := r.initStep clk p.hard p.n p.hd log
    let (r, log) := Ros.linSolves clk p.solves r log
    Ros.steps clk ps r log

/-- The extrapolator with the implicit Euler solver as its reference solver: two objects, each with its `luTimingStats`
(OdeSolver.h:80). -/
structure Extr where
  ref : Euler
  stats : LuStats := {}

/-- `doStep` of the extrapolator (OdeSolverExtrapolator.h:108-122): the reference solver makes steps; the extrapolator's own
`luTimingStats` are not touched. -/
def Extr.doStep (clk : Nat → Nat) (x : Extr) (log : Log) (css : List (List Call)) : Extr × Log :=
  let (e, log) := Euler.steps clk css x.ref log
  ({ x with ref := e }, log)

/-- A line of the statistics output -/
structure Line where
  title : String
  total : Nat
  average : Nat
  count : Nat
  deriving DecidableEq

/-- `reportTimingStats` (ode_solver_output.h:221-228) -/
def reportStat (title : String) (s : Stat) : List Line :=
  if s.count = 0 then [] else [⟨title, s.time, s.average, s.count⟩]

/-- The lines on LU (ode_solver_output.h:235-240) -/
def report (s : LuStats) : List Line :=
  reportStat "TIMING: LU factorize" s.factorize ++ reportStat "TIMING: LU solve" s.solve ++
  reportStat "TIMING: LU set mx" s.setMatrix ++ reportStat "TIMING: LU set mx fast" s.setMatrixFast ++
  reportStat "TIMING: LU update" s.update

end Verif.Timing
