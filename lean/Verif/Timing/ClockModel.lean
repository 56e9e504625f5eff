import Verif.Basic
import Mathlib.Data.Rat.Defs
import Mathlib.Algebra.Order.Ring.Unbundled.Rat

/-
Model of how times are measured and reported:
 * `OpaqueTickCounter` (include/ode_num_int/timing/OpaqueTickCounter.h, src/OpaqueTickCounter.cpp);
 * `TimerCalibrator` (include/ode_num_int/timing/TimerCalibrator.h, src/TimerCalibrator.cpp);
 * `TimingStats` (include/ode_num_int/timing/TimingStats.h), with the widths of its numbers;
 * the times in the statistics output (include/ode_num_int/ode/ode_solver_output.h).

Tick counts and clock times are 64 bits wide, counts are 32 bits wide, all wrap around. What the hardware counter (`__rdtsc`) and the
system clock (`GetClockTimeMsec`) read is given with every call. Assertions do nothing, as in a release build.
Simplifications: conversions to milliseconds are exact; a division of floating point numbers by zero (infinity or not a number) is a
fault; texts are values saying what is printed.
-/

namespace Verif.Timing.Clock

/-- `OpaqueTickType` (OpaqueTickCounter.h:8-12) -/
abbrev Tick := BitVec 64

/-- `OpaqueTickCounter`: `tStart`, at first `~0` (OpaqueTickCounter.h:17, 23-26) -/
structure Counter where
  tStart : Tick := BitVec.allOnes 64
  deriving DecidableEq

/-- `Start` (OpaqueTickCounter.cpp:14-18) -/
def Counter.start (now : Tick) (_ : Counter) : Counter := { tStart := now }

/-- `Stop` (OpaqueTickCounter.cpp:20-27) -/
def Counter.stop (now : Tick) (c : Counter) : Tick × Counter := (now - c.tStart, { tStart := BitVec.allOnes 64 })

/-- `Lap` (OpaqueTickCounter.cpp:29-35) -/
def Counter.lap (now : Tick) (c : Counter) : Tick × Counter := (now - c.tStart, { tStart := now })

/-- `TimerCalibrator` (TimerCalibrator.h:23-27) -/
structure Calibrator where
  timer : Counter
  timerInterval : Tick
  msecInterval : BitVec 64
  stopped : Bool
  deriving DecidableEq

namespace Calibrator

/-- Constructor (TimerCalibrator.cpp:12-17) -/
def new (ticks : Tick) (msec : BitVec 64) : Calibrator :=
  { timer := Counter.start ticks {}, timerInterval := 0, msecInterval := msec, stopped := false }

/-- `stop` (TimerCalibrator.cpp:19-26) -/
def stop (ticks : Tick) (msec : BitVec 64) (c : Calibrator) : Calibrator :=
  let (dt, timer) := c.timer.stop ticks
  { timer, timerInterval := dt, msecInterval := msec - c.msecInterval, stopped := true }

/-- `toMsecAvailable` (TimerCalibrator.cpp:28-30) -/
def toMsecAvailable (c : Calibrator) : Bool :=
  c.stopped && decide (100 ≤ c.msecInterval.toNat) && decide (0 < c.timerInterval.toNat)

/-- `toMsec` (TimerCalibrator.cpp:36-42) -/
def toMsec (c : Calibrator) (interval : Tick) : Res ℚ :=
  if c.msecInterval.toNat < 100 then .error (.exc "TimerCalibrator::toMsec() failed: measurement interval is too short")
  else if c.timerInterval.toNat = 0 then .error .divZero
  else .ok (interval.toNat * c.msecInterval.toNat / c.timerInterval.toNat)

end Calibrator

/-- A time as printed: in milliseconds, or in ticks, with the milliseconds if they can be given (TimerCalibrator.cpp:48-54) -/
inductive Shown where
  | msec (t : ℚ)
  | ticks (n : Tick) (t : Option ℚ)
  deriving DecidableEq

/-- `formatTimeInterval` (TimerCalibrator.cpp:44-56) -/
def Calibrator.format (c : Calibrator) (interval : Tick) (noTicksIfPossible : Bool := true) : Res Shown :=
  if noTicksIfPossible && c.toMsecAvailable then (c.toMsec interval).map .msec
  else if c.toMsecAvailable then (c.toMsec interval).map (fun t => .ticks interval (some t))
  else .ok (.ticks interval none)

/-- `TimingStats` (TimingStats.h:17, 43-45) -/
structure TStat where
  time : Tick := 0
  count : BitVec 32 := 0
  deriving DecidableEq

/-- `add` (TimingStats.h:38-41) -/
def TStat.add (s : TStat) (t : Tick) : TStat := { time := s.time + t, count := s.count + 1 }

/-- `averageTime` (TimingStats.h:35-37) -/
def TStat.average (s : TStat) : Tick := if s.count.toNat > 0 then BitVec.ofNat 64 (s.time.toNat / s.count.toNat) else 0

/-- `OdeSolverStatisticsOutput::D`, the timers and their statistics (ode_solver_output.h:157-165) -/
structure Timers where
  odeRhs : TStat := {}
  odeRhsTimer : Counter := {}
  jacobian : TStat := {}
  jacobianTimer : Counter := {}
  tc : Calibrator
  total : Counter
  deriving DecidableEq

/-- Constructor: the calibrator reads both clocks, then the timer of the total time is started (ode_solver_output.h:164-177) -/
def Timers.new (ticks : Tick) (msec : BitVec 64) (ticks' : Tick) : Timers :=
  { tc := Calibrator.new ticks msec, total := Counter.start ticks' {} }

/-- What the output is told: a right-hand side is about to be computed, was computed; a Jacobian is about to be computed, was
computed (`jacobianRefreshObservers( start )`) -/
inductive Ev where
  | beforeRhs | afterRhs | jacobian (start : Bool)
  deriving DecidableEq

/-- `beforeOdeRhs`, `afterOdeRhs`, `onStartStopJRefresh` (ode_solver_output.h:193-211), as far as times go -/
def Timers.event (now : Tick) (d : Timers) : Ev → Timers
  | .beforeRhs => { d with odeRhsTimer := d.odeRhsTimer.start now }
  | .afterRhs => let (t, c) := d.odeRhsTimer.stop now; { d with odeRhs := d.odeRhs.add t, odeRhsTimer := c }
  | .jacobian true => { d with jacobianTimer := d.jacobianTimer.start now }
  | .jacobian false => let (t, c) := d.jacobianTimer.stop now; { d with jacobian := d.jacobian.add t, jacobianTimer := c }

/-- Events in a row, each with the number of ticks since the machine was started; of these the counter shows the low 64 bits. -/
def Timers.run : List (Nat × Ev) → Timers → Timers
  | [], d => d
  | (t, e) :: es, d => Timers.run es (d.event (BitVec.ofNat 64 t) e)

/-- A line of the statistics output -/
structure Line where
  total : Shown
  average : Shown
  count : Nat
  deriving DecidableEq

/-- `reportTimingStats` (ode_solver_output.h:221-228) -/
def reportStat (tc : Calibrator) (s : TStat) : Res (Option Line) :=
  if s.count.toNat = 0 then .ok none
  else do
    let total ← tc.format s.time
    let average ← tc.format s.average
    .ok (some ⟨total, average, s.count.toNat⟩)

/-- The times printed: "Total time", "Speed" (if milliseconds are available; `some none` is the quotient by
zero), "TIMING: Jacobian", "TIMING: ODE RHS" -/
structure Report where
  total : Shown
  speed : Option (Option ℚ)
  jacobian : Option Line
  odeRhs : Option Line
  deriving DecidableEq

/-- `printStats` (ode_solver_output.h:213-234); the calibrator reads both clocks, then the timer of the total time is stopped -/
def Timers.report (ticks : Tick) (msec : BitVec 64) (ticks' : Tick) (modelTime : ℚ) (d : Timers) : Res Report := do
  let tc := d.tc.stop ticks msec
  let (t, _) := d.total.stop ticks'
  let total ← tc.format t
  let speed ← if tc.toMsecAvailable then do
      let ms ← tc.toMsec t
      .ok (some (if ms = 0 then none else some (modelTime * 1000 / ms)))
    else .ok none
  let jacobian ← reportStat tc d.jacobian
  let odeRhs ← reportStat tc d.odeRhs
  .ok ⟨total, speed, jacobian, odeRhs⟩

end Verif.Timing.Clock
