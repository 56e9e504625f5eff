import Verif.Timing.Model
import Mathlib.Data.List.Dedup
import Mathlib.Data.List.Count
import Mathlib.Algebra.BigOperators.Group.List.Basic
import Mathlib.Tactic.Linarith

/-
C131: the numbers of LU operations and their times in the statistics are those of the operations made.
C132: how often the descent directions and the Rosenbrock solvers decompose a matrix.
-/

namespace Verif.Timing

/-- How many operations `op` there are in a history -/
def number (log : Log) (op : Op) : Nat := log.countP (fun e => e.1 = op)

/-- How much time they took -/
def total (log : Log) (op : Op) : Nat := ((log.filter (fun e => e.1 = op)).map (·.2)).sum

/-- The entry of the statistics for an operation -/
def LuStats.get (s : LuStats) : Op → Stat
  | .factorize => s.factorize
  | .solve => s.solve
  | .setMatrix => s.setMatrix
  | .setMatrixFast => s.setMatrixFast
  | .update => s.update

@[simp] theorem number_nil (op : Op) : number [] op = 0 := rfl
@[simp] theorem total_nil (op : Op) : total [] op = 0 := rfl
@[simp] theorem number_append (a b : Log) (op : Op) : number (a ++ b) op = number a op + number b op := by simp [number]
@[simp] theorem total_append (a b : Log) (op : Op) : total (a ++ b) op = total a op + total b op := by simp [total]

/-- The operations `new` were made, and counted in the statistics -/
def Counted (s : LuStats) (log : Log) (s' : LuStats) (log' : Log) (new : Log) : Prop :=
  log' = log ++ new ∧
    ∀ op, (s'.get op).count = (s.get op).count + number new op ∧ (s'.get op).time = (s.get op).time + total new op

theorem Counted.refl (s : LuStats) (log : Log) : Counted s log s log [] := by simp [Counted]

theorem Counted.trans {s s' s'' : LuStats} {log log' log'' new new' : Log} (h : Counted s log s' log' new)
    (h' : Counted s' log' s'' log'' new') : Counted s log s'' log'' (new ++ new') := by
  refine ⟨by rw [h'.1, h.1, List.append_assoc], fun op => ?_⟩
  have a := h.2 op
  have b := h'.2 op
  rw [number_append, total_append]
  omega

theorem measure_counted (clk : Nat → Nat) (log : Log) (op : Op) (s : LuStats) :
    Counted s log (measure clk log op s).1 (measure clk log op s).2 [(op, clk log.length)] := by
  refine ⟨rfl, fun o => ?_⟩
  cases op <;> cases o <;> simp [measure, LuStats.get, Stat.add, number, total]

theorem plus_get (s t : LuStats) (op : Op) : (s.plus t).get op = (s.get op).plus (t.get op) := by cases op <;> rfl

theorem Counted.plus {t : LuStats} {log log' new : Log} (h : Counted {} log t log' new) (s : LuStats) :
    Counted s log (s.plus t) log' new := by
  refine ⟨h.1, fun op => ?_⟩
  have z : (({} : LuStats).get op) = {} := by cases op <;> rfl
  have a := h.2 op
  rw [z] at a
  simp only [zero_add] at a
  rw [plus_get, ← a.1, ← a.2]
  exact ⟨rfl, rfl⟩

/-- What a factorizer does to itself and the history; the operations made are counted -/
abbrev LuCounted (l : Lu) (log : Log) (r : Lu × Log) : Prop := ∃ new, Counted l.stats log r.1.stats r.2 new

theorem LuCounted.trans {l : Lu} {log : Log} {r r' : Lu × Log} (h : LuCounted l log r) (h' : LuCounted r.1 r.2 r') :
    LuCounted l log r' := by
  obtain ⟨a, ha⟩ := h
  obtain ⟨b, hb⟩ := h'
  exact ⟨_, ha.trans hb⟩

variable (clk : Nat → Nat)

theorem setMatrix_counted (n : Nat) (l : Lu) (log : Log) : LuCounted l log (l.setMatrix clk n log) :=
  ⟨_, measure_counted clk log .setMatrix l.stats⟩

theorem setMatrixFast_counted (n : Nat) (fits : Bool) (l : Lu) (log : Log) :
    LuCounted l log (l.setMatrixFast clk n fits log) := by
  cases fits
  · exact (setMatrix_counted clk n l log).trans ⟨_, measure_counted clk _ .setMatrixFast _⟩
  · exact ⟨_, measure_counted clk log .setMatrixFast l.stats⟩

theorem factorize_counted (l : Lu) (log : Log) : LuCounted l log (l.factorize clk log) := by
  unfold Lu.factorize
  split
  · exact ⟨[], .refl _ _⟩
  · exact ⟨_, measure_counted clk log .factorize l.stats⟩

theorem solve_counted (l : Lu) (log : Log) : LuCounted l log (l.solve clk log) :=
  (factorize_counted clk l log).trans ⟨_, measure_counted clk _ .solve _⟩

theorem updateHart_counted (l : Lu) (log : Log) : LuCounted l log (l.updateHart clk log) :=
  (factorize_counted clk l log).trans ⟨_, measure_counted clk _ .update _⟩

theorem refresh_counted (i : In) (l : Lu) (log : Log) : LuCounted l log (l.refresh clk i log) := by
  unfold Lu.refresh
  split
  · exact setMatrix_counted ..
  · exact setMatrixFast_counted ..

theorem ite_counted {l : Lu} {log : Log} {r : Lu × Log} (b : Prop) [Decidable b] (h : LuCounted l log r) :
    LuCounted l log (if b then r else (l, log)) := by
  split
  · exact h
  · exact ⟨[], .refl _ _⟩

theorem ite_counted' {l : Lu} {log : Log} {r : Lu × Log} (b : Prop) [Decidable b] (h : LuCounted l log r) :
    LuCounted l log (if b then (l, log) else r) := by
  split
  · exact ⟨[], .refl _ _⟩
  · exact h

theorem work_counted (i : In) (d : Dir) (l : Lu) (hl : l.stats = {}) (log : Log) : LuCounted l log (d.work clk i l log) := by
  unfold Dir.work
  cases d.kind
  · exact (refresh_counted clk i l log).trans (solve_counted ..)
  · exact (ite_counted' _ (setMatrix_counted clk i.n l log)).trans (solve_counted ..)
  · exact ((ite_counted _ (setMatrix_counted clk i.n l log)).trans (ite_counted _ (updateHart_counted ..))).trans (solve_counted ..)
  · have h := (setMatrix_counted clk i.n ({} : Lu) log).trans (solve_counted clk _ _)
    simp only [LuCounted] at h ⊢
    rw [hl]
    exact h
  · exact (refresh_counted clk i l log).trans (solve_counted ..)
  · exact ((ite_counted _ (refresh_counted clk i l log)).trans (ite_counted _ (setMatrixFast_counted ..))).trans (solve_counted ..)

theorem call_counted (d : Dir) (log : Log) (c : Call) :
    ∃ new, Counted d.stats log (d.call clk log c).1.stats (d.call clk log c).2 new := by
  cases c with
  | compute i =>
    obtain ⟨new, h⟩ := work_counted clk i d d.lu.clear rfl log
    exact ⟨new, h.plus d.stats⟩
  | reset hard => exact ⟨[], .refl _ _⟩
  | reportSuccess s => exact ⟨[], .refl _ _⟩

theorem calls_counted (cs : List Call) : ∀ (d : Dir) (log : Log),
    ∃ new, Counted d.stats log (Dir.calls clk cs d log).1.stats (Dir.calls clk cs d log).2 new := by
  induction cs with
  | nil => exact fun d log => ⟨[], .refl _ _⟩
  | cons c cs ih =>
    intro d log
    obtain ⟨a, ha⟩ := call_counted clk d log c
    obtain ⟨b, hb⟩ := ih (d.call clk log c).1 (d.call clk log c).2
    exact ⟨a ++ b, ha.trans hb⟩

/-- **C131, descent directions.** Whatever is called on a new descent direction of any kind, its statistics are the numbers of the
LU operations that were made in these calls, and the time they took. -/
theorem C131_direction (k : Kind) (lazy : Nat) (cs : List Call) (log : Log) :
    let r := Dir.calls clk cs { kind := k, lazyIterations := lazy } log
    ∃ new, r.2 = log ++ new ∧ ∀ op, (r.1.stats.get op).count = number new op ∧ (r.1.stats.get op).time = total new op := by
  intro r
  obtain ⟨new, h, h'⟩ := calls_counted clk cs { kind := k, lazyIterations := lazy } log
  refine ⟨new, h, fun op => ?_⟩
  have := h' op
  have z : (({} : LuStats).get op) = {} := by cases op <;> rfl
  simp only [z, zero_add] at this
  exact this

theorem euler_steps_counted (css : List (List Call)) : ∀ (e : Euler) (log : Log), e.dir.stats = {} →
    ∃ new, Counted e.stats log (Euler.steps clk css e log).1.stats (Euler.steps clk css e log).2 new := by
  induction css with
  | nil => exact fun e log _ => ⟨[], .refl _ _⟩
  | cons cs css ih =>
    intro e log he
    obtain ⟨a, ha⟩ := calls_counted clk cs e.dir log
    obtain ⟨b, hb⟩ := ih (e.doStep clk log cs).1 (e.doStep clk log cs).2 rfl
    rw [he] at ha
    exact ⟨a ++ b, (ha.plus e.stats).trans hb⟩

/-- The title of the line on an operation -/
def titleOf : Op → String
  | .factorize => "TIMING: LU factorize"
  | .solve => "TIMING: LU solve"
  | .setMatrix => "TIMING: LU set mx"
  | .setMatrixFast => "TIMING: LU set mx fast"
  | .update => "TIMING: LU update"

/-- The lines there should be: for each operation made its number, total and average time -/
def lines (new : Log) (ops : List Op) : List Line :=
  ops.filterMap fun op =>
    if number new op = 0 then none else some ⟨titleOf op, total new op, total new op / number new op, number new op⟩

theorem report_lines {s : LuStats} {new : Log}
    (h : ∀ op, (s.get op).count = number new op ∧ (s.get op).time = total new op) :
    report s = lines new [.factorize, .solve, .setMatrix, .setMatrixFast, .update] := by
  have one : ∀ op t, t = titleOf op → reportStat t (s.get op) = lines new [op] := by
    intro op t ht
    obtain ⟨a, b⟩ := h op
    unfold reportStat lines Stat.average
    rw [a, b]
    by_cases z : number new op = 0
    · simp [z]
    · simp [z, Nat.pos_of_ne_zero z, ht]
  have cat : ∀ a b, lines new (a ++ b) = lines new a ++ lines new b := fun a b => List.filterMap_append ..
  unfold report
  have e1 := one .factorize _ rfl
  have e2 := one .solve _ rfl
  have e3 := one .setMatrix _ rfl
  have e4 := one .setMatrixFast _ rfl
  have e5 := one .update _ rfl
  simp only [LuStats.get] at e1 e2 e3 e4 e5
  rw [show ([.factorize, .solve, .setMatrix, .setMatrixFast, .update] : List Op) =
    [.factorize] ++ [.solve] ++ [.setMatrix] ++ [.setMatrixFast] ++ [.update] from rfl]
  simp only [cat]
  rw [← e1, ← e2, ← e3, ← e4, ← e5]
  rfl

/-- **C131, implicit Euler.** After any steps of an implicit Euler solver with any of the directions, the lines on LU are exactly:
for each operation made one line, with the number of operations made, the time they took altogether and its average. -/
theorem C131_euler (k : Kind) (lazy : Nat) (css : List (List Call)) (log : Log) :
    let r := Euler.steps clk css { dir := { kind := k, lazyIterations := lazy } } log
    ∃ new, r.2 = log ++ new ∧ report r.1.stats = lines new [.factorize, .solve, .setMatrix, .setMatrixFast, .update] := by
  intro r
  obtain ⟨new, h, h'⟩ := euler_steps_counted clk css { dir := { kind := k, lazyIterations := lazy } } log rfl
  refine ⟨new, h, report_lines fun op => ?_⟩
  have := h' op
  have z : (({} : LuStats).get op) = {} := by cases op <;> rfl
  simp only [z, zero_add] at this
  exact this

variable {Key : Type} [DecidableEq Key]

/-- Counted, but for the matrices set -/
def CountedR (s : LuStats) (log : Log) (s' : LuStats) (log' : Log) (new : Log) : Prop :=
  log' = log ++ new ∧ s'.setMatrix = s.setMatrix ∧
    ∀ op, op ≠ .setMatrix →
      (s'.get op).count = (s.get op).count + number new op ∧ (s'.get op).time = (s.get op).time + total new op

theorem CountedR.refl (s : LuStats) (log : Log) : CountedR s log s log [] := by simp [CountedR]

theorem CountedR.trans {s s' s'' : LuStats} {log log' log'' new new' : Log} (h : CountedR s log s' log' new)
    (h' : CountedR s' log' s'' log'' new') : CountedR s log s'' log'' (new ++ new') := by
  refine ⟨by rw [h'.1, h.1, List.append_assoc], by rw [h'.2.1, h.2.1], fun op ho => ?_⟩
  have a := h.2.2 op ho
  have b := h'.2.2 op ho
  rw [number_append, total_append]
  omega

theorem initStep_counted (hard : Bool) (n : Nat) (hd : Key) (r : Ros Key) (log : Log) :
    ∃ new, CountedR r.stats log (r.initStep clk hard n hd log).1.stats (r.initStep clk hard n hd log).2 new := by
  have u : ∀ q : Ros Key, ∃ new, CountedR q.stats log (q.updateW clk n hd log).1.stats (q.updateW clk n hd log).2 new := by
    intro q
    unfold Ros.updateW
    split
    · exact ⟨[], .refl _ _⟩
    · split
      · exact ⟨[], .refl _ _⟩
      · refine ⟨[(.setMatrix, clk log.length)], rfl, rfl, fun op ho => ?_⟩
        simp [number, total, ho.symm]
  cases hard
  · exact u r
  · exact u { r with cache := [], cur := none }

theorem solve_setMatrix (l : Lu) (log : Log) : (l.solve clk log).1.stats.setMatrix = l.stats.setMatrix := by
  unfold Lu.solve Lu.factorize measure
  cases l.factorized <;> simp

theorem linSolve_counted (r : Ros Key) (log : Log) :
    ∃ new, CountedR r.stats log (r.linSolve clk log).1.stats (r.linSolve clk log).2 new := by
  unfold Ros.linSolve
  split
  · exact ⟨[], .refl _ _⟩
  · split
    · exact ⟨[], .refl _ _⟩
    · rename_i l _
      obtain ⟨new, h⟩ := solve_counted clk l.clear log
      refine ⟨new, h.1, ?_, fun op _ => (h.plus r.stats).2 op⟩
      show r.stats.setMatrix.plus (l.clear.solve clk log).1.stats.setMatrix = r.stats.setMatrix
      rw [solve_setMatrix]
      rfl

theorem linSolves_counted (k : Nat) : ∀ (r : Ros Key) (log : Log),
    ∃ new, CountedR r.stats log (Ros.linSolves clk k r log).1.stats (Ros.linSolves clk k r log).2 new := by
  induction k with
  | zero => exact fun r log => ⟨[], .refl _ _⟩
  | succ k ih =>
    intro r log
    obtain ⟨a, ha⟩ := linSolve_counted clk r log
    obtain ⟨b, hb⟩ := ih (r.linSolve clk log).1 (r.linSolve clk log).2
    exact ⟨a ++ b, ha.trans hb⟩

theorem ros_steps_counted (ps : List (RosStep Key)) : ∀ (r : Ros Key) (log : Log),
    ∃ new, CountedR r.stats log (Ros.steps clk ps r log).1.stats (Ros.steps clk ps r log).2 new := by
  induction ps with
  | nil => exact fun r log => ⟨[], .refl _ _⟩
  | cons p ps ih =>
    intro r log
    obtain ⟨a, ha⟩ := initStep_counted clk p.hard p.n p.hd r log
    obtain ⟨b, hb⟩ := linSolves_counted clk p.solves (r.initStep clk p.hard p.n p.hd log).1 (r.initStep clk p.hard p.n p.hd log).2
    obtain ⟨c, hc⟩ := ih (Ros.linSolves clk p.solves (r.initStep clk p.hard p.n p.hd log).1 (r.initStep clk p.hard p.n p.hd log).2).1
      (Ros.linSolves clk p.solves (r.initStep clk p.hard p.n p.hd log).1 (r.initStep clk p.hard p.n p.hd log).2).2
    exact ⟨(a ++ b) ++ c, (ha.trans hb).trans hc⟩

/-- **C131, Rosenbrock solvers.** After any steps the statistics are those of the operations made, *except* for the matrices set,
of which there is nothing in the statistics. Missing for C131: the matrices set. -/
theorem C131_rosenbrock_partial (ps : List (RosStep Key)) (log : Log) :
    let r := Ros.steps clk ps ({} : Ros Key) log
    ∃ new, r.2 = log ++ new ∧ report r.1.stats = lines new [.factorize, .solve, .setMatrixFast, .update] := by
  intro r
  obtain ⟨new, h, hs, h'⟩ := ros_steps_counted clk ps ({} : Ros Key) log
  refine ⟨new, h, ?_⟩
  have cat : ∀ a b, lines new (a ++ b) = lines new a ++ lines new b := fun a b => List.filterMap_append ..
  have one : ∀ op t, op ≠ .setMatrix → t = titleOf op → reportStat t (r.1.stats.get op) = lines new [op] := by
    intro op t ho ht
    have q := h' op ho
    have z : (({} : LuStats).get op) = {} := by cases op <;> rfl
    simp only [z, zero_add] at q
    obtain ⟨a, b⟩ := q
    unfold reportStat lines Stat.average
    rw [show (r.1.stats.get op).count = _ from a, show (r.1.stats.get op).time = _ from b]
    by_cases z : number new op = 0
    · simp [z]
    · simp [z, Nat.pos_of_ne_zero z, ht]
  have e1 := one .factorize _ (by decide) rfl
  have e2 := one .solve _ (by decide) rfl
  have e4 := one .setMatrixFast _ (by decide) rfl
  have e5 := one .update _ (by decide) rfl
  simp only [LuStats.get] at e1 e2 e4 e5
  have e3 : reportStat "TIMING: LU set mx" r.1.stats.setMatrix = [] := by
    rw [show r.1.stats.setMatrix = _ from hs]; rfl
  unfold report
  rw [show ([.factorize, .solve, .setMatrixFast, .update] : List Op) =
    [.factorize] ++ [.solve] ++ [.setMatrixFast] ++ [.update] from rfl]
  simp only [cat]
  rw [← e1, ← e2, ← e4, ← e5, e3, List.append_nil]
  rfl

/-- **C131 is false of the Rosenbrock solvers:** one step of W1 sets a matrix, and no line says so. -/
theorem C131_rosenbrock_false :
    let r := Ros.steps (fun _ => 5) [⟨true, 2, (1 : Int), 1⟩] {} []
    number r.2 .setMatrix = 1 ∧ report r.1.stats = [⟨"TIMING: LU factorize", 5, 5, 1⟩, ⟨"TIMING: LU solve", 5, 5, 1⟩] := by
  decide

/-- **C131 is false of the extrapolator:** whatever its reference solver does, there is no line on LU. -/
theorem C131_extrapolator_false (css : List (List Call)) (k : Kind) (log : Log) :
    report (Extr.doStep clk { ref := { dir := { kind := k } } } log css).1.stats = [] := rfl

/-- Two implicit Euler steps with the Hart direction: 3 solves, 1 factorization, 1 update in the first, then another one -/
example :
    let r := Euler.steps (fun n => n) [[.compute ⟨0, true, 2, true, true⟩, .compute ⟨1, false, 2, true, true⟩],
      [.reset false, .compute ⟨0, false, 2, true, true⟩]] { dir := { kind := .hart } } []
    r.2 = [(.setMatrix, 0), (.factorize, 1), (.solve, 2), (.update, 3), (.solve, 4), (.solve, 5)] ∧
    report r.1.stats = [⟨"TIMING: LU factorize", 1, 1, 1⟩, ⟨"TIMING: LU solve", 11, 3, 3⟩, ⟨"TIMING: LU set mx", 0, 0, 1⟩,
      ⟨"TIMING: LU update", 3, 3, 1⟩] := by
  decide

end Verif.Timing
