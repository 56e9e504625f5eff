import Verif.Timing.ClockModel
import Mathlib.Data.Rat.Floor
import Mathlib.Algebra.Order.Floor.Ring
import Mathlib.Algebra.Order.Field.Basic
import Mathlib.Tactic.Linarith
import Mathlib.Tactic.Positivity
import Mathlib.Tactic.FieldSimp
import Mathlib.Tactic.Ring

/-
C138: times in the statistics report are those measured, and are converted to milliseconds with a known error.
-/

namespace Verif.Timing.Clock

/-! ## The tick counter -/

/-- The counter as it is when `t` ticks have passed since the machine was started -/
abbrev shown (t : Nat) : Tick := BitVec.ofNat 64 t

theorem span {t t' : Nat} (h : t ≤ t') (hs : t' - t < 2 ^ 64) : (shown t' - shown t).toNat = t' - t := by
  rw [BitVec.toNat_sub, BitVec.toNat_ofNat, BitVec.toNat_ofNat]
  omega

/-- Laps of a running counter, one after another, and what is left when it is stopped -/
def laps : List Nat → Counter → List Tick × Counter
  | [], c => ([], c)
  | t :: ts, c => let (d, c) := c.lap (shown t); let (ds, c) := laps ts c; (d :: ds, c)

/-- Times do not decrease, from `s` on -/
def Later (s : Nat) : List Nat → Nat → Prop
  | [], e => s ≤ e
  | t :: ts, e => s ≤ t ∧ Later t ts e

theorem Later.le {s e : Nat} {ts : List Nat} (h : Later s ts e) : s ≤ e := by
  induction ts generalizing s with
  | nil => exact h
  | cons t ts ih => exact h.1.trans (ih h.2)

/-- **C138, stopwatch.** A counter that was started and read any number of times gives, lap by lap and when it is stopped, the ticks gone
by since the reading before, even if the hardware counter wrapped around; together they are the ticks between start and stop. -/
theorem C138_stopwatch (s e : Nat) (ts : List Nat) (h : Later s ts e) (hs : e - s < 2 ^ 64) (c : Counter) :
    let r := laps ts (c.start (shown s))
    r.1.map BitVec.toNat = List.zipWith (fun a b => b - a) (s :: ts) ts ∧
    (r.1.map BitVec.toNat).sum + (r.2.stop (shown e)).1.toNat = e - s := by
  show (laps ts ⟨shown s⟩).1.map BitVec.toNat = _ ∧
    ((laps ts ⟨shown s⟩).1.map BitVec.toNat).sum + ((laps ts ⟨shown s⟩).2.stop (shown e)).1.toNat = _
  induction ts generalizing s with
  | nil => exact ⟨rfl, by simpa [laps, Counter.stop] using span h hs⟩
  | cons t ts ih =>
    have hle := Later.le h.2
    obtain ⟨h₁, h₂⟩ := ih t h.2 (by have := h.1; omega)
    have hl : ((laps (t :: ts) ⟨shown s⟩).1.map BitVec.toNat) =
        (shown t - shown s).toNat :: (laps ts ⟨shown t⟩).1.map BitVec.toNat := rfl
    have hc : (laps (t :: ts) ⟨shown s⟩).2 = (laps ts ⟨shown t⟩).2 := rfl
    have hd := span h.1 (by omega)
    rw [hl, hc, hd]
    refine ⟨by rw [h₁]; rfl, ?_⟩
    rw [List.sum_cons]
    have := h.1
    omega

/-- Two laps around the wrap of the hardware counter -/
example :
    let r := laps [2 ^ 64 - 1, 2 ^ 64 + 5] (Counter.start (shown (2 ^ 64 - 10)) {})
    r.1 = [9, 6] ∧ (r.2.stop (shown (2 ^ 64 + 7))).1 = 2 := by decide

/-! ## What is measured -/

/-- What happens during a run: a right-hand side is computed from tick `b` to tick `f`, or a Jacobian, with right-hand sides inside -/
inductive Act where
  | rhs (b f : Nat)
  | jacobian (b f : Nat) (inside : List (Nat × Nat))

/-- The calls of right-hand sides inside -/
def rhsEvents : List (Nat × Nat) → List (Nat × Ev)
  | [] => []
  | (b, f) :: l => (b, .beforeRhs) :: (f, .afterRhs) :: rhsEvents l

/-- What the output is told -/
def events : List Act → List (Nat × Ev)
  | [] => []
  | .rhs b f :: l => (b, .beforeRhs) :: (f, .afterRhs) :: events l
  | .jacobian b f inside :: l => (b, .jacobian true) :: (rhsEvents inside ++ (f, .jacobian false) :: events l)

/-- Computations one after another, between ticks `s` and `e` -/
def Spans (s : Nat) : List (Nat × Nat) → Nat → Prop
  | [], e => s ≤ e
  | (b, f) :: l, e => s ≤ b ∧ b ≤ f ∧ Spans f l e

/-- Acts one after another, between ticks `s` and `e` -/
def Within (s : Nat) : List Act → Nat → Prop
  | [], e => s ≤ e
  | .rhs b f :: l, e => s ≤ b ∧ b ≤ f ∧ Within f l e
  | .jacobian b f inside :: l, e => s ≤ b ∧ Spans b inside f ∧ Within f l e

/-- All right-hand sides computed -/
def rhsSpans : List Act → List (Nat × Nat)
  | [] => []
  | .rhs b f :: l => (b, f) :: rhsSpans l
  | .jacobian _ _ inside :: l => inside ++ rhsSpans l

/-- All Jacobians computed -/
def jacobianSpans : List Act → List (Nat × Nat)
  | [] => []
  | .rhs _ _ :: l => jacobianSpans l
  | .jacobian b f _ :: l => (b, f) :: jacobianSpans l

/-- Ticks spent -/
def spent (l : List (Nat × Nat)) : Nat := (l.map fun p => p.2 - p.1).sum

@[simp] theorem spent_nil : spent [] = 0 := rfl

theorem spent_cons (p : Nat × Nat) (l : List (Nat × Nat)) : spent (p :: l) = (p.2 - p.1) + spent l := by simp [spent]

theorem Spans.spent_le {s e : Nat} {l : List (Nat × Nat)} (h : Spans s l e) : spent l + s ≤ e := by
  induction l generalizing s with
  | nil => simpa [spent, Spans] using h
  | cons p l ih =>
    have := ih h.2.2
    rw [spent_cons]
    have := h.1; have := h.2.1
    omega

theorem spent_append (l l' : List (Nat × Nat)) : spent (l ++ l') = spent l + spent l' := by simp [spent]

theorem Within.le {s e : Nat} {l : List Act} (h : Within s l e) :
    spent (rhsSpans l) + s ≤ e ∧ spent (jacobianSpans l) + s ≤ e := by
  induction l generalizing s with
  | nil => exact ⟨by simpa [spent, rhsSpans, Within] using h, by simpa [spent, jacobianSpans, Within] using h⟩
  | cons a l ih =>
    cases a with
    | rhs b f =>
      obtain ⟨h₁, h₂, h₃⟩ := h
      have := ih h₃
      simp only [rhsSpans, jacobianSpans, spent_cons]
      omega
    | jacobian b f inside =>
      obtain ⟨h₁, h₂, h₃⟩ := h
      have := ih h₃
      have := h₂.spent_le
      simp only [rhsSpans, jacobianSpans, spent_append, spent_cons]
      omega

theorem run_append (es es' : List (Nat × Ev)) (d : Timers) : Timers.run (es ++ es') d = Timers.run es' (Timers.run es d) := by
  induction es generalizing d with
  | nil => rfl
  | cons e es ih => exact ih _

/-- What a row of measurements does with statistics -/
def adds (s : TStat) (l : List (Nat × Nat)) : TStat := l.foldl (fun s p => s.add (shown p.2 - shown p.1)) s

theorem rhsEvents_run (l : List (Nat × Nat)) : ∀ d : Timers, ∃ c,
    Timers.run (rhsEvents l) d = { d with odeRhs := adds d.odeRhs l, odeRhsTimer := c } := by
  induction l with
  | nil => exact fun d => ⟨d.odeRhsTimer, rfl⟩
  | cons p l ih =>
    intro d
    obtain ⟨c, hc⟩ := ih ((d.event (shown p.1) .beforeRhs).event (shown p.2) .afterRhs)
    exact ⟨c, hc⟩

theorem events_run (l : List Act) : ∀ d : Timers, ∃ c c',
    Timers.run (events l) d =
      { d with odeRhs := adds d.odeRhs (rhsSpans l), odeRhsTimer := c,
               jacobian := adds d.jacobian (jacobianSpans l), jacobianTimer := c' } := by
  induction l with
  | nil => exact fun d => ⟨d.odeRhsTimer, d.jacobianTimer, rfl⟩
  | cons a l ih =>
    intro d
    cases a with
    | rhs b f => exact ih ((d.event (shown b) .beforeRhs).event (shown f) .afterRhs)
    | jacobian b f inside =>
      obtain ⟨c, hc⟩ := rhsEvents_run inside (d.event (shown b) (.jacobian true))
      have e : Timers.run (events (.jacobian b f inside :: l)) d =
          Timers.run (events l) ((Timers.run (rhsEvents inside) (d.event (shown b) (.jacobian true))).event (shown f) (.jacobian false)) := by
        show Timers.run (rhsEvents inside ++ (f, .jacobian false) :: events l) _ = _
        rw [run_append]
        rfl
      rw [e, hc]
      obtain ⟨c₁, c₂, h⟩ := ih (Timers.event (shown f) { d.event (shown b) (.jacobian true) with
        odeRhs := adds (d.event (shown b) (.jacobian true)).odeRhs inside, odeRhsTimer := c } (.jacobian false))
      refine ⟨c₁, c₂, h.trans ?_⟩
      have : adds (adds d.odeRhs inside) (rhsSpans l) = adds d.odeRhs (inside ++ rhsSpans l) := (List.foldl_append ..).symm
      show Timers.mk (adds (adds d.odeRhs inside) (rhsSpans l)) _ _ _ _ _ = _
      rw [this]
      rfl

theorem adds_exact (l : List (Nat × Nat)) : ∀ (s : TStat) (_ : ∀ p ∈ l, p.1 ≤ p.2) (_ : s.time.toNat + spent l < 2 ^ 64),
    (adds s l).time.toNat = s.time.toNat + spent l ∧ (adds s l).count.toNat = (s.count.toNat + l.length) % 2 ^ 32 := by
  induction l with
  | nil => intro s _ _; exact ⟨by simp [adds, spent], by simp [adds, Nat.mod_eq_of_lt s.count.isLt]⟩
  | cons p l ih =>
    intro s hp hs
    rw [spent_cons] at hs ⊢
    have h₁ : (s.add (shown p.2 - shown p.1)).time.toNat = s.time.toNat + (p.2 - p.1) := by
      show (s.time + (shown p.2 - shown p.1)).toNat = _
      rw [BitVec.toNat_add, span (hp p (by simp)) (by omega)]
      omega
    have h₂ : (s.add (shown p.2 - shown p.1)).count.toNat = (s.count.toNat + 1) % 2 ^ 32 := by
      show (s.count + 1).toNat = _
      rw [BitVec.toNat_add]
      rfl
    obtain ⟨i₁, i₂⟩ := ih (s.add (shown p.2 - shown p.1)) (fun q hq => hp q (by simp [hq])) (by rw [h₁]; omega)
    refine ⟨by show (adds (s.add _) l).time.toNat = _; rw [i₁, h₁]; omega, ?_⟩
    show (adds (s.add _) l).count.toNat = _
    rw [i₂, h₂, List.length_cons]
    omega

theorem Spans.ordered {s e : Nat} {l : List (Nat × Nat)} (h : Spans s l e) : ∀ p ∈ l, p.1 ≤ p.2 := by
  induction l generalizing s with
  | nil => simp
  | cons p l ih =>
    intro q hq
    rcases List.mem_cons.mp hq with rfl | hq
    · exact h.2.1
    · exact ih h.2.2 q hq

theorem Within.ordered {s e : Nat} {l : List Act} (h : Within s l e) :
    (∀ p ∈ rhsSpans l, p.1 ≤ p.2) ∧ ∀ p ∈ jacobianSpans l, p.1 ≤ p.2 := by
  induction l generalizing s with
  | nil => simp [rhsSpans, jacobianSpans]
  | cons a l ih =>
    cases a with
    | rhs b f =>
      obtain ⟨i₁, i₂⟩ := ih h.2.2
      exact ⟨fun q hq => (List.mem_cons.mp hq).elim (fun e => e ▸ h.2.1) (i₁ q), i₂⟩
    | jacobian b f inside =>
      obtain ⟨i₁, i₂⟩ := ih h.2.2
      have := h.2.1.spent_le
      exact ⟨fun q hq => (List.mem_append.mp hq).elim (h.2.1.ordered q) (i₁ q),
        fun q hq => (List.mem_cons.mp hq).elim (fun e => by rw [e]; show b ≤ f; omega) (i₂ q)⟩

/-- **C138, measured.** In a run of less than 2⁶⁴ ticks the time of right-hand sides, and that of Jacobians, is the sum of the times
spent in their computation, even if the hardware counter wraps around during the run, and neither is longer than the run. The numbers
of evaluations are exact up to 2³². -/
theorem C138_measured (s e : Nat) (l : List Act) (h : Within s l e) (hs : e - s < 2 ^ 64) (ticks : Tick) (msec : BitVec 64)
    (ticks' : Tick) :
    let d := (Timers.new ticks msec ticks').run (events l)
    d.odeRhs.time.toNat = spent (rhsSpans l) ∧ d.odeRhs.time.toNat ≤ e - s ∧
    d.jacobian.time.toNat = spent (jacobianSpans l) ∧ d.jacobian.time.toNat ≤ e - s ∧
    d.odeRhs.count.toNat = (rhsSpans l).length % 2 ^ 32 ∧ d.jacobian.count.toNat = (jacobianSpans l).length % 2 ^ 32 := by
  intro d
  obtain ⟨c, c', hd⟩ := events_run l (Timers.new ticks msec ticks')
  have hd' : d = _ := hd
  obtain ⟨h₁, h₂⟩ := h.le
  obtain ⟨o₁, o₂⟩ := h.ordered
  obtain ⟨a₁, a₂⟩ := adds_exact (rhsSpans l) {} o₁ (by show 0 + _ < _; omega)
  obtain ⟨b₁, b₂⟩ := adds_exact (jacobianSpans l) {} o₂ (by show 0 + _ < _; omega)
  have r : d.odeRhs = adds {} (rhsSpans l) := by rw [hd']; rfl
  have j : d.jacobian = adds {} (jacobianSpans l) := by rw [hd']; rfl
  rw [r, j, a₁, a₂, b₁, b₂]
  refine ⟨?_, ?_, ?_, ?_, ?_, ?_⟩ <;> simp <;> omega

/-! ## What is reported -/

/-- A number of ticks as it is reported: in milliseconds, by the rule of three, if the run took 100 of them at least -/
def said (m T : Nat) (n : Nat) : Shown :=
  if 100 ≤ m ∧ 0 < T then .msec ((n : ℚ) * m / T) else .ticks (shown n) none

/-- The line on computations: none without computations, otherwise the time spent, the average, rounded down to ticks, the number -/
def lineOf (m T : Nat) (l : List (Nat × Nat)) : Option Line :=
  if l = [] then none else some ⟨said m T (spent l), said m T (spent l / l.length), l.length⟩

theorem format_said {c : Calibrator} {m T : Nat} (hs : c.stopped = true) (hm : c.msecInterval.toNat = m)
    (hT : c.timerInterval.toNat = T) (n : Tick) : c.format n = .ok (said m T n.toNat) := by
  unfold Calibrator.format Calibrator.toMsecAvailable Calibrator.toMsec said
  rw [hs, hm, hT]
  by_cases h : 100 ≤ m <;> by_cases h' : 0 < T
  · have h₁ : ¬ m < 100 := by omega
    have h₂ : T ≠ 0 := by omega
    simp [h, h', h₁, h₂, Except.map]
  · simp [h, h', shown]
  · simp [h, h', shown]
  · simp [h, h', shown]

theorem stat_said {c : Calibrator} {m T : Nat} (hs : c.stopped = true) (hm : c.msecInterval.toNat = m)
    (hT : c.timerInterval.toNat = T) (s : TStat) (l : List (Nat × Nat)) (ht : s.time.toNat = spent l)
    (hl : s.count.toNat = l.length) : reportStat c s = .ok (lineOf m T l) := by
  unfold reportStat lineOf
  rw [hl]
  by_cases h : l = []
  · simp [h]
  · have h' : l.length ≠ 0 := by simpa using h
    have ha : s.average.toNat = spent l / l.length := by
      unfold TStat.average
      rw [if_pos (by rw [hl]; omega), hl, ht, BitVec.toNat_ofNat]
      apply Nat.mod_eq_of_lt
      have := s.time.isLt
      rw [ht] at this
      exact (Nat.div_le_self _ _).trans_lt this
    simp only [h', if_false, h, format_said hs hm hT, bind, Except.bind, ht, ha]

/-- **C138, reported.** A run of less than 2⁶⁴ ticks with less than 2³² evaluations: the clocks are read at ticks `T₀` and milliseconds
`M₀` when the output is made, and at `T₂`, `M₂` when it prints, the total time is taken from `T₁` to `T₃`. The report then says the
total time, the speed, and for Jacobians and right-hand sides, if any were computed, the time spent, the average and the number. All
times are in milliseconds, ticks being converted by the rule of three, or in ticks if the run was shorter than 100 ms. -/
theorem C138_reported (T₀ T₁ T₂ T₃ M₀ M₂ : Nat) (l : List Act) (h₀ : T₀ ≤ T₁) (h : Within T₁ l T₂) (h₃ : T₂ ≤ T₃)
    (hT : T₃ - T₀ < 2 ^ 64) (hM : M₀ ≤ M₂) (hM' : M₂ - M₀ < 2 ^ 64) (hn : (rhsSpans l).length < 2 ^ 32)
    (hn' : (jacobianSpans l).length < 2 ^ 32) (time : ℚ) :
    let m := M₂ - M₀
    let T := T₂ - T₀
    ((Timers.new (shown T₀) (BitVec.ofNat 64 M₀) (shown T₁)).run (events l)).report (shown T₂) (BitVec.ofNat 64 M₂) (shown T₃) time =
      .ok { total := said m T (T₃ - T₁)
            speed := if 100 ≤ m ∧ 0 < T then
                some (if T₁ < T₃ then some (time * 1000 / ((T₃ - T₁ : ℕ) * m / T)) else none)
              else none
            jacobian := lineOf m T (jacobianSpans l)
            odeRhs := lineOf m T (rhsSpans l) } := by
  intro m T
  have hle : T₁ ≤ T₂ := by have := h.le; omega
  obtain ⟨m₁, _, m₃, _, m₅, m₆⟩ := C138_measured T₁ T₂ l h (by omega) (shown T₀) (BitVec.ofNat 64 M₀) (shown T₁)
  obtain ⟨c, c', hd⟩ := events_run l (Timers.new (shown T₀) (BitVec.ofNat 64 M₀) (shown T₁))
  set d := (Timers.new (shown T₀) (BitVec.ofNat 64 M₀) (shown T₁)).run (events l) with hdd
  have htc : d.tc = Calibrator.new (shown T₀) (BitVec.ofNat 64 M₀) := by rw [hd]; rfl
  have htot : d.total = ⟨shown T₁⟩ := by rw [hd]; rfl
  set tc := d.tc.stop (shown T₂) (BitVec.ofNat 64 M₂) with htcs
  have hs : tc.stopped = true := rfl
  have hm : tc.msecInterval.toNat = m := by
    rw [htcs, htc]
    exact span hM hM'
  have hTT : tc.timerInterval.toNat = T := by
    rw [htcs, htc]
    exact span (by omega) (by omega)
  have ht : (d.total.stop (shown T₃)).1.toNat = T₃ - T₁ := by
    rw [htot]
    exact span (by omega) (by omega)
  have hj := stat_said hs hm hTT d.jacobian (jacobianSpans l) m₃ (by rw [m₆, Nat.mod_eq_of_lt hn'])
  have hr := stat_said hs hm hTT d.odeRhs (rhsSpans l) m₁ (by rw [m₅, Nat.mod_eq_of_lt hn])
  have hf := format_said hs hm hTT (d.total.stop (shown T₃)).1
  rw [ht] at hf
  unfold Timers.report
  simp only [← htcs, hf, hj, hr]
  have hav : tc.toMsecAvailable = decide (100 ≤ m ∧ 0 < T) := by
    unfold Calibrator.toMsecAvailable
    rw [hs, hm, hTT]
    simp
  by_cases ha : 100 ≤ m ∧ 0 < T
  · have hq : tc.toMsec (d.total.stop (shown T₃)).1 = .ok ((T₃ - T₁ : ℕ) * m / T) := by
      unfold Calibrator.toMsec
      rw [hm, hTT, ht, if_neg (by omega), if_neg (by omega)]
    have hz : (((T₃ - T₁ : ℕ) : ℚ) * m / T = 0) ↔ ¬ T₁ < T₃ := by
      have h₁ : (m : ℚ) ≠ 0 := by have := ha.1; positivity
      have h₂ : (T : ℚ) ≠ 0 := by have := ha.2; positivity
      rw [div_eq_zero_iff, mul_eq_zero]
      simp only [h₁, h₂, or_false, Nat.cast_eq_zero]
      omega
    simp only [hav, ha, decide_true, if_true, hq, bind, Except.bind, and_self]
    by_cases hlt : T₁ < T₃
    · simp [hz, hlt]
    · simp [hz, hlt]
  · simp only [hav, ha, decide_false, if_false, bind, Except.bind, Bool.false_eq_true]

/-- A run of 1000 ms and 5000 ticks: a right-hand side, a Jacobian with two of them inside, and the hardware counter wraps around -/
def sample : List Act :=
  [.rhs (2 ^ 64 - 2000) (2 ^ 64 - 1500), .jacobian (2 ^ 64 - 1000) (2 ^ 64 + 1000) [(2 ^ 64 - 900, 2 ^ 64 - 100), (2 ^ 64, 2 ^ 64 + 700)]]

example :
    Within (2 ^ 64 - 3000) sample (2 ^ 64 + 2000) ∧
    ((Timers.new (shown (2 ^ 64 - 3000)) 500 (shown (2 ^ 64 - 3000))).run (events sample)).report (shown (2 ^ 64 + 2000)) 1500
      (shown (2 ^ 64 + 2000)) 3 =
      .ok { total := .msec 1000, speed := some (some 3),
            jacobian := some ⟨.msec 400, .msec 400, 1⟩, odeRhs := some ⟨.msec 400, .msec (666 / 5), 3⟩ } := by
  refine ⟨by simp [Within, Spans, sample], ?_⟩
  have h := C138_reported (2 ^ 64 - 3000) (2 ^ 64 - 3000) (2 ^ 64 + 2000) (2 ^ 64 + 2000) 500 1500 sample (by norm_num)
    (by simp [Within, Spans, sample]) le_rfl (by norm_num) (by norm_num) (by norm_num) (by simp [rhsSpans, sample])
    (by simp [jacobianSpans, sample]) 3
  refine h.trans ?_
  norm_num [said, lineOf, rhsSpans, jacobianSpans, sample, spent]
  exact fun h => absurd h (by simp)

/-- **C138, accurate.** Let the hardware counter make `c` ticks per millisecond (at least one) and both clocks be read together, at the
moments `a` and `b`, in milliseconds, each showing what has passed rounded down. If conversion is available, any number of ticks is
converted to milliseconds with a relative error of at most `(c + 1) / (99 c - 1)`: about one hundredth. -/
theorem C138_accurate (c a b : ℚ) (hc : 1 ≤ c) (ha : 0 ≤ a) (hab : a ≤ b) (hw : ⌊c * b⌋₊ - ⌊c * a⌋₊ < 2 ^ 64)
    (hw' : ⌊b⌋₊ - ⌊a⌋₊ < 2 ^ 64) (n : Tick) :
    let tc := (Calibrator.new (shown ⌊c * a⌋₊) (BitVec.ofNat 64 ⌊a⌋₊)).stop (shown ⌊c * b⌋₊) (BitVec.ofNat 64 ⌊b⌋₊)
    (101 ≤ b - a → tc.toMsecAvailable = true) ∧
    (tc.toMsecAvailable = true →
      ∃ t, tc.toMsec n = .ok t ∧ |t - n.toNat / c| ≤ n.toNat / c * ((c + 1) / (99 * c - 1))) := by
  intro tc
  have hc₀ : 0 < c := by linarith
  have hb : 0 ≤ b := ha.trans hab
  have hm : tc.msecInterval.toNat = ⌊b⌋₊ - ⌊a⌋₊ := span (Nat.floor_mono hab) hw'
  have hT : tc.timerInterval.toNat = ⌊c * b⌋₊ - ⌊c * a⌋₊ := span (Nat.floor_mono (by nlinarith)) hw
  have e₁ := Nat.floor_le ha
  have e₂ := Nat.lt_floor_add_one a
  have e₃ := Nat.floor_le hb
  have e₄ := Nat.lt_floor_add_one b
  have f₁ := Nat.floor_le (mul_nonneg hc₀.le ha)
  have f₂ := Nat.lt_floor_add_one (c * a)
  have f₃ := Nat.floor_le (mul_nonneg hc₀.le hb)
  have f₄ := Nat.lt_floor_add_one (c * b)
  have cm : ((⌊b⌋₊ - ⌊a⌋₊ : ℕ) : ℚ) = ⌊b⌋₊ - ⌊a⌋₊ := Nat.cast_sub (Nat.floor_mono hab)
  have cT : ((⌊c * b⌋₊ - ⌊c * a⌋₊ : ℕ) : ℚ) = ⌊c * b⌋₊ - ⌊c * a⌋₊ := Nat.cast_sub (Nat.floor_mono (by nlinarith))
  have hav : tc.toMsecAvailable = true ↔ 100 ≤ ⌊b⌋₊ - ⌊a⌋₊ ∧ 0 < ⌊c * b⌋₊ - ⌊c * a⌋₊ := by
    unfold Calibrator.toMsecAvailable
    rw [hm, hT]
    show (true && _ && _) = true ↔ _
    simp
  constructor
  · intro h
    rw [hav]
    constructor
    · have : (100 : ℚ) ≤ ((⌊b⌋₊ - ⌊a⌋₊ : ℕ) : ℚ) := by
        have : (100 : ℚ) < ((⌊b⌋₊ - ⌊a⌋₊ : ℕ) : ℚ) + 1 := by rw [cm]; linarith
        have : (100 : ℕ) < (⌊b⌋₊ - ⌊a⌋₊) + 1 := by exact_mod_cast this
        exact_mod_cast (by omega : 100 ≤ ⌊b⌋₊ - ⌊a⌋₊)
      exact_mod_cast this
    · have : (0 : ℚ) < ((⌊c * b⌋₊ - ⌊c * a⌋₊ : ℕ) : ℚ) := by rw [cT]; nlinarith
      exact_mod_cast this
  · intro h
    obtain ⟨h₁, h₂⟩ := hav.mp h
    set m := ⌊b⌋₊ - ⌊a⌋₊ with hmd
    set T := ⌊c * b⌋₊ - ⌊c * a⌋₊ with hTd
    refine ⟨n.toNat * m / T, ?_, ?_⟩
    · unfold Calibrator.toMsec
      rw [hm, hT, if_neg (by omega), if_neg (by omega)]
    · have h₁' : (100 : ℚ) ≤ m := by exact_mod_cast h₁
      have hT₀ : (0 : ℚ) < T := by exact_mod_cast h₂
      have hlow : 99 * c - 1 ≤ T := by rw [cT]; nlinarith
      have hup : |(m : ℚ) * c - T| ≤ c + 1 := by
        rw [abs_le, cm, cT]
        constructor <;> nlinarith
      have hd : (0 : ℚ) < 99 * c - 1 := by linarith
      have e : (n.toNat : ℚ) * m / T - n.toNat / c = n.toNat / c * ((m * c - T) / T) := by field_simp
      rw [e, abs_mul, abs_of_nonneg (by positivity : (0 : ℚ) ≤ n.toNat / c), abs_div, abs_of_pos hT₀]
      apply mul_le_mul_of_nonneg_left _ (by positivity)
      rw [div_le_div_iff₀ hT₀ hd]
      nlinarith [abs_nonneg ((m : ℚ) * c - T)]

/-- A thousand ticks per millisecond, clocks read at 0.5 and 200.25 ms: 1000 ticks are converted to 200/199.75 ms -/
example :
    let tc := (Calibrator.new (shown ⌊(1000 : ℚ) * (1 / 2)⌋₊) (BitVec.ofNat 64 ⌊(1 / 2 : ℚ)⌋₊)).stop
      (shown ⌊(1000 : ℚ) * (801 / 4)⌋₊) (BitVec.ofNat 64 ⌊(801 / 4 : ℚ)⌋₊)
    tc.toMsec 1000 = .ok (800 / 799) := by
  have h₁ : ⌊(1000 : ℚ) * (1 / 2)⌋₊ = 500 := by norm_num
  have h₂ : ⌊(1 / 2 : ℚ)⌋₊ = 0 := by norm_num
  have h₃ : ⌊(1000 : ℚ) * (801 / 4)⌋₊ = 200250 := by norm_num
  have h₄ : ⌊(801 / 4 : ℚ)⌋₊ = 200 := by
    rw [Nat.floor_eq_iff (by norm_num)]
    norm_num
  rw [h₁, h₂, h₃, h₄]
  decide +kernel

/-- **C138 is false for long runs:** after 2³² evaluations of the right-hand side there is no line on them. -/
theorem C138_count_false : ∃ l : List Act, Within 0 l 0 ∧ (rhsSpans l).length = 2 ^ 32 ∧
    ∀ (ticks : Tick) (msec : BitVec 64) (ticks' : Tick) (tc : Calibrator),
      reportStat tc ((Timers.new ticks msec ticks').run (events l)).odeRhs = .ok none := by
  have w : ∀ n, Within 0 (List.replicate n (Act.rhs 0 0)) 0 := by
    intro n
    induction n with
    | zero => exact le_rfl
    | succ n ih => exact ⟨le_rfl, le_rfl, ih⟩
  have r : ∀ n, (rhsSpans (List.replicate n (Act.rhs 0 0))).length = n := by
    intro n
    induction n with
    | zero => rfl
    | succ n ih =>
      rw [List.replicate_succ, rhsSpans, List.length_cons, ih]
  refine ⟨List.replicate (2 ^ 32) (Act.rhs 0 0), w _, r _, ?_⟩
  intro ticks msec ticks' tc
  obtain ⟨_, _, _, _, h, _⟩ := C138_measured 0 0 _ (w (2 ^ 32)) (by norm_num) ticks msec ticks'
  rw [r] at h
  unfold reportStat
  rw [h]
  simp

/-- **C138 is false before `stop`:** conversion is not refused, it divides by zero. -/
theorem C138_running_false (ticks : Tick) (msec : BitVec 64) (h : 100 ≤ msec.toNat) (n : Tick) :
    let tc := Calibrator.new ticks msec
    tc.stopped = false ∧ tc.toMsecAvailable = false ∧ tc.toMsec n = .error .divZero := by
  refine ⟨rfl, rfl, ?_⟩
  show (if msec.toNat < 100 then _ else if (0 : Tick).toNat = 0 then _ else _) = _
  rw [if_neg (by omega)]
  rfl

/-- **C138 is false after another `stop`:** conversion stays available but is by the time since the machine was started; 1000 ticks, one
millisecond before, are now less than 0.3. -/
theorem C138_again_false :
    let tc := (Calibrator.new 5000000 1000).stop 6000000 2000
    let tc' := tc.stop 7000000 3000
    tc.toMsec 1000 = .ok 1 ∧ tc'.toMsecAvailable = true ∧ tc'.toMsec 1000 = .ok (2000000 / 7000001) := by
  decide +kernel

end Verif.Timing.Clock
