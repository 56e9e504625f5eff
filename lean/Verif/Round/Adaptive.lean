import Verif.Round.TimeProps
import Verif.Driver.Solvers

/-! # What a step of an embedded solver does, operation by operation

As in Kernel.lean, no law of arithmetic is used. -/

set_option linter.unusedSectionVars false

namespace Verif.Round

open Verif.Res Verif.RK Verif.Driver

section
variable {R V E : Type} [Zero R] [Add R] [Mul R] [NatCast R] [DecidableEq R] [LT R] [DecidableLT R] [LE R] [DecidableLE R]
  [Zero V] [Add V] [Sub V] [SMul R V]

/-- The result number `ix` of a method with two results, after a step -/
def embOut (co : Coefficients R) (rhs : R → V → V) (x : V) (t h : R) (ix : Nat) : V :=
  if (ix : Int) = co.lastK then lastArg co rhs x t h (co.c.length + 1)
  else accum h (co.b.drop (ix * (co.c.length + 1))) (stageList co rhs x t h (co.c.length + 1)) x

/-- What the controller of the method is asked, and answers, for a step of the size `h` -/
def embCtl (m : EmbMethod R V E) (x : V) (t h : R) : CtlResult R :=
  if m.disableErrorCheck then ⟨h, true, false⟩
  else m.control h (m.norm (embOut m.co m.rhs x t h 0 - embOut m.co m.rhs x t h 1)) m.lowOrder

/-- The size of the next step -/
def CtlResult.next (q : CtlResult R) (h : R) : R := if q.changeStepSize then q.newStepSize else h

/-- The solver is set up for a step of the size `h`. -/
def Ready2 (m : EmbMethod R V E) (h : R) (s : FixedSt R V E) : Prop :=
  (s.out.k = [] ∧ s.hInit = h) ∨ (s.out.k.length = m.co.c.length + 1 ∧ s.out.x2.length = 2 ∧ s.h = some h)

/-- One pass of the loop of `OdeSolverExplicitEmbeddedRK::doStep` without an event controller -/
theorem attempt_ops {m : EmbMethod R V E} (hec : m.ec = none) (hc : m.co.c ≠ [])
    (hs : m.co.Sizes (m.co.c.length + 1) 2) {h : R} {s : FixedSt R V E} (hr : Ready2 m h s) :
    let q := embCtl m s.x s.t h
    (q.changeStepSize = true ∧ q.newStepSize ≤ m.hMin ∧
      ∃ s', s.attempt m = .ok (.thrown "Step size has decreased to the minimum or below" s')) ∨
    (¬ (q.changeStepSize = true ∧ q.newStepSize ≤ m.hMin) ∧ ∃ s', Ready2 m (CtlResult.next q h) s' ∧
      ((q.acceptStep = true ∧ s.attempt m = .ok (.accepted s') ∧ s'.t = s.t + h ∧
          s'.x = embOut m.co m.rhs s.x s.t h m.modeIndex) ∨
        (q.acceptStep = false ∧ s.attempt m = .ok (.rejected s') ∧ s'.t = s.t ∧ s'.x = s.x))) := by
  obtain ⟨si, hsi, i1, i2, i3, i4, i5⟩ : ∃ si, ({ s with log := .pre s.h :: s.log } : FixedSt R V E).initStep2 m = si ∧
      si.t = s.t ∧ si.x = s.x ∧ si.h = some h ∧ si.out.k.length = m.co.c.length + 1 ∧ si.out.x2.length = 2 := by
    refine ⟨_, rfl, ?_⟩
    unfold FixedSt.initStep2
    rcases hr with ⟨h1, h2⟩ | ⟨h1, h2, h3⟩
    · rw [if_pos (by simp [h1])]
      exact ⟨rfl, rfl, by rw [← h2], by simp [Output.mk'], by simp [Output.mk']⟩
    · rw [if_neg (by
        cases hk : s.out.k with
        | nil => rw [hk] at h1; simp at h1
        | cons => simp)]
      exact ⟨rfl, rfl, h3, h1, h2⟩
  obtain ⟨o', c1, c2, c3, c4, c5⟩ := compute_ops si.out m.co m.rhs si.x si.t h (by rw [i4, i5]; exact hs)
  rw [i4] at c2 c4 c5
  rw [i5] at c3 c4 c5
  rw [i1, i2] at c2 c5
  rw [i2] at c4
  have hlen : 2 ≤ m.co.c.length + 1 := by
    cases hcc : m.co.c with
    | nil => exact absurd hcc hc
    | cons => simp
  have hout : ∀ ix < 2, o'.x2.getD ix 0 = embOut m.co m.rhs s.x s.t h ix := by
    intro ix hix
    unfold embOut
    split
    · rename_i he
      exact c5 hlen ix hix he
    · rename_i hne
      rw [c4 ix hix hne, c2]
  have hmode : m.modeIndex < 2 := by
    unfold EmbMethod.modeIndex
    split <;> omega
  have hctl : (if m.disableErrorCheck = true then (⟨h, true, false⟩ : CtlResult R)
      else m.control h (if (!m.disableErrorCheck || m.forceErrorCalc) = true then
        m.norm (o'.x2.getD 0 0 - o'.x2.getD 1 0) else 0) m.lowOrder) = embCtl m s.x s.t h := by
    unfold embCtl
    rw [hout 0 (by omega), hout 1 (by omega)]
    cases m.disableErrorCheck <;> simp
  intro q
  unfold FixedSt.attempt
  simp only [hsi, ecStart, hec, bind_ok, i3, readH]
  rw [c1]
  simp only [bind_ok]
  rw [RK.raw_getD 0 (by omega), RK.raw_getD 0 (by omega)]
  simp only [bind_ok]
  rw [hctl]
  have hx2 : ∀ b : Bool, (if b = true then { o' with buf := o'.x2.getD 0 0 - o'.x2.getD 1 0 } else o').x2 = o'.x2 := by
    intro b; cases b <;> rfl
  have hk : ∀ b : Bool, (if b = true then { o' with buf := o'.x2.getD 0 0 - o'.x2.getD 1 0 } else o').k = o'.k := by
    intro b; cases b <;> rfl
  have hk' : o'.k.length = m.co.c.length + 1 := by rw [c2, stageList_length]
  show _ ∨ _
  generalize hq : embCtl m s.x s.t h = q' at *
  obtain ⟨hn, acc, ch⟩ := q'
  have hqq : q = ⟨hn, acc, ch⟩ := hq
  rw [hqq]
  simp only [CtlResult.next]
  have hraw : raw o'.x2 m.modeIndex = .ok (o'.x2.getD m.modeIndex 0) := RK.raw_getD 0 (by omega)
  have hset : rawSet o'.x2 m.modeIndex si.x = .ok (o'.x2.set m.modeIndex si.x) := by
    unfold rawSet
    rw [if_pos (by omega)]
  have htr : Trunc.none.truncated = false := rfl
  cases ch with
  | false =>
    right
    refine ⟨by simp, ?_⟩
    cases acc with
    | true =>
      simp only [hx2, hraw, hset, bind_ok, ecEnd, hec, if_true, if_false, Bool.false_and, Bool.false_eq_true, htr]
      refine ⟨_, ?_, .inl ⟨trivial, rfl, by rw [i1], hout _ hmode⟩⟩
      exact .inr ⟨by simp only [hk, hk'], by simp [c3], rfl⟩
    | false =>
      simp only [bind_ok, if_false, Bool.false_and, Bool.false_eq_true, htr]
      refine ⟨_, ?_, .inr ⟨trivial, rfl, i1, i2⟩⟩
      exact .inr ⟨by simp only [hk, hk'], by simp only [hx2, c3], rfl⟩
  | true =>
    by_cases hle : hn ≤ m.hMin
    · left
      refine ⟨rfl, hle, ?_⟩
      cases acc with
      | true =>
        simp only [hx2, hraw, hset, bind_ok, ecEnd, hec, if_true, hle, decide_true, Bool.and_self]
        exact ⟨_, rfl⟩
      | false =>
        simp only [bind_ok, if_true, if_false, Bool.false_eq_true, hle, decide_true, Bool.and_self]
        exact ⟨_, rfl⟩
    · right
      refine ⟨by simp [hle], ?_⟩
      cases acc with
      | true =>
        simp only [hx2, hraw, hset, bind_ok, ecEnd, hec, if_true, hle, decide_false, Bool.and_false, if_false,
          Bool.false_eq_true, Bool.false_and, htr]
        refine ⟨_, ?_, .inl ⟨trivial, rfl, by rw [i1], hout _ hmode⟩⟩
        exact .inr ⟨by simp only [hk, hk'], by simp [c3], rfl⟩
      | false =>
        simp only [bind_ok, if_true, hle, decide_false, Bool.and_false, if_false,
          Bool.false_eq_true, Bool.false_and, htr]
        refine ⟨_, ?_, .inr ⟨trivial, rfl, i1, i2⟩⟩
        exact .inr ⟨by simp only [hk, hk'], by simp only [hx2, c3], rfl⟩

end

end Verif.Round
