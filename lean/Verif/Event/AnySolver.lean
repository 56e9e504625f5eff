import Verif.Event.AnyModel
import Verif.Event.Solvers
import Verif.RK.AdaptiveProps

/-! # C136: what an embedded Runge-Kutta solver asks its event controller -/

set_option linter.unusedSectionVars false

namespace Verif.Event

open Verif.Res Verif.RK

section
variable {K V E : Type} [Field K] [LinearOrder K] [AddCommGroup V] [Module K V]

theorem initStep2_ec (m m' : EmbMethod K V E) (hco : m'.co = m.co) (s : FixedSt K V E) (a : E) :
    ({ s with ec := a } : FixedSt K V E).initStep2 m' = { s.initStep2 m with ec := a } := by
  unfold FixedSt.initStep2
  simp only [hco]
  split <;> rfl

theorem plain_accepted (m : EmbMethod K V E) (hc : m.ec = none) (s s0 : FixedSt K V E) (a : E)
    (h : s.attempt m = .ok (.accepted s0)) :
    ({ s with ec := a } : FixedSt K V E).attempt m = .ok (.accepted { s0 with ec := a }) := by
  rw [attempt_accepted] at h ⊢
  obtain ⟨u, e1, h, out, hi, lo, nx, e2, x2, t2, tr, xs, res, a0, a1, a2, a3, a4, a5, a6, a7, a8, a9, a10, a11, a12⟩ := h
  simp only [RK.ecStart, RK.ecEnd, hc] at a1 a9 ⊢
  cases a1
  cases a9
  refine ⟨{ u with ec := a }, a, h, out, hi, lo, nx, a, _, _, _, xs, res, ?_, rfl, a2, a3, a4, a5, a6, a7, a8, rfl, a10, a11, ?_⟩
  · rw [a0, ← initStep2_ec m m rfl]
  · rw [a12]

/-- A rejected attempt has called `atStepStart`, and has changed nothing else for the controller; without a controller it is
rejected as well. -/
theorem attempt_rejected (m : EmbMethod K V E) (c : EventCtl K V E) (hc : m.ec = some c) (s s1 : FixedSt K V E)
    (h : s.attempt m = .ok (.rejected s1)) :
    c.atStepStart s.ec s.x s.t = .ok s1.ec ∧ s1.x = s.x ∧ s1.t = s.t ∧
      ∀ a, ({ s with ec := a } : FixedSt K V E).attempt { m with ec := none } = .ok (.rejected { s1 with ec := a }) := by
  have i2 : (FixedSt.initStep2 m { s with log := .pre s.h :: s.log }).ec = s.ec ∧
      (FixedSt.initStep2 m { s with log := .pre s.h :: s.log }).x = s.x ∧
      (FixedSt.initStep2 m { s with log := .pre s.h :: s.log }).t = s.t := by
    unfold FixedSt.initStep2
    split <;> exact ⟨rfl, rfl, rfl⟩
  have i1 : ∀ a, (FixedSt.initStep2 { m with ec := none } { s with ec := a, log := .pre s.h :: s.log }) =
      { FixedSt.initStep2 m { s with log := .pre s.h :: s.log } with ec := a } := fun a =>
    initStep2_ec m { m with ec := none } rfl { s with log := .pre s.h :: s.log } a
  unfold FixedSt.attempt at h ⊢
  simp only [i1] at h ⊢
  generalize FixedSt.initStep2 m { s with log := .pre s.h :: s.log } = u at i2 h ⊢
  obtain ⟨k1, k2, k3⟩ := i2
  simp only [bind_eq_ok, k1, k2, k3] at h ⊢
  obtain ⟨e1, a1, h, a2, out, a3, hi, a4, lo, a5, w, a6, a7⟩ := h
  simp only [RK.ecStart, hc] at a1
  revert a6 a7
  generalize hr : (if m.disableErrorCheck = true then (⟨h, true, false⟩ : CtlResult K) else
    m.control h (if (!m.disableErrorCheck || m.forceErrorCalc) = true then m.norm (hi - lo) else 0) (m.lowOrder : K)) = res
  intro a6 a7
  cases hacc : res.acceptStep with
  | true =>
    simp only [hacc, if_true] at a7
    split at a7
    · cases a7
    · simp only [bind_eq_ok] at a7
      obtain ⟨_, _, a7⟩ := a7
      cases a7
  | false =>
    simp only [hacc, Bool.false_eq_true, if_false] at a6 a7
    cases a6
    simp only [] at a7
    split at a7
    · cases a7
    · next hmin =>
      simp only [bind_eq_ok] at a7
      obtain ⟨hn, a8, a9⟩ := a7
      simp only [Trunc.none, Bool.false_and, Bool.false_eq_true, if_false] at a9
      cases a9
      refine ⟨?_, ?_, ?_, fun a => ⟨a, rfl, h, a2, out, a3, hi, a4, lo, a5, ?_⟩⟩
      · rw [a1]; split <;> rfl
      · split <;> simp
      · split <;> simp
      · rw [hr]
        simp only [hacc, Bool.false_eq_true, if_false]
        refine ⟨_, rfl, ?_⟩
        simp only [hmin, Bool.false_eq_true, if_false, bind_eq_ok]
        refine ⟨hn, ?_, ?_⟩
        · rw [← a8]
          split <;> rfl
        · simp only [Trunc.none, Bool.false_and, Bool.false_eq_true, if_false]
          split <;> rfl

end

section
variable {K V Q : Type} [Field K] [LinearOrder K] [AddCommGroup V] [Module K V]

/-- C136. A step of an embedded Runge-Kutta solver with step size control: the controller is asked as in C136, with the point that
the same solver reaches without a controller, and its answer is the state after the step. -/
theorem C136_embedded (m : EmbMethod K V (Ctl K × Q)) (r : EvRhs K V Q) (hc : m.ec = some (controller r)) (fuel : Nat)
    (s s' : FixedSt K V (Ctl K × Q)) (h : s.doStepEmb m fuel = some (.ok (.accepted s'))) :
    ∃ (tries : Nat) (tr : Trunc) (s0 : FixedSt K V (Ctl K × Q)), s.doStepEmb { m with ec := none } fuel = some (.ok (.accepted s0)) ∧
      s.ec.1.handle r s.ec.2 tries s.x s.t s0.x s0.t = .ok (s'.ec, s'.x, s'.t, tr) := by
  suffices H : ∃ (tries : Nat) (tr : Trunc) (s0 : FixedSt K V (Ctl K × Q)),
      (∀ a, ({ s with ec := a } : FixedSt K V (Ctl K × Q)).doStepEmb { m with ec := none } fuel =
        some (.ok (.accepted { s0 with ec := a }))) ∧
      s.ec.1.handle r s.ec.2 tries s.x s.t s0.x s0.t = .ok (s'.ec, s'.x, s'.t, tr) by
    obtain ⟨tries, tr, s0, h1, h2⟩ := H
    exact ⟨tries, tr, { s0 with ec := s.ec }, h1 s.ec, h2⟩
  have hstart : ∀ (e e1 : Ctl K × Q) (x : V) (t : K), (controller r).atStepStart e x t = .ok e1 →
      e.1.atStepStart r e.2 x t = .ok e1.1 ∧ e1.2 = e.2 := by
    intro e e1 x t h
    simp only [controller, bind_eq_ok] at h
    obtain ⟨e2, h1, h2⟩ := h
    cases h2
    exact ⟨h1, rfl⟩
  induction fuel generalizing s with
  | zero => cases h
  | succ fuel ih =>
    unfold FixedSt.doStepEmb at h
    cases hat : s.attempt m with
    | error e => rw [hat] at h; simp at h
    | ok res =>
      rw [hat] at h
      cases res with
      | accepted s2 =>
        simp only [Option.some.injEq, Except.ok.injEq, Attempt.accepted.injEq] at h
        subst h
        obtain ⟨s0, e2, x2, t2, tr, b1, ⟨e1, b2, b3⟩, hh, ch, err, b4, b5⟩ := (C116_embedded m (controller r) hc s s2).1 hat
        refine ⟨0, tr, s0, fun a => ?_, ?_⟩
        · unfold FixedSt.doStepEmb
          rw [plain_accepted _ rfl s s0 a b1]
        · obtain ⟨c1, c2⟩ := hstart _ _ _ _ b2
          rw [b5]
          simp only [Ctl.handle, Ctl.starts, c1, bind_ok]
          rw [← c2]
          exact b3
      | rejected s1 =>
        simp only at h
        obtain ⟨b1, b2, b3, b4⟩ := attempt_rejected m (controller r) hc s s1 hat
        obtain ⟨c1, c2⟩ := hstart _ _ _ _ b1
        obtain ⟨tries, tr, s0, d1, d2⟩ := ih s1 h
        refine ⟨tries + 1, tr, s0, fun a => ?_, ?_⟩
        · unfold FixedSt.doStepEmb
          rw [b4 a]
          exact d1 a
        · simp only [Ctl.handle, Ctl.starts, c1, bind_ok]
          rw [b2, b3, c2] at d2
          exact d2
      | thrown msg s2 => simp at h

end

/-- The zero function `x - 1/400`, watched in both directions; nothing happens at its zero. -/
def belowSmall : EvRhs ℚ ℚ Unit where
  zeroFuncCount _ := 1
  zeroFuncFlags _ := [3]
  zeroFunctions _ _ x := [x - 1 / 400]
  switchPhaseState _ _ _ x := ((), x)
  truncateStep _ t x := (false, t, x)

/-- `x' = t` from 0: the step 1 is rejected; the step 1/10 to the state 1/200 is accepted and cut at the event. -/
example : ∃ (m : EmbMethod ℚ ℚ (Ctl ℚ × Unit)) (s s' : FixedSt ℚ ℚ (Ctl ℚ × Unit)), m.ec = some (controller belowSmall) ∧
    s.doStepEmb m 1 = none ∧ s.doStepEmb m 2 = some (.ok (.accepted s')) ∧ s'.t = 1 / 20 ∧ s'.x = 1 / 400 := by
  let m : EmbMethod ℚ ℚ (Ctl ℚ × Unit) :=
    ⟨⟨rejecting.co, rejecting.rhs, some (controller belowSmall)⟩, 1, 0, false, false, 0, false, 1 / 100, rejecting.norm, rejecting.control⟩
  let s : FixedSt ℚ ℚ (Ctl ℚ × Unit) := ⟨0, 0, none, Output.mkEmpty, 1, (Ctl.init, ()), []⟩
  have h1 : (s.doStepEmb m 1).isNone = true := by decide +kernel
  have h2 : (match s.doStepEmb m 2 with
    | some (.ok (.accepted s')) => decide (s'.t = 1 / 20 ∧ s'.x = 1 / 400)
    | _ => false) = true := by decide +kernel
  split at h2
  · next s' hs => exact ⟨m, s, s', rfl, Option.isNone_iff_eq_none.1 h1, hs, of_decide_eq_true h2⟩
  · cases h2

end Verif.Event
