import Verif.Extrap.Refs
import Verif.Event.Model
import Verif.Ros.Model
import Verif.Implicit.Model
import Verif.Witness

/-! # C116: the event controller and the step of a solver

Every solver calls its event controller with the point the step starts from and with the point the same solver
reaches without a controller, and continues from the point the controller returns. -/

set_option linter.unusedSectionVars false

namespace Verif.Event

open Verif.Res Verif.RK Verif.Extrap

theorem bind_eq_ok {α β : Type} {r : Res α} {f : α → Res β} {b : β} :
    (r >>= f) = .ok b ↔ ∃ a, r = .ok a ∧ f a = .ok b := by
  cases r with
  | error e => exact ⟨fun h => (by cases h), fun ⟨_, h, _⟩ => (by cases h)⟩
  | ok a => exact ⟨fun h => ⟨a, rfl, h⟩, fun ⟨_, h, h'⟩ => by cases h; exact h'⟩

/-- The controller `c` takes the step from (`x1`, `t1`) to (`x0`, `t0`), for `(x2, t2)`. -/
def Handles {K V E : Type} (c : EventCtl K V E) (e : E) (x1 : V) (t1 : K) (x0 : V) (t0 : K) (e2 : E) (x2 : V) (t2 : K)
    (tr : Trunc) : Prop :=
  ∃ e1, c.atStepStart e x1 t1 = .ok e1 ∧ c.atStepEnd e1 x1 x0 t0 = .ok (e2, x2, t2, tr)

section
variable {R V E : Type} [CommRing R] [DecidableEq R] [AddCommGroup V] [Module R V]

/-- C116, fixed-step Runge-Kutta solvers. -/
theorem C116_fixed (m : RK.Method R V E) (c : EventCtl R V E) (hc : m.ec = some c) (s s' : FixedSt R V E) :
    s.doStep m = .ok s' ↔ ∃ s0 e2 x2 t2 tr, s.doStep { m with ec := none } = .ok s0 ∧
      Handles c s.ec s.x s.t s0.x s0.t e2 x2 t2 tr ∧
      ∃ h, s0.log = .post h true false Trunc.none 0 :: .pre s.h :: s.log ∧
        s' = { s0 with t := t2, x := x2, ec := e2, log := .post h true false tr 0 :: .pre s.h :: s.log } := by
  have i1 : (FixedSt.initStep { m with ec := none } { s with log := .pre s.h :: s.log }) =
      (FixedSt.initStep m { s with log := .pre s.h :: s.log }) := rfl
  have i2 : (FixedSt.initStep m { s with log := .pre s.h :: s.log }).ec = s.ec ∧
      (FixedSt.initStep m { s with log := .pre s.h :: s.log }).x = s.x ∧
      (FixedSt.initStep m { s with log := .pre s.h :: s.log }).t = s.t ∧
      (FixedSt.initStep m { s with log := .pre s.h :: s.log }).log = .pre s.h :: s.log := by
    unfold FixedSt.initStep
    split <;> exact ⟨rfl, rfl, rfl, rfl⟩
  unfold FixedSt.doStep Handles
  simp only [i1]
  generalize FixedSt.initStep m { s with log := .pre s.h :: s.log } = u at i2 ⊢
  obtain ⟨k1, k2, k3, k4⟩ := i2
  simp only [RK.ecStart, RK.ecEnd, hc, bind_eq_ok, k1, k2, k3, k4, Prod.exists]
  constructor
  · rintro ⟨e1, a1, h, a2, out, a3, nx, a4, e2, x2, t2, tr, a5, xs, a6, a7⟩
    refine ⟨_, e2, x2, t2, tr, ⟨_, rfl, h, a2, out, a3, nx, a4, _, _, _, _, rfl, xs, a6, rfl⟩, ⟨e1, a1, a5⟩, h, rfl, ?_⟩
    cases a7
    rfl
  · rintro ⟨s0, e2, x2, t2, tr, ⟨_, b1, h, a2, out, a3, nx, a4, _, _, _, _, b2, xs, a6, a7⟩, ⟨e1, a1, a5⟩, h', b3, b4⟩
    cases b1
    cases b2
    cases a7
    cases b3
    subst b4
    exact ⟨e1, a1, h, a2, out, a3, nx, a4, e2, x2, t2, tr, a5, xs, a6, rfl⟩

end

section
variable {K V E S Q : Type} [Field K] [LinearOrder K] [AddCommGroup V] [Module K V]

/-- C116, the Gragg solver: also, a truncated step ends the run of steps. -/
theorem C116_gragg (m : GrMethod K V E) (c : EventCtl K V E) (hc : m.ec = some c) (s s' : GrSt K V E) :
    s.doStep m = .ok s' ↔ ∃ s0 e2 x2 t2 tr, s.doStep { m with ec := none } = .ok s0 ∧
      Handles c s.ec s.u s.t s0.u s0.t e2 x2 t2 tr ∧
      s0.log = .post s.hInit true false Trunc.none 0 :: .pre (some s.hInit) :: s.log ∧
      s' = { s0 with t := t2, u := x2, ec := e2, running := !tr.truncated,
                     log := .post s.hInit true false tr 0 :: .pre (some s.hInit) :: s.log } := by
  unfold GrSt.doStep Handles
  simp only [GrMethod.ecStart, GrMethod.ecEnd, hc, bind_eq_ok, Prod.exists]
  constructor
  · rintro ⟨e1, a1, e2, x2, t2, tr, a5, a7⟩
    refine ⟨_, e2, x2, t2, tr, ⟨_, rfl, _, _, _, _, rfl, rfl⟩, ⟨e1, a1, a5⟩, rfl, ?_⟩
    cases a7
    rfl
  · rintro ⟨s0, e2, x2, t2, tr, ⟨_, b1, _, _, _, _, b2, a7⟩, ⟨e1, a1, a5⟩, b3, b4⟩
    cases b1
    cases b2
    cases a7
    subst b4
    exact ⟨e1, a1, e2, x2, t2, tr, a5, rfl⟩

/-- Control result of an attempt -/
def embControl (m : EmbMethod K V E) (h : K) (hi lo : V) : CtlResult K :=
  if m.disableErrorCheck then ⟨h, true, false⟩ else
    m.control h (if !m.disableErrorCheck || m.forceErrorCalc then m.norm (hi - lo) else 0) m.lowOrder

theorem attempt_accepted (m : EmbMethod K V E) (s s' : FixedSt K V E) :
    s.attempt m = .ok (.accepted s') ↔ ∃ u e1 h out hi lo nx e2 x2 t2 tr xs res,
      u = FixedSt.initStep2 m { s with log := .pre s.h :: s.log } ∧
      RK.ecStart m.toMethod s.ec s.x s.t = .ok e1 ∧ readH u.h = .ok h ∧
      compute u.out m.co m.rhs s.x s.t h = .ok out ∧ raw out.x2 0 = .ok hi ∧ raw out.x2 1 = .ok lo ∧
      res = embControl m h hi lo ∧ res.acceptStep = true ∧ raw out.x2 m.modeIndex = .ok nx ∧
      RK.ecEnd m.toMethod e1 s.x nx (s.t + h) = .ok (e2, x2, t2, tr) ∧ rawSet out.x2 m.modeIndex s.x = .ok xs ∧
      ¬ (res.changeStepSize && decide (res.newStepSize ≤ m.hMin)) = true ∧
      s' = { t := t2
             x := x2
             h := some (if tr.truncated = true ∧ 0 < m.hAfterSwitch then
               min m.hAfterSwitch (if res.changeStepSize then res.newStepSize else h)
               else (if res.changeStepSize then res.newStepSize else h))
             out := ⟨out.k, xs, if !m.disableErrorCheck || m.forceErrorCalc then hi - lo else out.buf⟩
             hInit := s.hInit
             ec := e2
             log := .post h true res.changeStepSize tr
               (if !m.disableErrorCheck || m.forceErrorCalc then m.norm (hi - lo) else 0) :: .pre s.h :: s.log } := by
  have i2 : (FixedSt.initStep2 m { s with log := .pre s.h :: s.log }).ec = s.ec ∧
      (FixedSt.initStep2 m { s with log := .pre s.h :: s.log }).x = s.x ∧
      (FixedSt.initStep2 m { s with log := .pre s.h :: s.log }).t = s.t ∧
      (FixedSt.initStep2 m { s with log := .pre s.h :: s.log }).hInit = s.hInit ∧
      (FixedSt.initStep2 m { s with log := .pre s.h :: s.log }).log = .pre s.h :: s.log := by
    unfold FixedSt.initStep2
    split <;> exact ⟨rfl, rfl, rfl, rfl, rfl⟩
  unfold FixedSt.attempt
  simp only []
  generalize FixedSt.initStep2 m { s with log := .pre s.h :: s.log } = u at i2 ⊢
  obtain ⟨k1, k2, k3, k5, k4⟩ := i2
  have hread : ∀ {o : Option K} {h : K}, readH o = .ok h ↔ o = some h := by
    intro o h
    cases o with
    | none => exact ⟨fun h => (by cases h), fun h => (by cases h)⟩
    | some a => exact ⟨fun h => (by cases h; rfl), fun h => (by cases h; rfl)⟩
  have hx2 : ∀ (b : Bool) (out : Output V) (v : V), (if b = true then ({ out with buf := v } : Output V) else out)
      = ⟨out.k, out.x2, if b = true then v else out.buf⟩ := by
    intro b out v
    cases b <;> rfl
  simp only [bind_eq_ok, k1, k2, k3, k4, k5, hx2, Prod.exists]
  constructor
  · rintro ⟨e1, a1, h, a2, out, a3, hi, a4, lo, a5, w, tr0, a6, a7⟩
    revert a6 a7
    generalize hr : (if m.disableErrorCheck = true then (⟨h, true, false⟩ : CtlResult K) else _) = res
    intro a6 a7
    cases hacc : res.acceptStep with
    | false =>
      simp only [hacc, Bool.false_eq_true, if_false] at a6 a7
      split at a7
      · cases a7
      · simp only [bind_eq_ok] at a7
        obtain ⟨_, _, a7⟩ := a7
        cases a7
    | true =>
      simp only [hacc, if_true, bind_eq_ok, Prod.exists] at a6
      obtain ⟨nx, a8, e2, x2, t2, tr, a9, xs, a10, a11⟩ := a6
      cases a11
      simp only [hacc, if_true] at a7
      split at a7
      · cases a7
      · next hmin =>
        simp only [bind_eq_ok] at a7
        obtain ⟨hn, a11, a12⟩ := a7
        refine ⟨u, e1, h, out, hi, lo, nx, e2, x2, t2, tr0, xs, res, rfl, a1, a2, a3, a4, a5, hr.symm, hacc, a8, a9, a10,
          hmin, ?_⟩
        injection a12 with a12
        injection a12 with a12
        rw [← a12]
        rw [hread] at a11 a2
        have hhn : hn = if res.changeStepSize then res.newStepSize else h := by
          cases hch : res.changeStepSize <;> simp [hch, a2] at a11 ⊢ <;> exact a11.symm
        have hmn : ∀ a b : K, ¬ a < b → min a b = b := fun a b h => min_eq_right (not_lt.1 h)
        have hmn2 : ∀ a b : K, a < b → min a b = a := fun a b h => min_eq_left h.le
        subst hhn
        cases hch : res.changeStepSize <;> cases htr : tr0.truncated <;> by_cases h0 : 0 < m.hAfterSwitch <;>
          simp [h0, a2]
        · by_cases h1 : m.hAfterSwitch < h
          · simp [h1, hmn2]
          · simp [h1, hmn]
        · by_cases h1 : m.hAfterSwitch < res.newStepSize
          · simp [h1, hmn2]
          · simp [h1, hmn]
  · rintro ⟨_, e1, h, out, hi, lo, nx, e2, x2, t2, tr, xs, res, rfl, a1, a2, a3, a4, a5, a6, a7, a8, a9, a10, a11, a12⟩
    have hmn : ∀ a b : K, ¬ a < b → min a b = b := fun a b h => min_eq_right (not_lt.1 h)
    have hmn2 : ∀ a b : K, a < b → min a b = a := fun a b h => min_eq_left h.le
    unfold embControl at a6
    refine ⟨e1, a1, h, a2, out, a3, hi, a4, lo, a5, ?_⟩
    rw [← a6]
    simp only [a7, if_true, bind_eq_ok, Prod.exists]
    refine ⟨_, _, ⟨nx, a8, e2, x2, t2, tr, a9, xs, a10, rfl⟩, ?_⟩
    simp only [a11, if_false, bind_eq_ok, Bool.false_eq_true]
    rw [hread] at a2
    simp only [hread]
    refine ⟨if res.changeStepSize then res.newStepSize else h, ?_, ?_⟩
    · split <;> simp [a2]
    · subst a12
      congr 2
      cases hch : res.changeStepSize <;> cases htr : tr.truncated <;> by_cases h0 : 0 < m.hAfterSwitch <;>
          simp [h0, a2]
      · by_cases h1 : m.hAfterSwitch < h
        · simp [h1, hmn2]
        · simp [h1, hmn]
      · by_cases h1 : m.hAfterSwitch < res.newStepSize
        · simp [h1, hmn2]
        · simp [h1, hmn]

/-- C116, one attempt of an embedded Runge-Kutta solver: an accepted attempt is handed to the controller; after a
truncated step the step size is reduced to the one set for that, if there is one. -/
theorem C116_embedded (m : EmbMethod K V E) (c : EventCtl K V E) (hc : m.ec = some c) (s s' : FixedSt K V E) :
    s.attempt m = .ok (.accepted s') ↔ ∃ s0 e2 x2 t2 tr,
      s.attempt { m with ec := none } = .ok (.accepted s0) ∧
      Handles c s.ec s.x s.t s0.x s0.t e2 x2 t2 tr ∧
      ∃ h ch err, s0.log = .post h true ch Trunc.none err :: .pre s.h :: s.log ∧
        s' = { s0 with t := t2, x := x2, ec := e2,
                       h := (if tr.truncated = true ∧ 0 < m.hAfterSwitch then s0.h.map (min m.hAfterSwitch) else s0.h),
                       log := .post h true ch tr err :: .pre s.h :: s.log } := by
  simp only [attempt_accepted]
  have i1 : (FixedSt.initStep2 { m with ec := none } { s with log := .pre s.h :: s.log }) =
      (FixedSt.initStep2 m { s with log := .pre s.h :: s.log }) := rfl
  have i2 : ∀ h hi lo, embControl ({ m with ec := none } : EmbMethod K V E) h hi lo = embControl m h hi lo := fun _ _ _ => rfl
  have i3 : EmbMethod.modeIndex ({ m with ec := none } : EmbMethod K V E) = m.modeIndex := rfl
  unfold Handles
  simp only [i1, i2, i3, RK.ecStart, RK.ecEnd, hc]
  constructor
  · rintro ⟨u, e1, h, out, hi, lo, nx, e2, x2, t2, tr, xs, res, a0, a1, a2, a3, a4, a5, a6, a7, a8, a9, a10, a11, a12⟩
    refine ⟨_, e2, x2, t2, tr, ⟨u, _, h, out, hi, lo, nx, _, _, _, _, xs, res, a0, rfl, a2, a3, a4, a5, a6, a7, a8, rfl,
      a10, a11, rfl⟩, ⟨e1, a1, a9⟩, h, _, _, rfl, ?_⟩
    rw [a12]
    congr 1
    by_cases hh : tr.truncated = true ∧ 0 < m.hAfterSwitch <;> simp [hh, Trunc.none]
  · rintro ⟨s0, e2, x2, t2, tr, ⟨u, _, h, out, hi, lo, nx, _, _, _, _, xs, res, a0, b1, a2, a3, a4, a5, a6, a7, a8, b2,
      a10, a11, b3⟩, ⟨e1, a1, a9⟩, h', ch, err, b4, b5⟩
    cases b1
    cases b2
    subst b3
    cases b4
    refine ⟨u, e1, h, out, hi, lo, nx, e2, x2, t2, tr, xs, res, a0, a1, a2, a3, a4, a5, a6, a7, a8, a9, a10, a11, ?_⟩
    rw [b5]
    congr 1
    by_cases hh : tr.truncated = true ∧ 0 < m.hAfterSwitch <;> simp [hh, Trunc.none]

/-- Control result of an attempt of the extrapolator -/
def exControl (m : ExMethod K V E S Q) (h err : K) : CtlResult K :=
  if m.disableErrorCheck then ⟨h, true, false⟩ else m.control h err m.lowOrder

theorem ex_attempt_accepted (m : ExMethod K V E S Q) (s s' : ExSt K V E S Q) :
    s.attempt m = .ok (.accepted s') ↔ ∃ u e1 r sq h ref q T n T1 next T2 err res e2 x2 t2 tr T3,
      ExSt.initStep m { s with log := .pre s.h :: s.log } = .ok u ∧ m.ecStart u.ec u.x u.t = .ok e1 ∧
      m.ref = some r ∧ m.seq = some sq ∧ u.h = some h ∧
      stages r sq m.maxStages u.t h u.x (u.ref, sq.reset u.seq, u.T, u.n) = .ok (ref, q, T, n) ∧
      neville (K := K) m.symmetric m.maxStages n T = .ok T1 ∧ raw T1 0 = .ok next ∧
      (if m.disableErrorCheck then .ok (T1, 0) else do
        let low ← raw T1 1
        let err := (-1 : K) • low + next
        let T ← rawSet T1 1 err
        .ok (T, m.norm err) : Res (List V × K)) = .ok (T2, err) ∧
      res = exControl m h err ∧ res.acceptStep = true ∧
      m.ecEnd e1 u.x next (u.t + h) = .ok (e2, x2, t2, tr) ∧ rawSet T2 0 u.x = .ok T3 ∧
      ¬ (res.changeStepSize && decide (res.newStepSize ≤ m.hMin)) = true ∧
      s' = { u with
             t := t2
             x := x2
             h := some (if res.changeStepSize then res.newStepSize else h)
             T := T3
             n := n
             ref := ref
             seq := q
             ec := e2
             log := .post (if res.changeStepSize then res.newStepSize else h) true res.changeStepSize tr err :: u.log } := by
  have hread : ∀ {o : Option K} {h : K}, readH o = .ok h ↔ o = some h := by
    intro o h
    cases o with
    | none => exact ⟨fun h => (by cases h), fun h => (by cases h)⟩
    | some a => exact ⟨fun h => (by cases h; rfl), fun h => (by cases h; rfl)⟩
  unfold ExSt.attempt
  simp only []
  cases hu : ExSt.initStep m { s with log := .pre s.h :: s.log } with
  | error e => simp
  | ok u =>
    cases he : m.ecStart u.ec u.x u.t with
    | error e => simp [he]
    | ok e1 =>
      simp only [bind_ok, he]
      cases hr : m.ref with
      | none => simp
      | some r =>
        cases hs : m.seq with
        | none => simp
        | some sq =>
          simp only [bind_eq_ok, hread, Prod.exists]
          constructor
          · rintro ⟨h, a2, ref, q, T, n, a3, T1, a4, nx, a5, T2, err, a6, w, tr0, a7, a8⟩
            revert a7 a8
            generalize hr : (if m.disableErrorCheck = true then (⟨h, true, false⟩ : CtlResult K) else _) = res
            intro a7 a8
            cases hacc : res.acceptStep with
            | false =>
              simp only [hacc, Bool.false_eq_true, if_false] at a7 a8
              split at a8
              · cases a8
              · simp only [bind_eq_ok] at a8
                obtain ⟨_, _, a8⟩ := a8
                cases a8
            | true =>
              simp only [hacc, if_true, bind_eq_ok, Prod.exists] at a7
              obtain ⟨e2, x2, t2, tr, a9, T3, a10, a11⟩ := a7
              cases a11
              simp only [hacc, if_true] at a8
              split at a8
              · cases a8
              · next hmin =>
                simp only [bind_eq_ok] at a8
                obtain ⟨hn, a11, a12⟩ := a8
                refine ⟨u, e1, r, sq, h, ref, q, T, n, T1, nx, T2, err, res, e2, x2, t2, tr0, T3, rfl, he, rfl, rfl, a2, a3, a4,
                  a5, a6, hr.symm, hacc, a9, a10, hmin, ?_⟩
                injection a12 with a12
                injection a12 with a12
                rw [← a12]
                rw [hread] at a11
                cases hch : res.changeStepSize <;> simp [hch, a2] at a11 ⊢ <;> exact a11.symm
          · rintro ⟨_, e1', r', sq', h, ref, q, T, n, T1, nx, T2, err, res, e2, x2, t2, tr, T3, b1, b2, b3, b4, a2, a3, a4,
                  a5, a6, a7, hacc, a9, a10, hmin, a11⟩
            cases b1
            cases b3
            cases b4
            rw [he] at b2
            cases b2
            refine ⟨h, a2, ref, q, T, n, a3, T1, a4, nx, a5, T2, err, a6, ?_⟩
            unfold exControl at a7
            rw [← a7]
            simp only [hacc, if_true, bind_eq_ok, Prod.exists]
            refine ⟨_, _, ⟨e2, x2, t2, tr, a9, T3, a10, rfl⟩, ?_⟩
            simp only [hmin, if_false, bind_eq_ok, Bool.false_eq_true]
            simp only [hread]
            refine ⟨if res.changeStepSize then res.newStepSize else h, ?_, ?_⟩
            · split <;> simp [a2]
            · subst a11
              congr 2
              cases hch : res.changeStepSize <;> simp [a2]

/-- C116, one attempt of the extrapolator. Missing: the reference solver is the same on both sides, with its own event
controller, if it has one, see `C116_false`. -/
theorem C116_extrapolator_partial (m : ExMethod K V E S Q) (c : EventCtl K V E) (hc : m.ec = some c)
    (s s' : ExSt K V E S Q) :
    s.attempt m = .ok (.accepted s') ↔ ∃ s0 e2 x2 t2 tr,
      s.attempt { m with ec := none } = .ok (.accepted s0) ∧
      Handles c s.ec s.x s.t s0.x s0.t e2 x2 t2 tr ∧
      ∃ h ch err, s0.log = .post h true ch Trunc.none err :: .pre s.h :: s.log ∧
        s' = { s0 with t := t2, x := x2, ec := e2, log := .post h true ch tr err :: .pre s.h :: s.log } := by
  have i0 : ∀ u, ExSt.initStep m { s with log := .pre s.h :: s.log } = .ok u →
      u.ec = s.ec ∧ u.x = s.x ∧ u.t = s.t ∧ u.log = .pre s.h :: s.log := by
    intro u hu
    unfold ExSt.initStep at hu
    split at hu
    · cases hu
      exact ⟨rfl, rfl, rfl, rfl⟩
    · split at hu
      · cases hu
      · split at hu
        · cases hu
        · simp only [bind_eq_ok, Prod.exists] at hu
          obtain ⟨_, _, _, hu⟩ := hu
          cases hu
          exact ⟨rfl, rfl, rfl, rfl⟩
  simp only [ex_attempt_accepted]
  have i1 : (ExSt.initStep { m with ec := none } { s with log := .pre s.h :: s.log }) =
      (ExSt.initStep m { s with log := .pre s.h :: s.log }) := rfl
  have i2 : ∀ h err, exControl ({ m with ec := none } : ExMethod K V E S Q) h err = exControl m h err := fun _ _ => rfl
  unfold Handles
  simp only [i1, i2, ExMethod.ecStart, ExMethod.ecEnd, hc]
  constructor
  · rintro ⟨u, e1, r, sq, h, ref, q, T, n, T1, nx, T2, err, res, e2, x2, t2, tr, T3, a0, a1, a2, a3, a4, a5, a6, a7, a8,
      a9, a10, a11, a12, a13, a14⟩
    obtain ⟨k1, k2, k3, k4⟩ := i0 u a0
    refine ⟨_, e2, x2, t2, tr, ⟨u, _, r, sq, h, ref, q, T, n, T1, nx, T2, err, res, _, _, _, _, T3, a0, rfl, a2, a3, a4, a5,
      a6, a7, a8, a9, a10, rfl, a12, a13, rfl⟩, ⟨e1, ?_, ?_⟩,
      (if res.changeStepSize then res.newStepSize else h), res.changeStepSize, err, ?_, ?_⟩
    · rw [← k1, ← k2, ← k3]; exact a1
    · rw [← k2]; exact a11
    · simp only [k4]
    · rw [a14, k4]
  · rintro ⟨s0, e2, x2, t2, tr, ⟨u, _, r, sq, h, ref, q, T, n, T1, nx, T2, err, res, _, _, _, _, T3, a0, b1, a2, a3, a4, a5,
      a6, a7, a8, a9, a10, b2, a12, a13, b3⟩, ⟨e1, a1, a11⟩, h', ch, err', b4, b5⟩
    obtain ⟨k1, k2, k3, k4⟩ := i0 u a0
    cases b1
    cases b2
    subst b3
    rw [k4] at b4
    cases b4
    refine ⟨u, e1, r, sq, h, ref, q, T, n, T1, nx, T2, err, res, e2, x2, t2, tr, T3, a0, ?_, a2, a3, a4, a5, a6, a7, a8,
      a9, a10, ?_, a12, a13, ?_⟩
    · rw [k1, k2, k3]; exact a1
    · rw [k2]; exact a11
    · rw [b5, k4]

end

section
variable {K D E : Type} [Field K] [LinearOrder K]

/-- C116, the Rosenbrock solver W1. -/
theorem C116_w1 (M : Ros.Method K E) (c : EventCtl K (List K) E) (hc : M.ec = some c) (s s' : Ros.St K E) :
    s.doStep1 M = .ok s' ↔ ∃ s0 e2 x2 t2 tr, s.doStep1 { M with ec := none } = .ok s0 ∧
      Handles c s.ec s.x s.t s0.x s0.t e2 x2 t2 tr ∧
      s0.log = .post s.h true false Trunc.none 0 :: .pre (some s.h) :: s.log ∧
      s' = { s0 with t := t2, x := x2, ec := e2, log := .post s.h true false tr 0 :: .pre (some s.h) :: s.log } := by
  have i1 : (Ros.St.initStep1 { M with ec := none } { s with log := .pre (some s.h) :: s.log }) =
      (Ros.St.initStep1 M { s with log := .pre (some s.h) :: s.log }) := rfl
  have i2 : ∀ u, Ros.St.initStep1 M { s with log := .pre (some s.h) :: s.log } = .ok u →
      u.ec = s.ec ∧ u.x = s.x ∧ u.t = s.t ∧ u.h = s.h ∧ u.log = .pre (some s.h) :: s.log := by
    intro u hu
    unfold Ros.St.initStep1 at hu
    simp only [bind_eq_ok] at hu
    obtain ⟨_, _, _, _, hu⟩ := hu
    cases hu
    exact ⟨rfl, rfl, rfl, rfl, rfl⟩
  unfold Ros.St.doStep1 Handles
  simp only [i1, Ros.Method.start, Ros.Method.finish, hc, bind_eq_ok]
  constructor
  · rintro ⟨u, a0, e1, a1, k, a2, nx, a3, ⟨e2, x2, t2, tr⟩, a4, a5⟩
    obtain ⟨k1, k2, k3, k4, k5⟩ := i2 u a0
    refine ⟨_, e2, x2, t2, tr, ⟨u, a0, _, rfl, k, a2, nx, a3, _, rfl, rfl⟩, ⟨e1, ?_, ?_⟩, ?_, ?_⟩
    · rw [← k1, ← k2, ← k3]; exact a1
    · rw [← k2]; exact a4
    · rw [k4, k5]
    · cases a5
      rw [k4, k5]
  · rintro ⟨s0, e2, x2, t2, tr, ⟨u, a0, _, b1, k, a2, nx, a3, _, b2, b3⟩, ⟨e1, a1, a4⟩, b4, b5⟩
    obtain ⟨k1, k2, k3, k4, k5⟩ := i2 u a0
    cases b1
    cases b2
    cases b3
    refine ⟨u, a0, e1, ?_, k, a2, nx, a3, (e2, x2, t2, tr), ?_, ?_⟩
    · rw [k1, k2, k3]; exact a1
    · rw [k2]; exact a4
    · rw [b5, k4, k5]

theorem sw24_accepted (M : Ros.Method K E) (s s' : Ros.St K E) :
    s.attempt M = .ok (.accepted s') ↔ ∃ e1 g g2 res e2 x2 t2 tr f0, M.start s = .ok e1 ∧
      Ros.St.stages M { s with ec := e1 } = .ok g ∧ Ros.St.errorStages M { s with ec := e1 } g = .ok g2 ∧
      res = (if M.disableErrorCheck then ⟨s.h, true, false⟩ else M.control s.h g2.err 2) ∧ res.acceptStep = true ∧
      M.finish e1 s.x g2.next (s.t + s.h) = .ok (e2, x2, t2, tr) ∧
      (if tr.truncated then (M.rhs e2).rhs t2 x2 else .ok g2.nextRhs) = .ok f0 ∧
      ¬ (res.changeStepSize ∧ res.newStepSize ≤ M.hMin) ∧
      s' = ⟨g2.base, t2, x2, if res.changeStepSize then res.newStepSize else s.h, f0, g2.k1, e2,
        .post s.h true res.changeStepSize tr g2.err :: s.log⟩ := by
  unfold Ros.St.attempt
  simp only [bind_eq_ok]
  constructor
  · rintro ⟨e1, a1, g, a2, g2, a3, p, a4, a5⟩
    revert a4 a5
    generalize hr : (if M.disableErrorCheck = true then (⟨s.h, true, false⟩ : CtlResult K) else _) = res
    intro a4 a5
    cases hacc : res.acceptStep with
    | false =>
      simp only [hacc, Bool.false_eq_true, if_false] at a4 a5
      split at a5
      · cases a5
      · cases a5
    | true =>
      simp only [hacc, if_true, bind_eq_ok] at a4 a5
      obtain ⟨⟨e2, x2, t2, tr⟩, a6, f0, a7, a8⟩ := a4
      cases a8
      split at a5
      · cases a5
      · next hmin =>
        refine ⟨e1, g, g2, res, e2, x2, t2, tr, f0, a1, a2, a3, hr.symm, hacc, a6, a7, hmin, ?_⟩
        cases a5
        cases hch : res.changeStepSize <;> simp
  · rintro ⟨e1, g, g2, res, e2, x2, t2, tr, f0, a1, a2, a3, hr, hacc, a6, a7, hmin, a8⟩
    refine ⟨e1, a1, g, a2, g2, a3, ?_⟩
    rw [← hr]
    simp only [hacc, if_true, bind_eq_ok]
    refine ⟨_, ⟨(e2, x2, t2, tr), a6, f0, a7, rfl⟩, ?_⟩
    rw [if_neg hmin, a8]
    cases hch : res.changeStepSize <;> simp

/-- C116, one attempt of the Rosenbrock solver SW2(4), if the start of a step leaves the right-hand side as it is: the
right-hand side kept for the next step is taken at the point of the event. -/
theorem C116_sw24 (M : Ros.Method K E) (c : EventCtl K (List K) E) (hc : M.ec = some c)
    (hrhs : ∀ e x t e1, c.atStepStart e x t = .ok e1 → M.rhs e1 = M.rhs e) (s s' : Ros.St K E) :
    s.attempt M = .ok (.accepted s') ↔ ∃ s0 e2 x2 t2 tr f0, s.attempt { M with ec := none } = .ok (.accepted s0) ∧
      Handles c s.ec s.x s.t s0.x s0.t e2 x2 t2 tr ∧
      (if tr.truncated then (M.rhs e2).rhs t2 x2 else .ok s0.f0) = .ok f0 ∧
      ∃ ch err, s0.log = .post s.h true ch Trunc.none err :: s.log ∧
        s' = { s0 with t := t2, x := x2, ec := e2, f0 := f0, log := .post s.h true ch tr err :: s.log } := by
  have hst : ∀ e1, c.atStepStart s.ec s.x s.t = .ok e1 → Ros.St.stages M { s with ec := e1 } =
      Ros.St.stages { M with ec := none } { s with ec := s.ec } := by
    intro e1 h1
    unfold Ros.St.stages
    rw [hrhs _ _ _ _ h1]
  have hest : ∀ e1, c.atStepStart s.ec s.x s.t = .ok e1 → ∀ g, Ros.St.errorStages M { s with ec := e1 } g =
      Ros.St.errorStages { M with ec := none } { s with ec := s.ec } g := by
    intro e1 h1 g
    unfold Ros.St.errorStages
    rw [hrhs _ _ _ _ h1]
  simp only [sw24_accepted]
  simp only [Handles, Ros.Method.start, Ros.Method.finish, hc]
  constructor
  · rintro ⟨e1, g, g2, res, e2, x2, t2, tr, f0, a1, a2, a3, hr, hacc, a6, a7, hmin, a8⟩
    refine ⟨_, e2, x2, t2, tr, f0, ⟨s.ec, g, g2, res, _, _, _, _, _, rfl, (hst e1 a1).symm.trans a2,
      (hest e1 a1 g).symm.trans a3, hr, hacc, rfl, rfl, hmin, rfl⟩, ⟨e1, a1, a6⟩, a7, _, _, rfl, a8⟩
  · rintro ⟨s0, e2, x2, t2, tr, f0, ⟨_, g, g2, res, _, _, _, _, _, b1, a2, a3, hr, hacc, b2, b3, hmin, b4⟩, ⟨e1, a1, a6⟩,
      a7, ch, err, b5, b6⟩
    cases b1
    cases b2
    cases b3
    subst b4
    cases b5
    exact ⟨e1, g, g2, res, e2, x2, t2, tr, f0, a1, (hst e1 a1).trans a2, (hest e1 a1 g).trans a3, hr, hacc, a6, a7, hmin,
      b6⟩

theorem implicit_ok (M : Implicit.IMethod D K E) (s s' : Implicit.ISolver D K E) (tr : Trunc) :
    s.doStep M = .ok (s', tr) ↔ ∃ u P g e1 r eqn buf e2 x2 t2,
      u = { s with map := s.map.setTimeStep s.hInit } ∧ P = M.parts (M.mapping4Newton s.ec u.map) ∧
      u.guess M s.hInit = .ok g ∧
      (match M.ec with
        | some c => c.atStepStart s.ec s.map.x0 s.map.t0
        | none => .ok s.ec : Res E) = .ok e1 ∧
      (P.env M.observers).run M.limit (s.perf.setInitialGuess P g.2 s.hard) = .ok r ∧ r.2 = .converged ∧
      (match M.order with
        | some ord => Alg.unorder g.1 r.1.x ord.1
        | none => .ok r.1.x : Res (List K)) = .ok eqn ∧
      u.map.computeOdeState (M.rhs s.ec) s.buf eqn = .ok buf ∧
      (match M.ec with
        | some c => c.atStepEnd e1 s.map.x0 buf (s.map.t0 + s.hInit)
        | none => .ok (e1, buf, s.map.t0 + s.hInit, Trunc.none) : Res (E × List K × K × Trunc)) = .ok (e2, x2, t2, tr) ∧
      s' = ⟨u.map.setInitialState t2 x2, x2, (match M.order with
        | some _ => eqn
        | none => g.1), false, s.hInit,
        if tr.truncated then { r.1 with dir := P.dirReset true r.1.dir } else r.1, e2⟩ := by
  unfold Implicit.ISolver.doStep
  simp only [bind_eq_ok]
  constructor
  · rintro ⟨g, a0, e1, a1, r, a2, a3⟩
    split at a3
    · cases a3
    · next hconv =>
      simp only [bind_eq_ok] at a3
      obtain ⟨eqn, a4, buf, a5, ⟨e2, x2, t2, tr'⟩, a6, a7⟩ := a3
      cases a7
      exact ⟨_, _, g, e1, r, eqn, buf, e2, x2, t2, rfl, rfl, a0, a1, a2, not_not.1 hconv, a4, a5, a6, rfl⟩
  · rintro ⟨_, _, g, e1, r, eqn, buf, e2, x2, t2, rfl, rfl, a0, a1, a2, hconv, a4, a5, a6, a7⟩
    refine ⟨g, a0, e1, a1, r, a2, ?_⟩
    rw [if_neg (not_not.2 hconv)]
    simp only [bind_eq_ok]
    exact ⟨eqn, a4, buf, a5, (e2, x2, t2, tr), a6, by rw [a7]; rfl⟩

/-- C116, the implicit Euler solver: also, a truncated step makes the descent direction forget the past. -/
theorem C116_implicit (M : Implicit.IMethod D K E) (c : EventCtl K (List K) E) (hc : M.ec = some c)
    (s s' : Implicit.ISolver D K E) (tr : Trunc) :
    s.doStep M = .ok (s', tr) ↔ ∃ s0 e2 x2 t2, s.doStep { M with ec := none } = .ok (s0, Trunc.none) ∧
      Handles c s.ec s.map.x0 s.map.t0 s0.map.x0 s0.map.t0 e2 x2 t2 tr ∧
      s' = { s0 with
        map := s0.map.setInitialState t2 x2
        buf := x2
        perf := if tr.truncated then
          { s0.perf with dir := (M.parts (M.mapping4Newton s.ec (s.map.setTimeStep s.hInit))).dirReset true s0.perf.dir }
          else s0.perf
        ec := e2 } := by
  have i1 : ∀ u h, Implicit.ISolver.guess { M with ec := none } u h = Implicit.ISolver.guess M u h := fun _ _ => rfl
  have i2 : ∀ m, Implicit.IMethod.mapping4Newton { M with ec := none } s.ec m = M.mapping4Newton s.ec m := fun _ => rfl
  simp only [implicit_ok]
  simp only [Handles, i1, i2, hc]
  constructor
  · rintro ⟨u, P, g, e1, r, eqn, buf, e2, x2, t2, a1, a2, a3, a4, a5, a6, a7, a8, a9, a10⟩
    refine ⟨_, e2, x2, t2, ⟨u, P, g, _, r, eqn, buf, _, _, _, a1, a2, a3, rfl, a5, a6, a7, a8, rfl, rfl⟩, ⟨e1, a4, a9⟩, ?_⟩
    subst a1 a2
    rw [a10]
    simp [Implicit.EMap.setInitialState, Trunc.none]
  · rintro ⟨s0, e2, x2, t2, ⟨u, P, g, _, r, eqn, buf, _, _, _, a1, a2, a3, b1, a5, a6, a7, a8, b2, b3⟩, ⟨e1, a4, a9⟩, b4⟩
    cases b1
    cases b2
    subst b3
    refine ⟨u, P, g, e1, r, eqn, buf, e2, x2, t2, a1, a2, a3, a4, a5, a6, a7, a8, a9, ?_⟩
    subst a1 a2
    rw [b4]
    simp [Implicit.EMap.setInitialState, Trunc.none]

end

/-! ### The reference solver of the extrapolator sees the events too -/

/-- `x' = 1` with the zero function `x - 1/3`, watched in both directions; nothing happens at its zero. -/
def third : EvRhs ℚ ℚ Unit where
  zeroFuncCount _ := 1
  zeroFuncFlags _ := [3]
  zeroFunctions _ _ x := [x - 1 / 3]
  switchPhaseState _ _ _ x := ((), x)
  truncateStep _ t x := (false, t, x)

/-- The extrapolator with its own controller, two stages of the Euler method, whose controller is given -/
def thirdEx (c : Option (EventCtl ℚ ℚ (Ctl ℚ × Unit))) :
    ExMethod ℚ ℚ (Ctl ℚ × Unit) (FixedSt ℚ ℚ (Ctl ℚ × Unit)) Nat where
  ref := some ((⟨euler, fun _ _ => 1, c⟩ : RK.Method ℚ ℚ (Ctl ℚ × Unit)).ref 1)
  seq := some harmonic
  ec := some (controller third)
  symmetric := false
  disableErrorCheck := true
  maxStages := 2
  hMin := 0
  norm x := |x|
  control h _ _ := ⟨h, true, false⟩

/-- Before the first step of size 1 from `x = 0` at time 0 -/
def thirdStart : ExSt ℚ ℚ (Ctl ℚ × Unit) (FixedSt ℚ ℚ (Ctl ℚ × Unit)) Nat :=
  ⟨0, 0, none, [], [], 1, ⟨0, 0, none, Output.mkEmpty, 0, (Ctl.init, ()), []⟩, 0, (Ctl.init, ()), []⟩

/-- C116 is false for the extrapolator: with the event controller which solvers have by default, the reference solver
ends its steps at the event, and the event at time `1/3` of the solution `x = t` is reported for time `1/4`. Without
that controller it is reported for time `1/3`. -/
theorem C116_false :
    (∃ s', thirdStart.attempt (thirdEx none) = .ok (.accepted s') ∧ s'.t = 1 / 3 ∧ s'.x = 1 / 3) ∧
    (∃ s', thirdStart.attempt (thirdEx (some (controller third))) = .ok (.accepted s') ∧ s'.t = 1 / 4 ∧ s'.x = 1 / 3) := by
  have key : ∀ c t, (match thirdStart.attempt (thirdEx c) with
      | .ok (.accepted s) => decide (s.t = t ∧ s.x = 1 / 3)
      | _ => false) = true → ∃ s', thirdStart.attempt (thirdEx c) = .ok (.accepted s') ∧ s'.t = t ∧ s'.x = 1 / 3 := by
    intro c t h
    split at h
    · next s hs => exact ⟨s, hs, of_decide_eq_true h⟩
    · cases h
  exact ⟨key _ _ (by decide +kernel), key _ _ (by decide +kernel)⟩

end Verif.Event
