import Verif.RK.Solver
import Verif.Loop
import Mathlib.Tactic.Set

/-! # One pass of the adaptive solver, whatever the arithmetic -/

set_option linter.unusedSectionVars false
set_option linter.unusedSimpArgs false

namespace Verif.RK

open Verif.Res

variable {K V E : Type} [Zero K] [Add K] [Mul K] [NatCast K] [DecidableEq K] [LT K] [DecidableLT K] [LE K]
  [DecidableLE K] [Zero V] [Add V] [Sub V] [SMul K V]

/-- The controller's verdict on an attempt with outputs `hi`, `lo`. -/
def EmbMethod.verdict (m : EmbMethod K V E) (h : K) (hi lo : V) : CtlResult K :=
  if m.disableErrorCheck then ⟨h, true, false⟩
  else m.control h (m.norm (hi - lo)) m.lowOrder

/-- The step size an attempt from `s` uses: that of the run, or the configured one when the run
has not begun. -/
def FixedSt.stepInUse (s : FixedSt K V E) : Option K :=
  if s.out.k.isEmpty then some s.hInit else s.h

/-- State at the end of an attempt. -/
def Attempt.state {S : Type} : Attempt S → S
  | .accepted s => s
  | .rejected s => s
  | .thrown _ s => s

/-- The new step size, if changed. -/
def CtlResult.step (r : CtlResult K) (h : K) : K := if r.changeStepSize then r.newStepSize else h

/-- What an attempt does, whatever the event controller, the norm and the controller are. -/
theorem attempt_outcome {m : EmbMethod K V E} {s : FixedSt K V E} {A : Attempt (FixedSt K V E)}
    (hA : s.attempt m = .ok A) :
    ∃ h hi lo o', s.stepInUse = some h ∧
      compute (s.initStep2 m).out m.co m.rhs s.x s.t h = .ok o' ∧
      o'.x2[0]? = some hi ∧ o'.x2[1]? = some lo ∧ A.state.out.k = o'.k ∧
      A.state.out.x2.length = o'.x2.length ∧ A.state.hInit = s.hInit ∧
      ((m.verdict h hi lo).acceptStep = false → A.state.t = s.t ∧ A.state.x = s.x) ∧
      ∃ e tr, RK.ecStart m.toMethod s.ec s.x s.t = .ok e ∧
      ((m.verdict h hi lo).acceptStep = false → A.state.ec = e) ∧
      ((m.verdict h hi lo).acceptStep = true →
        RK.ecEnd m.toMethod e s.x (if m.lowMode then lo else hi) (s.t + h)
          = .ok (A.state.ec, A.state.x, A.state.t, tr)) ∧
      (A.state.h = some ((m.verdict h hi lo).step h) ∨ (tr.truncated = true ∧
        0 < m.hAfterSwitch ∧ m.hAfterSwitch < (m.verdict h hi lo).step h ∧
        A.state.h = some m.hAfterSwitch)) ∧
      ((m.verdict h hi lo).acceptStep = false → tr = Trunc.none) ∧
      (match A with
      | .rejected _ => (m.verdict h hi lo).acceptStep = false
      | .accepted _ => (m.verdict h hi lo).acceptStep = true
      | .thrown _ s' => s'.h = some (m.verdict h hi lo).newStepSize) ∧
      (match A with
      | .thrown msg s' => (m.verdict h hi lo).changeStepSize = true ∧
          (m.verdict h hi lo).newStepSize ≤ m.hMin ∧ s'.log = .pre s.h :: s.log ∧
          msg = "Step size has decreased to the minimum or below"
      | _ => ((m.verdict h hi lo).changeStepSize = true →
            ¬ (m.verdict h hi lo).newStepSize ≤ m.hMin) ∧
          A.state.log = .post h (m.verdict h hi lo).acceptStep (m.verdict h hi lo).changeStepSize
            tr (if !m.disableErrorCheck || m.forceErrorCalc then m.norm (hi - lo) else 0)
            :: .pre s.h :: s.log) := by
  unfold FixedSt.attempt at hA
  obtain ⟨si, hsi⟩ : ∃ si, FixedSt.initStep2 m { s with log := .pre s.h :: s.log } = si := ⟨_, rfl⟩
  have hi : si.t = s.t ∧ si.x = s.x ∧ si.hInit = s.hInit ∧ si.h = s.stepInUse ∧
      si.out = (s.initStep2 m).out ∧ si.ec = s.ec ∧ si.log = .pre s.h :: s.log := by
    unfold FixedSt.initStep2 at hsi ⊢
    unfold FixedSt.stepInUse
    simp only at hsi
    split at hsi <;> subst hsi <;> simp_all
  obtain ⟨i1, i2, i3, i4, i5, i6, i7⟩ := hi
  simp only [hsi] at hA
  cases he : RK.ecStart m.toMethod si.ec si.x si.t with
  | error _ => rw [he] at hA; cases hA
  | ok e =>
  rw [he] at hA
  simp only [bind_ok] at hA
  cases hh : si.h with
  | none => rw [hh] at hA; cases hA
  | some h =>
  rw [hh] at hA
  simp only [readH, bind_ok] at hA
  cases hc : compute si.out m.co m.rhs si.x si.t h with
  | error _ => rw [hc] at hA; cases hA
  | ok o' =>
  rw [hc] at hA
  simp only [bind_ok] at hA
  cases h0 : raw o'.x2 0 with
  | error _ => rw [h0] at hA; cases hA
  | ok hi =>
  rw [h0] at hA
  simp only [bind_ok] at hA
  cases h1 : raw o'.x2 1 with
  | error _ => rw [h1] at hA; cases hA
  | ok lo =>
  rw [h1] at hA
  simp only [bind_ok] at hA
  rw [raw_eq_ok_iff] at h0 h1
  have hv : (if m.disableErrorCheck = true then (⟨h, true, false⟩ : CtlResult K)
      else m.control h (if (!m.disableErrorCheck || m.forceErrorCalc) = true
        then m.norm (hi - lo) else 0) m.lowOrder) = m.verdict h hi lo := by
    unfold EmbMethod.verdict
    cases m.disableErrorCheck <;> simp
  rw [hv] at hA
  rw [i1, i2, i5] at hc
  refine ⟨h, hi, lo, o', by rw [← i4, hh], hc, h0, h1, ?_⟩
  generalize m.verdict h hi lo = r at hA ⊢
  obtain ⟨hn, ac, ch⟩ := r
  simp only at hA ⊢
  set err : K := if (!m.disableErrorCheck || m.forceErrorCalc) = true then m.norm (hi - lo) else 0
    with herr
  obtain ⟨o2, ho2⟩ : ∃ o2 : Output V, (if (!m.disableErrorCheck || m.forceErrorCalc) = true then
    { o' with buf := hi - lo } else o') = o2 := ⟨_, rfl⟩
  have o2k : o2.k = o'.k := by rw [← ho2]; split <;> rfl
  have o2x : o2.x2 = o'.x2 := by rw [← ho2]; split <;> rfl
  simp only [ho2] at hA
  cases ac with
  | false =>
    simp only [Bool.false_eq_true, if_false, bind_ok] at hA
    cases ch with
    | false =>
      simp only [Bool.false_eq_true, if_false, bind_ok, Bool.false_and, readH, hh,
        Trunc.none] at hA
      cases hA
      refine ⟨o2k, by simp [Attempt.state, o2x], i3, fun _ => ⟨i1, i2⟩, e, Trunc.none, by rw [← i6, ← i2, ← i1]; exact he, fun _ => rfl, by simp,
        .inl ?_, fun _ => rfl, rfl, by simp, ?_⟩
      · simp [Attempt.state, CtlResult.step, hh]
      · simp [Attempt.state, i7, Trunc.none]
    | true =>
      simp only [if_true, Bool.true_and, decide_eq_true_eq] at hA
      split at hA
      · rename_i hle
        cases hA
        exact ⟨o2k, by simp [Attempt.state, o2x], i3, fun _ => ⟨i1, i2⟩, e, Trunc.none, by rw [← i6, ← i2, ← i1]; exact he, fun _ => rfl, by simp,
          .inl rfl, fun _ => rfl, rfl, rfl, hle, i7, rfl⟩
      · rename_i hle
        simp only [Trunc.none, Bool.false_and, Bool.false_eq_true, if_false, readH, bind_ok] at hA
        cases hA
        exact ⟨o2k, by simp [Attempt.state, o2x], i3, fun _ => ⟨i1, i2⟩, e, Trunc.none, by rw [← i6, ← i2, ← i1]; exact he, fun _ => rfl, by simp,
          .inl rfl, fun _ => rfl, rfl, fun _ => hle, by
            simp [Attempt.state, i7, Trunc.none]⟩
  | true =>
    simp only [if_true] at hA
    cases hr : raw o2.x2 m.modeIndex with
    | error _ => rw [hr] at hA; cases hA
    | ok nx =>
    have hnx : nx = if m.lowMode = true then lo else hi := by
      rw [raw_eq_ok_iff, o2x] at hr
      unfold EmbMethod.modeIndex at hr
      cases hl : m.lowMode with
      | true => simp only [hl, if_true] at hr ⊢; rw [h1] at hr; exact (Option.some.inj hr).symm
      | false =>
        simp only [hl, Bool.false_eq_true, if_false] at hr ⊢
        rw [h0] at hr; exact (Option.some.inj hr).symm
    rw [hr] at hA
    simp only [bind_ok] at hA
    cases hn : RK.ecEnd m.toMethod e si.x nx (si.t + h) with
    | error _ => rw [hn] at hA; cases hA
    | ok q =>
    obtain ⟨e', nx', nt', tr⟩ := q
    rw [hn] at hA
    simp only [bind_ok] at hA
    cases hw : rawSet o2.x2 m.modeIndex si.x with
    | error _ => rw [hw] at hA; cases hA
    | ok x2 =>
    have hx2 : x2.length = o'.x2.length := by
      unfold rawSet at hw
      split at hw
      · cases hw; rw [List.length_set, o2x]
      · cases hw
    rw [hw] at hA
    simp only [bind_ok] at hA
    rw [hnx, i1, i2] at hn
    cases ch with
    | false =>
      simp only [Bool.false_eq_true, if_false, bind_ok, Bool.false_and, readH, hh] at hA
      cases htr : tr.truncated with
      | false =>
        simp only [htr, Bool.false_and, Bool.false_eq_true, if_false] at hA
        cases hA
        exact ⟨o2k, hx2, i3, by simp, e, tr, by rw [← i6, ← i2, ← i1]; exact he, by simp, fun _ => hn,
          .inl (by simp [Attempt.state, CtlResult.step, hh]), by simp, rfl, by simp,
          by simp [Attempt.state, i7]⟩
      | true =>
        simp only [htr, Bool.true_and] at hA
        split at hA
        · rename_i hsw
          rw [Bool.and_eq_true, decide_eq_true_eq, decide_eq_true_eq] at hsw
          cases hA
          exact ⟨o2k, hx2, i3, by simp, e, tr, by rw [← i6, ← i2, ← i1]; exact he, by simp, fun _ => hn,
            .inr ⟨htr, hsw.1, by simpa [CtlResult.step] using hsw.2, rfl⟩, by simp, rfl,
            by simp, by simp [Attempt.state, i7]⟩
        · cases hA
          exact ⟨o2k, hx2, i3, by simp, e, tr, by rw [← i6, ← i2, ← i1]; exact he, by simp, fun _ => hn,
            .inl (by simp [Attempt.state, CtlResult.step, hh]), by simp, rfl,
            by simp, by simp [Attempt.state, i7]⟩
    | true =>
      simp only [if_true, Bool.true_and, decide_eq_true_eq] at hA
      split at hA
      · rename_i hle
        cases hA
        exact ⟨o2k, hx2, i3, by simp, e, tr, by rw [← i6, ← i2, ← i1]; exact he, by simp, fun _ => hn,
          .inl rfl, by simp, rfl, rfl, hle, i7, rfl⟩
      · rename_i hle
        simp only [readH, bind_ok] at hA
        cases htr : tr.truncated with
        | false =>
          simp only [htr, Bool.false_and, Bool.false_eq_true, if_false] at hA
          cases hA
          exact ⟨o2k, hx2, i3, by simp, e, tr, by rw [← i6, ← i2, ← i1]; exact he, by simp, fun _ => hn,
            .inl (by simp [Attempt.state, CtlResult.step]), by simp, rfl,
            fun _ => hle, by simp [Attempt.state, i7]⟩
        | true =>
          simp only [htr, Bool.true_and] at hA
          split at hA
          · rename_i hsw
            rw [Bool.and_eq_true, decide_eq_true_eq, decide_eq_true_eq] at hsw
            cases hA
            exact ⟨o2k, hx2, i3, by simp, e, tr, by rw [← i6, ← i2, ← i1]; exact he, by simp, fun _ => hn,
              .inr ⟨htr, hsw.1, by simpa [CtlResult.step] using hsw.2, rfl⟩, by simp, rfl,
              fun _ => hle, by simp [Attempt.state, i7]⟩
          · cases hA
            exact ⟨o2k, hx2, i3, by simp, e, tr, by rw [← i6, ← i2, ← i1]; exact he, by simp, fun _ => hn,
              .inl (by simp [Attempt.state, CtlResult.step]), by simp, rfl,
              fun _ => hle, by simp [Attempt.state, i7]⟩

end Verif.RK
