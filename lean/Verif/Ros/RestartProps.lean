import Verif.Ros.StepProps

/-! # C91: starting the Rosenbrock solvers anew -/

namespace Verif.Ros

open Verif.Res Verif.Alg Verif.Implicit Verif.Vec Verif.Sparse

set_option linter.unusedSectionVars false

section
variable {K : Type} [Field K] [DecidableEq K]

/-- Multiplication does not read its destination. -/
theorem mulVectRight_dst {size : Index} {es : List (Index × K)} {vs vd vd' : List K} (h : vd.length = size.1)
    (h' : vd'.length = size.1) : Mat.mulVectRight size es vs vd = Mat.mulVectRight size es vs vd' := by
  unfold Mat.mulVectRight
  rw [← h, List.drop_length, h, ← h', List.drop_length, h']

/-- `linSolve` does not read the buffer. -/
theorem linSolve_buf {b : Base K} {v : List K} (hb : b.buf.length = b.n2 + b.n1) (h : v.length = b.n2 + b.n1)
    (x : List K) (hd : K) :
    ({ b with buf := v } : Base K).linSolve x hd = b.linSolve x hd := by
  have h1 : ({ b with buf := v } : Base K).mulJ2 x = b.mulJ2 x := mulVectRight_dst h hb
  unfold Base.linSolve
  rw [h1]
  rfl

/-- `buildJacobian` uses nothing but the sizes, and leaves nothing but the sizes and the buffer. -/
theorem buildJacobian_congr {b b' : Base K} (h : b'.n = b.n) (h2 : b'.n2 = b.n2) (h1 : b'.n1 = b.n1)
    (rhs : List K → Res (List K)) (dx : K) (x0 f0 : List K) :
    b'.buildJacobian rhs dx x0 f0 = (do
      let c ← b.buildJacobian rhs dx x0 f0
      .ok { c with buf := b'.buf }) := by
  have hJ : ∀ i j, b'.makeJ rhs dx x0 f0 i j = b.makeJ rhs dx x0 f0 i j := by
    intro i j
    unfold Base.makeJ Base.makeCol
    rw [h, h2, h1]
  unfold Base.buildJacobian
  rw [hJ, hJ, h2, h1]
  cases b.makeJ rhs dx x0 f0 b.n2 (b.n2 + b.n1) with
  | error e => rfl
  | ok J1 =>
    cases b.makeJ rhs dx x0 f0 0 b.n2 with
    | error e => rfl
    | ok J2 =>
      simp only [bind_ok]
      rw [h]

theorem updateW_buf (b : Base K) (v : List K) (hd : K) :
    ({ b with buf := v } : Base K).updateW hd = (do
      let c ← b.updateW hd
      .ok { c with buf := v }) := by
  unfold Base.updateW
  dsimp only
  split
  · split
    · rfl
    · cases fastIdentity b.W.makeZero with
      | error e => rfl
      | ok W =>
        simp only [bind_ok]
        cases fastSub W (Scale.elems b.J1.data hd) with
        | error e => rfl
        | ok W =>
          simp only [bind_ok]
          cases fastSub W (Scale.elems b.J2.data (hd * hd)) with
          | error e => rfl
          | ok W =>
            simp only [bind_ok]
            cases LU.setMatrix LU.Fact.empty W.data <;> rfl
  · rfl

theorem updateW_keeps {b b' : Base K} {hd : K} (h : b.updateW hd = .ok b') :
    b'.buf = b.buf ∧ b'.n2 = b.n2 ∧ b'.n1 = b.n1 := by
  unfold Base.updateW at h
  split at h
  · split at h
    · cases h
      exact ⟨rfl, rfl, rfl⟩
    · obtain ⟨_, -, h⟩ := bind_inv h
      obtain ⟨_, -, h⟩ := bind_inv h
      obtain ⟨_, -, h⟩ := bind_inv h
      obtain ⟨_, -, h⟩ := bind_inv h
      cases h
      exact ⟨rfl, rfl, rfl⟩
  · cases h
    exact ⟨rfl, rfl, rfl⟩

theorem buildJacobian_keeps {b b' : Base K} {rhs : List K → Res (List K)} {dx : K} {x0 f0 : List K}
    (h : b.buildJacobian rhs dx x0 f0 = .ok b') : b'.buf = b.buf ∧ b'.n2 = b.n2 ∧ b'.n1 = b.n1 := by
  unfold Base.buildJacobian at h
  obtain ⟨_, -, h⟩ := bind_inv h
  obtain ⟨_, -, h⟩ := bind_inv h
  cases h
  exact ⟨rfl, rfl, rfl⟩

/-- After a hard `initStep` two bases are the same, up to the contents of the buffer. -/
theorem initStep_forget (b b' : Base K) (r : Rhs K) (dx t : K) (x0 f0 : List K) (hd : K) :
    (∃ e, b.initStep r dx true t x0 f0 hd = .error e ∧ b'.initStep r dx true t x0 f0 hd = .error e) ∨
    ∃ c v, b.initStep r dx true t x0 f0 hd = .ok c ∧ c.buf.length = c.n2 + c.n1 ∧ v.length = c.n2 + c.n1 ∧
      b'.initStep r dx true t x0 f0 hd = .ok { c with buf := v } := by
  unfold Base.initStep
  simp only [if_true]
  rw [buildJacobian_congr (b := { b with n := r.varCount, n2 := r.n2, n1 := r.n1, buf := Vec.resize b.buf (r.n2 + r.n1) })
    (b' := { b' with n := r.varCount, n2 := r.n2, n1 := r.n1, buf := Vec.resize b'.buf (r.n2 + r.n1) }) rfl rfl rfl]
  cases hc : ({ b with n := r.varCount, n2 := r.n2, n1 := r.n1, buf := Vec.resize b.buf (r.n2 + r.n1) } :
      Base K).buildJacobian (r.rhs t) dx x0 f0 with
  | error e => exact Or.inl ⟨e, rfl, rfl⟩
  | ok c =>
    obtain ⟨k1, k2, k3⟩ := buildJacobian_keeps hc
    dsimp only at k1 k2 k3
    simp only [bind_ok]
    have hw := updateW_buf c (Vec.resize b'.buf (r.n2 + r.n1)) hd
    cases hu : c.updateW hd with
    | error e =>
      rw [hu] at hw
      exact Or.inl ⟨e, rfl, hw⟩
    | ok c' =>
      rw [hu] at hw
      obtain ⟨u1, u2, u3⟩ := updateW_keeps hu
      exact Or.inr ⟨c', _, rfl, by rw [u1, u2, u3, k1, k2, k3, resize_length], by rw [u2, u3, k2, k3, resize_length], hw⟩

end

section
variable {K E : Type} [Field K] [LinearOrder K]

/-- C91 for W1: after `setInitialStepSize` and `setInitialState`, the next step does not depend on what the solver did
before, except by the state of the event controller. (The same log of observer calls is assumed, so that the whole
results can be compared.) Missing: the event controller, for which it is false (`C91_W1_false`). -/
theorem C91_W1_partial {M : Method K E} {s s' : St K E} (he : s.ec = s'.ec) (hl : s.log = s'.log) (h t : K)
    (x : List K) :
    ((s.setInitialStepSize h).setInitialState1 t x false).doStep1 M =
      ((s'.setInitialStepSize h).setInitialState1 t x false).doStep1 M := by
  have hs : s.setInitialStepSize h = { s with h := h } := rfl
  unfold St.setInitialStepSize St.setInitialState1 St.doStep1 St.initStep1
  dsimp only
  simp only [Bool.false_eq_true, if_false, List.isEmpty_nil, if_true]
  rw [← he, ← hl]
  cases hf : (M.rhs s.ec).rhs t x with
  | error e => rfl
  | ok f0 =>
    simp only [bind_ok]
    rcases initStep_forget s.base s'.base (M.rhs s.ec) M.dx t x f0 (h * M.d) with ⟨e, e1, e2⟩ | ⟨c, v, e1, e0, e2, e3⟩
    · rw [e1, e2]
    · rw [e1, e3]
      simp only [bind_ok]
      unfold Method.start
      rw [linSolve_buf e0 e2]

/-- What an accepted attempt leaves: the right-hand side kept for the next step is that at the new state. The event controller
may change the phase state only when it truncates the step. -/
theorem accepted_f0 {M : Method K E}
    (hfin : ∀ e x1 x2 t2 q, M.finish e x1 x2 t2 = .ok q → q.2.2.2.truncated = false →
      q.2.1 = x2 ∧ q.2.2.1 = t2 ∧ M.rhs q.1 = M.rhs e)
    {s s' : St K E} (h : s.attempt M = .ok (.accepted s')) : (M.rhs s'.ec).rhs s'.t s'.x = .ok s'.f0 := by
  unfold St.attempt at h
  obtain ⟨e, -, h⟩ := bind_inv h
  obtain ⟨g, hg, h⟩ := bind_inv h
  obtain ⟨g', hg', h⟩ := bind_inv h
  dsimp only at h
  obtain ⟨p, hp, h⟩ := bind_inv h
  have hn : (M.rhs e).rhs (s.t + s.h) g'.next = .ok g'.nextRhs := by
    have e1 : g'.next = g.next ∧ g'.nextRhs = g.nextRhs := by
      unfold St.errorStages at hg'
      split at hg'
      · cases hg'
        exact ⟨rfl, rfl⟩
      · iterate 12 obtain ⟨_, -, hg'⟩ := bind_inv hg'
        cases hg'
        exact ⟨rfl, rfl⟩
    rw [e1.1, e1.2]
    unfold St.stages at hg
    iterate 8 obtain ⟨_, -, hg⟩ := bind_inv hg
    obtain ⟨f, hf, hg⟩ := bind_inv hg
    cases hg
    exact hf
  have key : ∀ r : St K E × RK.Trunc, p = r → (M.rhs p.1.ec).rhs p.1.t p.1.x = .ok p.1.f0 →
      ∀ (b : Bool) (h' : K) (l : List (RK.Obs K)),
      (M.rhs ({ (if b = true then { p.1 with h := h' } else p.1) with log := l } : St K E).ec).rhs
        ({ (if b = true then { p.1 with h := h' } else p.1) with log := l } : St K E).t
        ({ (if b = true then { p.1 with h := h' } else p.1) with log := l } : St K E).x =
      .ok ({ (if b = true then { p.1 with h := h' } else p.1) with log := l } : St K E).f0 := by
    intro r _ h0 b h' l
    cases b <;> exact h0
  generalize (if M.disableErrorCheck = true then (⟨s.h, true, false⟩ : RK.CtlResult K)
    else M.control s.h g'.err 2) = res at h hp
  split at h
  · cases h
  · split at h
    · rename_i hacc
      rw [if_pos hacc] at hp
      obtain ⟨q, hq, hp⟩ := bind_inv hp
      obtain ⟨f0, hf0, hp⟩ := bind_inv hp
      have h0 : (M.rhs p.1.ec).rhs p.1.t p.1.x = .ok p.1.f0 := by
        cases hp
        dsimp only
        split at hf0
        · exact hf0
        · rename_i ht
          obtain ⟨a1, a2, a3⟩ := hfin _ _ _ _ _ hq (by simpa using ht)
          cases hf0
          rw [a1, a2, a3]
          exact hn
      have := key p rfl h0
      cases h
      exact this _ _ _
    · cases h

/-- C91, soft restarts of SW2(4): after a step, setting the state the solver has changes nothing: the run goes on as if it had not
been set. -/
theorem C91_SW_soft {M : Method K E}
    (hfin : ∀ e x1 x2 t2 q, M.finish e x1 x2 t2 = .ok q → q.2.2.2.truncated = false →
      q.2.1 = x2 ∧ q.2.2.1 = t2 ∧ M.rhs q.1 = M.rhs e)
    {s s' : St K E} {fuel : Nat} (h : s.doStep2 M fuel = some (.ok (.accepted s'))) :
    s'.setInitialState2 M s'.t s'.x true = .ok s' := by
  have key : ∀ (fuel : Nat) (b : Bool) (s : St K E), s.passes M fuel b = some (.ok (.accepted s')) →
      (M.rhs s'.ec).rhs s'.t s'.x = .ok s'.f0 := by
    intro fuel
    induction fuel with
    | zero => intro b s h; cases h
    | succ n ih =>
      intro b s h
      unfold St.passes at h
      dsimp only at h
      split at h
      · cases h
      · split at h
        · cases h
        · exact ih _ _ h
        · rename_i r hr hs
          cases h
          exact accepted_f0 hfin hs
  unfold St.setInitialState2
  rw [if_pos rfl, key fuel true s h]
  rfl

/-- C91, soft restarts of SW2(4) elsewhere: the solver is at the given state and has the derivative of the given
state at the given time, as a step needs. -/
theorem C91_SW_moved {M : Method K E} {s s' : St K E} {t : K} {x : List K}
    (h : s.setInitialState2 M t x true = .ok s') :
    s'.t = t ∧ s'.x = x ∧ (M.rhs s'.ec).rhs t x = .ok s'.f0 ∧ s'.h = s.h ∧ s'.ec = s.ec := by
  unfold St.setInitialState2 at h
  rw [if_pos rfl] at h
  cases hf : (M.rhs s.ec).rhs t x with
  | error e => rw [hf] at h; cases h
  | ok f0 => rw [hf] at h; cases h; exact ⟨rfl, rfl, hf, rfl, rfl⟩

/-- C91 for SW2(4) -/
theorem C91_SW_partial {M : Method K E} {s s' : St K E} (he : s.ec = s'.ec) (hl : s.log = s'.log) (h t : K)
    (x : List K) (fuel : Nat) :
    ∃ a b, (s.setInitialStepSize h).setInitialState2 M t x false = .ok a ∧
      (s'.setInitialStepSize h).setInitialState2 M t x false = .ok b ∧ a.doStep2 M fuel = b.doStep2 M fuel := by
  unfold St.setInitialStepSize St.setInitialState2
  simp only [Bool.false_eq_true, if_false]
  refine ⟨_, _, rfl, rfl, ?_⟩
  cases fuel with
  | zero => rfl
  | succ fuel =>
    unfold St.doStep2 St.passes St.initStep2
    dsimp only
    simp only [List.isEmpty_nil, if_true]
    rw [← he, ← hl]
    cases hf : (M.rhs s.ec).rhs t x with
    | error e => rfl
    | ok f0 =>
      simp only [bind_ok]
      rcases initStep_forget s.base s'.base (M.rhs s.ec) M.dx t x f0 (h * M.d) with ⟨e, e1, e2⟩ | ⟨c, v, e1, e0, e2, e3⟩
      · rw [e1, e2]
      · rw [e1, e3]
        simp only [bind_ok]
        have hst : ∀ e : E, St.stages M ⟨{ c with buf := v }, t, x, h, f0, List.replicate (M.rhs s.ec).varCount 0, e,
            .pre (some h) :: s.log⟩ = St.stages M ⟨c, t, x, h, f0, List.replicate (M.rhs s.ec).varCount 0, e,
            .pre (some h) :: s.log⟩ := by
          intro e
          unfold St.stages
          dsimp only
          rw [linSolve_buf e0 e2]
        have hat : St.attempt M ⟨{ c with buf := v }, t, x, h, f0, List.replicate (M.rhs s.ec).varCount 0, s.ec,
            .pre (some h) :: s.log⟩ = St.attempt M ⟨c, t, x, h, f0, List.replicate (M.rhs s.ec).varCount 0, s.ec,
            .pre (some h) :: s.log⟩ := by
          unfold St.attempt Method.start St.errorStages
          simp only [hst]
        rw [hat]

end

/-- `x' = 0` before the first event, `x' = 1` after it; the event is at the end of the first step. -/
def switching : Method ℚ Bool where
  rhs e := ⟨0, 1, fun _ _ => .ok [if e then 1 else 0]⟩
  dx := 1
  d := 1
  ec := some ⟨fun _ => false, fun e _ _ => .ok e, fun _ _ x2 t2 => .ok (true, x2, t2, RK.Trunc.none)⟩
  disableErrorCheck := true
  hMin := 0
  norm v := |v.getD 0 0|
  control h _ _ := ⟨h, true, false⟩

/-- A new solver with initial state 0 and step 1 -/
def switchingStart : St ℚ Bool := ⟨Base.new, 0, [0], 1, [], [], false, []⟩

/-- C91 is false for W1: a step from the initial state 0 at time 0 leads to 0; after `setInitialState` back to this
state, the same step leads to 1, since `setInitialState` does not reset the event controller, although the event
controller offers it. -/
theorem C91_W1_false : ∃ s1 s2 : St ℚ Bool, switchingStart.doStep1 switching = .ok s1 ∧ s1.x = [0] ∧
    ((s1.setInitialStepSize 1).setInitialState1 0 [0] false).doStep1 switching = .ok s2 ∧ s2.x = [1] := by
  obtain ⟨s1, h1, h2⟩ := Res.exists_of_test (r := switchingStart.doStep1 switching) (p := fun s1 => decide (s1.x = [0]) &&
    match ((s1.setInitialStepSize 1).setInitialState1 0 [0] false).doStep1 switching with
    | .ok s2 => decide (s2.x = [1]) | .error _ => false) (by decide +kernel)
  rw [Bool.and_eq_true] at h2
  obtain ⟨a, b⟩ := h2
  split at b
  · exact ⟨s1, _, h1, of_decide_eq_true a, by assumption, of_decide_eq_true b⟩
  · cases b

/-- C91 is false for SW2(4) for the same reason. -/
theorem C91_SW_false : ∃ s1 s2 s3 : St ℚ Bool, switchingStart.doStep2 switching 1 = some (.ok (.accepted s1)) ∧
    s1.x = [0] ∧ (s1.setInitialStepSize 1).setInitialState2 switching 0 [0] false = .ok s2 ∧
    s2.doStep2 switching 1 = some (.ok (.accepted s3)) ∧ s3.x = [1] := by
  have h : (match switchingStart.doStep2 switching 1 with
    | some (.ok (.accepted s1)) => decide (s1.x = [0]) &&
      match ({ s1 with h := 1, t := 0, x := [0], k1 := [] } : St ℚ Bool).doStep2 switching 1 with
      | some (.ok (.accepted s3)) => decide (s3.x = [1])
      | _ => false
    | _ => false) = true := by decide +kernel
  split at h
  · rename_i s1 h1
    rw [Bool.and_eq_true] at h
    obtain ⟨a, b⟩ := h
    split at b
    · exact ⟨s1, _, _, h1, of_decide_eq_true a, rfl, by assumption, of_decide_eq_true b⟩
    · cases b
  · cases h

/-- The hypotheses of `C91_SW_soft` are met by a step accepted after a rejected attempt. -/
example : ∃ s', (decayStart 1).doStep2 decay 2 = some (.ok (.accepted s')) ∧
    s'.setInitialState2 decay s'.t s'.x true = .ok s' := by
  obtain ⟨-, s', -, h, -⟩ := C40_false
  refine ⟨s', h, C91_SW_soft ?_ h⟩
  intro e x1 x2 t2 q hq _
  cases hq
  exact ⟨rfl, rfl, rfl⟩

end Verif.Ros
