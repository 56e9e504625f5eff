import Verif.RK.AdaptiveProps
import Verif.Ros.OrderProps
import Verif.Event.Props

/-! # C128: a solver that is given another right-hand side in the middle of a run -/

namespace Verif.Driver

open Verif.Res

/-! ### Explicit solvers -/

section
open RK
variable {R V E : Type} [Field R] [DecidableEq R] [AddCommGroup V] [Module R V]

/-- Calls of a solver: those of `RK.Call`, and `setOdeRhs` (interfaces/OdeRhs.h:85) -/
inductive RCall (R V : Type) where
  | call (c : RK.Call R V)
  | setOdeRhs (f : R → V → V)

/-- Effect of a call. Of the parts of an explicit solver only the event controller is told about a new right-hand
side (interfaces/OdeSolverEventController.h:26-31), and it keeps its state. -/
def call (m : Method R V E) (s : FixedSt R V E) : RCall R V → Res (Method R V E × FixedSt R V E)
  | .call c => do
    let s ← s.call m c
    .ok (m, s)
  | .setOdeRhs f => .ok ({ m with rhs := f }, s)

/-- Effect of a sequence of calls -/
def calls (m : Method R V E) (s : FixedSt R V E) : List (RCall R V) → Res (Method R V E × FixedSt R V E)
  | [] => .ok (m, s)
  | c :: cs => do
    let p ← call m s c
    calls p.1 p.2 cs

/-- What is to be seen from outside: every step is one step of the method with the right-hand side set last. -/
def seen (T : Tableau R) (p : (R → V → V) × View R V) : RCall R V → (R → V → V) × View R V
  | .call c => (p.1, p.2.call (fun t h x => T.output p.1 t h x 0) c)
  | .setOdeRhs f => (f, p.2)

/-- C128, solvers with fixed steps: in every history of calls every step is a step with the right-hand side set
last, from the time and state the solver has. -/
theorem C128_fixed (T : Tableau R) (m : Method R V E) (hs : 1 ≤ T.s) (h0 : T.c 0 = 0)
    (hco : m.co = T.pack 1 (-1)) (I : E → Prop) (hq : Quiet m.ec I) (t : R) (x : V)
    (h : Option R) (hInit : R) (e : E) (hI : I e) (cs : List (RCall R V)) :
    ∃ m' s, calls m (⟨t, x, h, Output.mkEmpty, hInit, e, []⟩ : FixedSt R V E) cs = .ok (m', s) ∧
      let v := cs.foldl (seen T) (m.rhs, ⟨t, x, hInit, none, []⟩)
      m'.rhs = v.1 ∧ s.t = v.2.t ∧ s.x = v.2.x ∧ reported s.log = some v.2.steps := by
  have gen : ∀ (cs : List (RCall R V)) (m : Method R V E) (s : FixedSt R V E) (v : View R V),
      m.co = T.pack 1 (-1) → Quiet m.ec I → Shows T I s v →
      ∃ m' s', calls m s cs = .ok (m', s') ∧ m'.rhs = (cs.foldl (seen T) (m.rhs, v)).1 ∧
        Shows T I s' (cs.foldl (seen T) (m.rhs, v)).2 := by
    intro cs
    induction cs with
    | nil => intro m s v _ _ h; exact ⟨m, s, rfl, rfl, h⟩
    | cons c cs ih =>
      intro m s v hco hq hsv
      cases c with
      | call c =>
        obtain ⟨s', h1, h2⟩ := call_shows hs h0 hco hq hsv c
        obtain ⟨m'', s'', h3, h4⟩ := ih m s' _ hco hq h2
        refine ⟨m'', s'', ?_, h4⟩
        rw [calls, call, h1]
        exact h3
      | setOdeRhs f =>
        obtain ⟨m'', s'', h3, h4⟩ := ih { m with rhs := f } s v hco hq hsv
        exact ⟨m'', s'', h3, h4⟩
  obtain ⟨m', s, h1, h2, h3⟩ := gen cs m ⟨t, x, h, Output.mkEmpty, hInit, e, []⟩ ⟨t, x, hInit, none, []⟩ hco hq
    ⟨hI, rfl, rfl, rfl, fun _ => rfl, fun h hh => by simp at hh, rfl⟩
  exact ⟨m', s, h1, h2, h3.t, h3.x, h3.log⟩

end

section
open RK
variable {K V E : Type} [Field K] [LinearOrder K] [AddCommGroup V] [Module K V]

/-- C128, embedded methods: an accepted step after the change is a step of the method with the new right-hand
side, accepted by the new error, from the time and state the old one has led to. -/
theorem C128_embedded (m : EmbMethod K V E) (T : Tableau K) (hu : Uses m T) (g : K → V → V) (I : E → Prop)
    (hq : Quiet m.ec I) {fuel fuel' : Nat} {s s1 s2 : FixedSt K V E} (hI : I s.ec) (hr : Ready T s)
    (h1 : s.doStepEmb m fuel = some (.ok (.accepted s1)))
    (h2 : s1.doStepEmb { m with rhs := g } fuel' = some (.ok (.accepted s2))) :
    ∃ h, (({ m with rhs := g } : EmbMethod K V E).judge T s1.t s1.x h).acceptStep = true ∧ s2.t = s1.t + h ∧
      s2.x = T.output g s1.t h s1.x (if m.lowMode then 1 else 0) := by
  obtain ⟨h₀, h, -, -, hr1, -⟩ := C30_doStep m T hu fuel s hr _ h1
  obtain ⟨-, -, -, -, -, -, -, -, hI1⟩ := C30_quiet m T hu I hq fuel s s1 hI hr h1
  obtain ⟨h₀, h, a1, a2, a3, a4, a5, -⟩ := C30_quiet { m with rhs := g } T ⟨hu.pos, hu.c0, hu.co⟩ I hq fuel' s1 s2 hI1 hr1 h2
  exact ⟨h, a3, a4, a5⟩

end

/-- A case of C128: Euler steps of size 1 with `x' = x`, then with `x' = -3 x`. -/
example : ∃ m' s, calls (⟨⟨[], [1], [], -1⟩, fun _ x => x, none⟩ : RK.Method ℚ ℚ Unit)
    ⟨0, 1, none, RK.Output.mkEmpty, 1, (), []⟩ [.call .doStep, .setOdeRhs (fun _ x => -3 * x), .call .doStep] = .ok (m', s) ∧
      s.t = 2 ∧ s.x = -4 := by
  have key : (calls (⟨⟨[], [1], [], -1⟩, fun _ x => x, none⟩ : RK.Method ℚ ℚ Unit)
    ⟨0, 1, none, RK.Output.mkEmpty, 1, (), []⟩ [.call .doStep, .setOdeRhs (fun _ x => -3 * x), .call .doStep]).map
      (fun p => (p.2.t, p.2.x)) = .ok (2, -4) := by decide +kernel
  cases h : calls (⟨⟨[], [1], [], -1⟩, fun _ x => x, none⟩ : RK.Method ℚ ℚ Unit)
    ⟨0, 1, none, RK.Output.mkEmpty, 1, (), []⟩ [.call .doStep, .setOdeRhs (fun _ x => -3 * x), .call .doStep] with
  | error _ => rw [h] at key; cases key
  | ok p =>
    rw [h] at key
    have := Except.ok.inj key
    simp only [Prod.mk.injEq] at this
    exact ⟨p.1, p.2, rfl, this.1, this.2⟩

/-! ### Rosenbrock solvers -/

section
open Ros Implicit Filter Topology Asymptotics
variable {E : Type}

/-- Mid-run, a solver is as ready for the new right-hand side as it was for the old one: it goes on with the Jacobian
of the old one. -/
theorem Ready.replace {M : Ros.Method ℝ E} {n2 n1 : Nat} {f g} {s : Ros.St ℝ E} {b0 : Base ℝ} (hs : Ros.Ready M n2 n1 f s b0)
    (hk : s.k1 ≠ []) {r : E → Rhs ℝ} (hg : Computes (r s.ec) n2 n1 g) : Ros.Ready { M with rhs := r } n2 n1 g s b0 := by
  refine ⟨hs.size, hg, hs.dx, hs.d, hs.x, ?_, hs.fill⟩
  rcases hs.jac with h | h
  · exact absurd h.1 hk
  · exact .inr h

/-- C128, W1: in the middle of a run, the next step after the change is accurate to first order for the new
right-hand side, although the Jacobian is that of the old one. -/
theorem C128_w1 {M : Ros.Method ℝ E} {n2 n1 : Nat} {f g} {s : Ros.St ℝ E} {b0 : Base ℝ} (hs : Ros.Ready M n2 n1 f s b0)
    (hk : s.k1 ≠ []) (hec : M.ec = none) {r : E → Rhs ℝ} (hr : Computes (r s.ec) n2 n1 g)
    (hg : ContDiffAt ℝ 2 (fun p : ℝ × (Fin (2 * n2 + n1) → ℝ) => g p.1 p.2) (s.t, fn _ s.x))
    {y : ℝ → Fin (2 * n2 + n1) → ℝ} (h0 : y s.t = fn _ s.x) (hy : ∀ᶠ t in 𝓝 s.t, HasDerivAt y (g t (y t)) t) :
    ∃ X : ℝ → Fin (2 * n2 + n1) → ℝ,
      (∀ᶠ h in 𝓝[≠] (0 : ℝ), ∃ s', ({ s with h := h } : Ros.St ℝ E).doStep1 { M with rhs := r } = .ok s' ∧ s'.t = s.t + h ∧
        fn _ s'.x = X h) ∧
      (fun h => X h - y (s.t + h)) =O[𝓝[≠] 0] (fun h : ℝ => h ^ 2) :=
  C92_order (Ready.replace hs hk hr) hec hg h0 hy

/-- C128, SW2(4) (`_partial`: the initial state must be set again, softly; without that the claim is false, see
`C128_sw_false`): in the middle of a run, after the change and `setInitialState( t, x, true )` with the time and
state the solver has, the next step is accurate to second order for the new right-hand side. -/
theorem C128_sw_partial {M : Ros.Method ℝ E} {n2 n1 : Nat} {f g} {s : Ros.St ℝ E} {b0 : Base ℝ} (hs : Ros.Ready M n2 n1 f s b0)
    (hk : s.k1 ≠ []) (hec : M.ec = none) {r : E → Rhs ℝ} (hr : Computes (r s.ec) n2 n1 g)
    (hg : ContDiffAt ℝ 2 (fun p : ℝ × (Fin (2 * n2 + n1) → ℝ) => g p.1 p.2) (s.t, fn _ s.x))
    {y : ℝ → Fin (2 * n2 + n1) → ℝ} (h0 : y s.t = fn _ s.x) (hy : ∀ᶠ t in 𝓝 s.t, HasDerivAt y (g t (y t)) t) :
    ∃ s1, s.setInitialState2 { M with rhs := r } s.t s.x true = .ok s1 ∧ s1.t = s.t ∧ s1.x = s.x ∧
    ∃ X : ℝ → Fin (2 * n2 + n1) → ℝ,
      (∀ᶠ h in 𝓝[≠] (0 : ℝ),
        (M.disableErrorCheck = true →
          ∃ s', ({ s1 with h := h } : Ros.St ℝ E).doStep2 { M with rhs := r } 1 = some (.ok (.accepted s'))) ∧
        ∀ s', ({ s1 with h := h } : Ros.St ℝ E).doStep2 { M with rhs := r } 1 = some (.ok (.accepted s')) →
          s'.t = s.t + h ∧ fn _ s'.x = X h) ∧
      (fun h => X h - y (s.t + h)) =O[𝓝[≠] 0] (fun h : ℝ => h ^ 3) := by
  have hf0 := hr.2.2 s.t s.x hs.x
  refine ⟨{ s with f0 := List.ofFn (g s.t (fn _ s.x)) }, ?_, rfl, rfl, ?_⟩
  · unfold Ros.St.setInitialState2
    rw [if_pos rfl]
    simp only [hf0, bind_ok]
  · have hR := Ready.replace hs hk hr
    exact C41_order (s := { s with f0 := List.ofFn (g s.t (fn _ s.x)) })
      ⟨hR.size, hR.rhs, hR.dx, hR.d, hR.x, hR.jac, hR.fill⟩ (fun _ => rfl) hec hg h0 hy

end

section
open Ros

/-- `x' = c`, with fixed steps -/
def constant (c : ℚ) : Ros.Method ℚ Unit where
  rhs _ := ⟨0, 1, fun _ _ => .ok [c]⟩
  dx := 1
  d := 1
  ec := none
  disableErrorCheck := true
  hMin := 0
  norm v := |v.getD 0 0|
  control h _ _ := ⟨h, true, false⟩

/-- C128 is false for SW2(4): after a step with `x' = 1` the right-hand side becomes `x' = 0`, and the next step of
size 1 still moves the state, by 1/4; a solver started there does not move it. -/
theorem C128_sw_false : ∃ s1 s2 s3 : Ros.St ℚ Unit,
    (⟨Base.new, 0, [0], 1, [], [], (), []⟩ : Ros.St ℚ Unit).doStep2 (constant 1) 1 = some (.ok (.accepted s1)) ∧ s1.x = [1] ∧
    s1.doStep2 (constant 0) 1 = some (.ok (.accepted s2)) ∧ s2.x = [5 / 4] ∧
    (⟨Base.new, s1.t, s1.x, 1, [], [], (), []⟩ : Ros.St ℚ Unit).doStep2 (constant 0) 1 = some (.ok (.accepted s3)) ∧ s3.x = [1] := by
  have key : (match (⟨Base.new, 0, [0], 1, [], [], (), []⟩ : Ros.St ℚ Unit).doStep2 (constant 1) 1 with
      | some (.ok (.accepted s1)) => (match s1.doStep2 (constant 0) 1,
          (⟨Base.new, s1.t, s1.x, 1, [], [], (), []⟩ : Ros.St ℚ Unit).doStep2 (constant 0) 1 with
        | some (.ok (.accepted s2)), some (.ok (.accepted s3)) =>
          decide (s1.x = [1] ∧ s2.x = [5 / 4] ∧ s3.x = [1])
        | _, _ => false)
      | _ => false) = true := by decide +kernel
  split at key
  · rename_i s1 h1
    split at key
    · rename_i s2 s3 h2 h3
      obtain ⟨a, b, c⟩ := of_decide_eq_true key
      exact ⟨s1, s2, s3, h1, a, h2, b, h3, c⟩
    · cases key
  · cases key

end

/-! ### Event controller -/

section
open Event

/-- One event function, `x - a`, watched in both directions -/
def level (a : ℚ) : EvRhs ℚ ℚ Unit where
  zeroFuncCount _ := 1
  zeroFuncFlags _ := [3]
  zeroFunctions _ _ x := [x - a]
  switchPhaseState _ _ _ x := ((), x)
  truncateStep _ t x := (false, t, x)

/-- No event functions -/
def free : EvRhs ℚ ℚ Unit where
  zeroFuncCount _ := 0
  zeroFuncFlags _ := []
  zeroFunctions _ _ _ := []
  switchPhaseState _ _ _ x := ((), x)
  truncateStep _ t x := (false, t, x)

/-- A step of size 1 of a solver with an event controller: what the controller makes of the end point -/
def eventStep (r : EvRhs ℚ ℚ Unit) (e : Ctl ℚ) (t a b : ℚ) : Res (Ctl ℚ × ℚ × ℚ × Bool) := do
  let e ← e.atStepStart r () a t
  let p ← e.atStepEnd r () a b (t + 1)
  .ok (p.1.1, p.2.2.1, p.2.1, p.2.2.2.truncated)

/-- C128 is false for events: after a step from 2 to 3 with the event function `x`, the function becomes `x - 8`. In
the next step, from 3 to 2, it is negative all the time, but an event is reported and the step is cut. -/
theorem C128_event_false : ∃ e e' : Ctl ℚ, eventStep (level 0) Ctl.init 0 2 3 = .ok (e, 1, 3, false) ∧
    eventStep (level 8) e 1 3 2 = .ok (e', 1 + 1 / 3, 8 / 3, true) := by
  have key : ((eventStep (level 0) Ctl.init 0 2 3).bind (fun p => (eventStep (level 8) p.1 1 3 2).map
      (fun q => (p.2, q.2)))) = .ok ((1, 3, false), (1 + 1 / 3, 8 / 3, true)) := by decide +kernel
  cases h1 : eventStep (level 0) Ctl.init 0 2 3 with
  | error _ => rw [h1] at key; simp only [Except.bind, reduceCtorEq] at key
  | ok p =>
    rw [h1] at key
    simp only [Except.bind] at key
    cases h2 : eventStep (level 8) p.1 1 3 2 with
    | error _ => rw [h2] at key; simp only [Except.map, reduceCtorEq] at key
    | ok q =>
      rw [h2] at key
      have := Except.ok.inj key
      obtain ⟨e, p⟩ := p
      obtain ⟨e2, q⟩ := q
      simp only [Prod.mk.injEq] at this
      obtain ⟨a, b⟩ := this
      exact ⟨e, e2, by rw [a], by rw [← b]; exact h2⟩

/-- C128 is false for events: if there were no event functions before, the crossing of a new one is not seen. -/
theorem C128_event_missed_false : ∃ e e' : Ctl ℚ, eventStep free Ctl.init 0 2 3 = .ok (e, 1, 3, false) ∧
    eventStep (level 0) e 1 3 (-1) = .ok (e', 2, -1, false) ∧
    ∃ e'', eventStep (level 0) Ctl.init 1 3 (-1) = .ok (e'', 1 + 3 / 4, 0, true) := by
  have key : ((eventStep free Ctl.init 0 2 3).bind (fun p => (eventStep (level 0) p.1 1 3 (-1)).map
      (fun q => (p.2, q.2)))) = .ok ((1, 3, false), (2, -1, false)) := by decide +kernel
  have key2 : (eventStep (level 0) Ctl.init 1 3 (-1)).map (fun q => q.2) = .ok (1 + 3 / 4, 0, true) := by decide +kernel
  cases h1 : eventStep free Ctl.init 0 2 3 with
  | error _ => rw [h1] at key; simp only [Except.bind, reduceCtorEq] at key
  | ok p =>
    rw [h1] at key
    simp only [Except.bind] at key
    cases h2 : eventStep (level 0) p.1 1 3 (-1) with
    | error _ => rw [h2] at key; simp only [Except.map, reduceCtorEq] at key
    | ok q =>
      rw [h2] at key
      have := Except.ok.inj key
      obtain ⟨e, p⟩ := p
      obtain ⟨e2, q⟩ := q
      simp only [Prod.mk.injEq] at this
      obtain ⟨a, b⟩ := this
      cases h3 : eventStep (level 0) Ctl.init 1 3 (-1) with
      | error _ => rw [h3] at key2; simp only [Except.map, reduceCtorEq] at key2
      | ok q2 =>
        rw [h3] at key2
        have := Except.ok.inj key2
        exact ⟨e, e2, by rw [a], by rw [← b]; exact h2, q2.1, by rw [← this]⟩

variable {K V Q : Type} [Field K] [LinearOrder K] [AddCommGroup V] [Module K V]

/-- Two controllers that differ only in buffers -/
structure Alike (e e' : Ctl K) : Prop where
  haveZf : e.haveZf = e'.haveZf
  haveRec : e.haveRec = e'.haveRec
  zf1 : e.zf1 = e'.zf1
  flags : e.flags = e'.flags
  state : e.state = e'.state
  t1 : e.t1 = e'.t1
  recomputes : e.haveRec = e.flags.any (fun f => f &&& 4 != 0)

theorem updateOne_alike {e e' : Ctl K} (h : Alike e e') (hz : e.zf2 = e'.zf2) (hb : e.haveRec = true → e.zfbuf = e'.zfbuf)
    (tmin : K) (itmin : Nat) (cur : Int) : e.updateOne tmin itmin cur = e'.updateOne tmin itmin cur := by
  funext i s
  unfold Ctl.updateOne
  rw [← h.flags, ← hz]
  cases hf : raw e.flags i with
  | error _ => rfl
  | ok f =>
    simp only [bind_ok]
    by_cases h4 : (f &&& 4 != 0) = true
    · have : e.haveRec = true := by
        rw [h.recomputes, List.any_eq_true]
        refine ⟨f, ?_, h4⟩
        unfold raw at hf
        split at hf
        · cases hf
          apply List.mem_of_getElem?
          assumption
        · cases hf
      rw [hb this]
    · have h5 : (f &&& 4 != 0) = false := by simpa using h4
      simp only [h5, Bool.false_eq_true, if_false]

theorem atStepEnd_alike (r : EvRhs K V Q) (q : Q) {e e' : Ctl K} (h : Alike e e') (x1 x2 : V) (t2 : K) :
    (e.atStepEnd r q x1 x2 t2).map (fun v => (v.1.2, v.2)) = (e'.atStepEnd r q x1 x2 t2).map (fun v => (v.1.2, v.2)) := by
  obtain ⟨c, hz, hr, zf1, zf2, buf, fl, st, t1⟩ := e
  obtain ⟨c', hz', hr', zf1', zf2', buf', fl', st', t1'⟩ := e'
  obtain ⟨h1, h2, h3, h4, h5, h6, h7⟩ := h
  simp only at h1 h2 h3 h4 h5 h6 h7
  subst h1 h2 h3 h4 h5 h6
  unfold Ctl.atStepEnd
  cases hz with
  | false => rfl
  | true =>
    simp only [Bool.not_true, Bool.false_eq_true, if_false]
    have ec : (⟨c, true, hr, zf1, r.zeroFunctions q t2 x2, buf, fl, st, t1⟩ : Ctl K).crossed =
        (⟨c', true, hr, zf1, r.zeroFunctions q t2 x2, buf', fl, st, t1⟩ : Ctl K).crossed := rfl
    rw [ec]
    cases hc : (⟨c', true, hr, zf1, r.zeroFunctions q t2 x2, buf', fl, st, t1⟩ : Ctl K).crossed with
    | error _ => rfl
    | ok zfi =>
      simp only [bind_ok]
      by_cases hi : zfi.isEmpty = true
      · simp only [hi, if_true]
        rfl
      · simp only [hi, if_false, Bool.false_eq_true]
        have ee : (⟨c, true, hr, zf1, r.zeroFunctions q t2 x2, buf, fl, st, t1⟩ : Ctl K).earliest zfi =
            (⟨c', true, hr, zf1, r.zeroFunctions q t2 x2, buf', fl, st, t1⟩ : Ctl K).earliest zfi := rfl
        rw [ee]
        cases he : (⟨c', true, hr, zf1, r.zeroFunctions q t2 x2, buf', fl, st, t1⟩ : Ctl K).earliest zfi with
        | error _ => rfl
        | ok p =>
          obtain ⟨tmin, it⟩ := p
          simp only [bind_ok]
          cases it with
          | none => rfl
          | some i =>
            simp only
            cases at' (r.zeroFunctions q t2 x2) i with
            | error _ => rfl
            | ok z2 =>
              simp only [bind_ok]
              cases rawSet (List.replicate zf1.length (0 : Int)) i (sgn z2) with
              | error _ => rfl
              | ok tr =>
                obtain ⟨w, hw⟩ : ∃ w, r.switchPhaseState q tr (t1 + (t2 - t1) * tmin) (tmin • x2 + (1 - tmin) • x1) = w := ⟨_, rfl⟩
                obtain ⟨w1, w2⟩ := w
                simp only [bind_ok, hw]
                unfold Ctl.afterSwitch
                simp only
                have eu := updateOne_alike
                  (e := ⟨c, true, hr, zf1, r.zeroFunctions q t2 x2,
                    if hr = true then r.zeroFunctions w1 (t1 + (t2 - t1) * tmin) w2 else buf, fl, st, t1⟩)
                  (e' := ⟨c', true, hr, zf1, r.zeroFunctions q t2 x2,
                    if hr = true then r.zeroFunctions w1 (t1 + (t2 - t1) * tmin) w2 else buf', fl, st, t1⟩)
                  ⟨rfl, rfl, rfl, rfl, rfl, rfl, h7⟩ rfl (fun h => by simp only at h; simp only [h, if_true]) tmin i (sgn z2)
                rw [eu]
                cases loop 0 zf1.length ((⟨c', true, hr, zf1, r.zeroFunctions q t2 x2,
                    if hr = true then r.zeroFunctions w1 (t1 + (t2 - t1) * tmin) w2 else buf', fl, st, t1⟩ : Ctl K).updateOne
                      tmin i (sgn z2)) (zf1, st) with
                | error _ => rfl
                | ok p => rfl

/-- C128, events: after `reset` (which `setInitialState` calls, `C81_rk_partial`, `C81_partial`) the next step ends as
with a new controller, whatever the controller did before and with whatever right-hand side. -/
theorem C128_event_reset (r : EvRhs K V Q) (q : Q) (e : Ctl K) (x x2 : V) (t t2 : K) :
    (e.reset.atStepStart r q x t).bind (fun e => (e.atStepEnd r q x x2 t2).map (fun v => (v.1.2, v.2))) =
      ((Ctl.init : Ctl K).atStepStart r q x t).bind (fun e => (e.atStepEnd r q x x2 t2).map (fun v => (v.1.2, v.2))) := by
  unfold Ctl.atStepStart
  simp only [Ctl.reset, Ctl.init, if_true, Ctl.initClean]
  by_cases hn : 0 < r.zeroFuncCount q
  · simp only [hn, decide_true, if_true]
    cases loop 0 (r.zeroFunctions q t x).length (fun i st => do
        let z ← at' (r.zeroFunctions q t x) i
        let f ← raw (r.zeroFuncFlags q) i
        rawSet st i (sFlag z f)) (List.replicate (r.zeroFuncCount q) 0) with
    | error _ => rfl
    | ok st =>
      simp only [bind_ok]
      refine atStepEnd_alike r q ?_ x x2 t2
      exact ⟨rfl, rfl, rfl, rfl, rfl, rfl, rfl⟩
  · simp only [hn, decide_false, Bool.false_eq_true, if_false]
    have h0 : r.zeroFuncCount q = 0 := by omega
    simp only [Except.bind]
    refine atStepEnd_alike r q ?_ x x2 t2
    exact ⟨rfl, rfl, by simp [h0], rfl, rfl, rfl, rfl⟩

end

end Verif.Driver
