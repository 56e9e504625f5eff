import Verif.Extrap.Step
import Verif.Witness
import Mathlib.Tactic.Abel
import Mathlib.Tactic.Module

/-! # The Gragg solver (C34) -/

set_option linter.unusedSectionVars false

namespace Verif.Extrap

open Verif.Res Verif.RK

section
variable {K V E : Type} [Field K] [LinearOrder K] [IsStrictOrderedRing K]
  [AddCommGroup V] [Module K V]

/-- The two sequences: `(U_k, W_{k+1/2})` with `W_{1/2} = x + h/2 f(t, x)`,
`U_{k+1} = U_k + h f(t + (k + 1/2) h, W_{k+1/2})`,
`W_{k+3/2} = W_{k+1/2} + h f(t + (k + 1) h, U_{k+1})`. -/
def leapfrog (f : K → V → V) (t h : K) (x : V) : Nat → V × V
  | 0 => (x, x + (h / 2) • f t x)
  | k + 1 =>
    let p := leapfrog f t h x k
    let u := p.1 + h • f (t + (k + 1 / 2) * h) p.2
    (u, p.2 + h • f (t + (k + 1) * h) u)

theorem leapfrog_succ (f : K → V → V) (t h : K) (x : V) (k : Nat) :
    leapfrog f t h x (k + 1) =
      ((leapfrog f t h x k).1 + h • f (t + (k + 1 / 2) * h) (leapfrog f t h x k).2,
        (leapfrog f t h x k).2 + h • f (t + (k + 1) * h)
          ((leapfrog f t h x k).1 + h • f (t + (k + 1 / 2) * h) (leapfrog f t h x k).2)) := rfl

/-- What the solver reports after `n` steps: `U_n`, or `(U_n + V_n)/2` with the value
`V_n = W_{n+1/2} - h/2 f(t + n h, U_n)` of the second sequence. -/
def graggValue (smooth : Bool) (f : K → V → V) (t : K) (x : V) (h : K) (n : Nat) : V :=
  let p := leapfrog f t h x n
  if smooth && decide (0 < n) then
    (1 / 2 : K) • p.1 + (1 / 2 : K) • (p.2 - (h / 2) • f (t + n * h) p.1)
  else p.1

/-- The solver without events, `n` steps after a restart: holds `U_n`, `V_n`, `f(U_n)`. -/
def Holds (f : K → V → V) (t h : K) (x : V) (n : Nat) (s : GrSt K V E) : Prop :=
  s.t = t + n * h ∧ s.u = (leapfrog f t h x n).1 ∧ s.hInit = h ∧
    (s.running = true → 0 < n ∧ s.f = f (t + n * h) s.u ∧
      s.v = (leapfrog f t h x n).2 - (h / 2) • f (t + n * h) s.u) ∧
    (s.running = false → n = 0)

theorem two_ne : (2 : K) ≠ 0 := two_ne_zero

theorem halves (h : K) (v : V) : (h / 2) • v + (h / 2) • v = h • v := by
  rw [← add_smul, add_halves]

theorem doStep_holds {m : GrMethod K V E} (hec : m.ec = none) {t h : K} {x : V} {n : Nat}
    {s : GrSt K V E} (hs : Holds m.rhs t h x n s) :
    ∃ s', s.doStep m = .ok s' ∧ Holds m.rhs t h x (n + 1) s' ∧ s'.running = true ∧
      s'.log = .post h true false Trunc.none 0 :: .pre (some h) :: s.log := by
  obtain ⟨h1, h2, h3, h4, h5⟩ := hs
  have hv : (if s.running = true then s.v else s.u)
      + (s.hInit / 2) • (if s.running = true then s.f else m.rhs s.t s.u)
      = (leapfrog m.rhs t h x n).2 := by
    by_cases hr : s.running = true
    · obtain ⟨_, g1, g2⟩ := h4 hr
      rw [if_pos hr, if_pos hr, g1, g2, h3, sub_add_cancel]
    · have hn := h5 (by simpa using hr)
      subst hn
      rw [if_neg hr, if_neg hr, h1, h2, h3]
      simp [leapfrog]
  have ht2 : s.t + s.hInit / 2 = t + ((n : K) + 1 / 2) * h := by rw [h1, h3]; ring
  have ht1 : s.t + s.hInit = t + ((n : K) + 1) * h := by rw [h1, h3]; ring
  unfold GrSt.doStep
  simp only [GrMethod.ecStart, GrMethod.ecEnd, hec, bind_ok]
  rw [hv, ht2, ht1, h2, h3]
  refine ⟨_, rfl, ⟨?_, ?_, rfl, ?_, ?_⟩, rfl, rfl⟩
  · push_cast; ring
  · rfl
  · intro _
    refine ⟨by omega, ?_, ?_⟩
    · simp only
      push_cast
      rfl
    · simp only [leapfrog_succ]
      push_cast
      rw [← halves h (m.rhs (t + (↑n + 1) * h) _)]
      abel
  · intro h; cases h

theorem loop_holds {m : GrMethod K V E} (hec : m.ec = none) {t h : K} {x : V} (n : Nat) :
    ∀ (k : Nat) (s : GrSt K V E), Holds m.rhs t h x k s → ∀ i,
    ∃ s', loopFrom (fun _ s => GrSt.doStep m s) n i s = .ok s' ∧ Holds m.rhs t h x (k + n) s' := by
  induction n with
  | zero => intro k s hs i; exact ⟨s, rfl, hs⟩
  | succ n ih =>
    intro k s hs i
    obtain ⟨s1, g1, g2, _⟩ := doStep_holds hec hs
    obtain ⟨s2, g3, g4⟩ := ih (k + 1) s1 g2 (i + 1)
    refine ⟨s2, ?_, by rw [show k + (n + 1) = k + 1 + n by omega]; exact g4⟩
    rw [loopFrom, g1, bind_ok, g3]

theorem fresh_holds (f : K → V → V) (t h : K) (x : V) (s : GrSt K V E) :
    Holds f t h x 0 (GrSt.setInitialStepSize h (GrSt.setInitialState t x s)) := by
  refine ⟨by simp [GrSt.setInitialStepSize, GrSt.setInitialState], rfl, rfl, ?_, fun _ => rfl⟩
  intro hr
  cases hr

/-- C34. After `n` steps of size `h` from `x` at time `t`, for every right-hand side and whatever
the solver did before, it is at time `t + n h` and reports `U_n` (or the average of `U_n` and
`V_n` when smoothing) of the two leapfrog sequences. -/
theorem C34_recursion (m : GrMethod K V E) (hec : m.ec = none) (t h : K) (x : V) (n : Nat)
    (s : GrSt K V E) :
    ∃ s', loop 0 n (fun _ s => GrSt.doStep m s)
        (GrSt.setInitialStepSize h (GrSt.setInitialState t x s)) = .ok s' ∧
      s'.t = t + n * h ∧ s'.initialState m = graggValue m.smooth m.rhs t x h n := by
  obtain ⟨s', g1, g2⟩ := loop_holds hec n 0 _ (fresh_holds m.rhs t h x s) 0
  rw [Nat.zero_add] at g2
  refine ⟨s', g1, g2.1, ?_⟩
  obtain ⟨h1, h2, h3, h4, h5⟩ := g2
  unfold GrSt.initialState graggValue
  cases hr : s'.running with
  | true =>
    obtain ⟨a, b, c⟩ := h4 hr
    rw [c, h2]
    simp only [Bool.and_true, a, decide_true]
  | false =>
    have := h5 hr
    subst this
    simp [h2]

theorem behaves_gragg (m : GrMethod K V E) (hec : m.ec = none) :
    Behaves m.ref (graggValue m.smooth m.rhs) := by
  intro t x h n s
  obtain ⟨s', g1, _, g2⟩ := C34_recursion m hec t h x n s
  exact ⟨s', g1, g2⟩

example : ∃ s', loop 0 2 (fun _ s => GrSt.doStep (⟨fun t x => t * x, none, true⟩ : GrMethod ℚ ℚ Unit) s)
      (GrSt.setInitialStepSize 1 (GrSt.setInitialState 0 1 ⟨7, 7, 7, 7, true, 7, (), []⟩)) = .ok s' ∧
    s'.initialState (⟨fun t x => t * x, none, true⟩ : GrMethod ℚ ℚ Unit) = 13 / 2 := by
  obtain ⟨s', h1, h2⟩ := exists_of_test
    (r := loop 0 2 (fun _ s => GrSt.doStep (⟨fun t x => t * x, none, true⟩ : GrMethod ℚ ℚ Unit) s)
      (GrSt.setInitialStepSize 1 (GrSt.setInitialState 0 1 ⟨7, 7, 7, 7, true, 7, (), []⟩)))
    (p := fun s => decide (s.initialState (⟨fun t x => t * x, none, true⟩ : GrMethod ℚ ℚ Unit) = 13 / 2))
    (by decide +kernel)
  exact ⟨s', h1, of_decide_eq_true h2⟩

/-- C34. The step is time-symmetric: from a state in the middle of a run (`f` is the right-hand
side at the current point), a step `h` followed by a step `-h` on the same pair of sequences gives
back time, both sequences and the stored derivative. -/
theorem C34_symmetric_partial (m : GrMethod K V E) (hec : m.ec = none) (s : GrSt K V E)
    (hr : s.running = true) (hf : s.f = m.rhs s.t s.u) :
    ∃ s1 s2, s.doStep m = .ok s1 ∧ ({ s1 with hInit := -s.hInit }).doStep m = .ok s2 ∧
      s2.t = s.t ∧ s2.u = s.u ∧ s2.v = s.v ∧ s2.f = s.f := by
  unfold GrSt.doStep
  simp only [GrMethod.ecStart, GrMethod.ecEnd, hec, bind_ok, hr, if_true, Trunc.none]
  refine ⟨_, _, rfl, rfl, ?_, ?_, ?_, ?_⟩
  · simp only; ring
  · simp only [Bool.not_false, if_true]
    have e1 : s.t + s.hInit + -s.hInit / 2 = s.t + s.hInit / 2 := by ring
    rw [e1]
    have e2 : ∀ a b : V, a + (s.hInit / 2) • b + (-s.hInit / 2) • b = a := by
      intro a b
      rw [add_assoc, ← add_smul, show s.hInit / 2 + -s.hInit / 2 = 0 by ring, zero_smul, add_zero]
    rw [e2]
    rw [add_assoc, ← add_smul, add_neg_cancel, zero_smul, add_zero]
  · simp only [Bool.not_false, if_true]
    have e1 : s.t + s.hInit + -s.hInit / 2 = s.t + s.hInit / 2 := by ring
    have e3 : s.t + s.hInit + -s.hInit = s.t := by ring
    rw [e1, e3]
    have e2 : ∀ a b : V, a + (s.hInit / 2) • b + (-s.hInit / 2) • b = a := by
      intro a b
      rw [add_assoc, ← add_smul, show s.hInit / 2 + -s.hInit / 2 = 0 by ring, zero_smul, add_zero]
    rw [e2]
    rw [add_assoc s.u, ← add_smul s.hInit, add_neg_cancel, zero_smul, add_zero, ← hf, e2]
  · simp only [Bool.not_false, if_true]
    have e1 : s.t + s.hInit + -s.hInit / 2 = s.t + s.hInit / 2 := by ring
    have e3 : s.t + s.hInit + -s.hInit = s.t := by ring
    rw [e1, e3]
    have e2 : ∀ a b : V, a + (s.hInit / 2) • b + (-s.hInit / 2) • b = a := by
      intro a b
      rw [add_assoc, ← add_smul, show s.hInit / 2 + -s.hInit / 2 = 0 by ring, zero_smul, add_zero]
    rw [e2]
    rw [add_assoc s.u, ← add_smul s.hInit, add_neg_cancel, zero_smul, add_zero, hf]

/-- The equation `x' = x` for the witnesses. -/
def growth : GrMethod ℚ ℚ Unit := ⟨fun _ x => x, none, false⟩

example : ∃ s : GrSt ℚ ℚ Unit, s.running = true ∧ s.f = growth.rhs s.t s.u ∧ s.v ≠ s.u :=
  ⟨⟨1, 5/2, 11/4, 5/2, true, 1, (), []⟩, rfl, rfl, by decide +kernel⟩

/-- C34 fails through the interface: turning the step round with `setInitialStepSize` restarts the
sequences, and a step `h = 1` followed by a step `-1` on `x' = x` from `1` ends in `5/4`. -/
theorem C34_false : ∃ s1 s2, (GrSt.setInitialStepSize 1 (GrSt.setInitialState 0 1
      (⟨0, 0, 0, 0, false, 0, (), []⟩ : GrSt ℚ ℚ Unit))).doStep growth = .ok s1 ∧
    (s1.setInitialStepSize (-1)).doStep growth = .ok s2 ∧ s2.t = 0 ∧ s2.initialState growth = 5 / 4 := by
  obtain ⟨s1, h1, h2⟩ := exists_of_test
    (r := (GrSt.setInitialStepSize 1 (GrSt.setInitialState 0 1
      (⟨0, 0, 0, 0, false, 0, (), []⟩ : GrSt ℚ ℚ Unit))).doStep growth)
    (p := fun s => match (s.setInitialStepSize (-1)).doStep growth with
      | .ok s2 => decide (s2.t = 0 ∧ s2.initialState growth = 5 / 4)
      | .error _ => false) (by decide +kernel)
  cases h3 : (s1.setInitialStepSize (-1)).doStep growth with
  | error e => rw [h3] at h2; cases h2
  | ok s2 =>
    rw [h3] at h2
    exact ⟨s1, s2, h1, h3, of_decide_eq_true h2⟩

/-- C34. For a right-hand side that depends on nothing the result is exact, with and without
smoothing, after any number of steps. -/
theorem C34_constant (m : GrMethod K V E) (hec : m.ec = none) (c : V) (hc : ∀ t x, m.rhs t x = c)
    (t h : K) (x : V) (n : Nat) (s : GrSt K V E) :
    ∃ s', loop 0 n (fun _ s => GrSt.doStep m s)
        (GrSt.setInitialStepSize h (GrSt.setInitialState t x s)) = .ok s' ∧
      s'.t = t + n * h ∧ s'.initialState m = x + (n * h) • c := by
  obtain ⟨s', h1, h2, h3⟩ := C34_recursion m hec t h x n s
  refine ⟨s', h1, h2, ?_⟩
  rw [h3]
  have key : ∀ k : Nat, leapfrog m.rhs t h x k = (x + (k * h) • c, x + ((k + 1 / 2) * h) • c) := by
    intro k
    induction k with
    | zero => simp [leapfrog, hc]; congr 1; ring
    | succ k ih =>
      rw [leapfrog_succ, ih]
      simp only [hc]
      push_cast
      refine Prod.ext ?_ ?_
      · simp only; module
      · simp only; module
  unfold graggValue
  simp only [key, hc]
  split
  · rw [add_sub_assoc, ← sub_smul]
    rw [show ((n : K) + 1 / 2) * h - h / 2 = n * h by ring]
    rw [← add_smul]
    norm_num
  · rfl

/-! ### The stored derivative is never stale -/

/-- Calls on the solver. -/
inductive GrCall (K V : Type) where
  | doStep
  | setInitialState (t : K) (x : V)
  | setInitialStepSize (h : K)
  | setOdeRhs (f : K → V → V)

/-- The solver with its right-hand side after a call -/
def GrSt.call (m : GrMethod K V E) (s : GrSt K V E) : GrCall K V → Res (GrMethod K V E × GrSt K V E)
  | .doStep => do
    let s ← s.doStep m
    .ok (m, s)
  | .setInitialState t x => .ok (m, s.setInitialState t x)
  | .setInitialStepSize h => .ok (m, s.setInitialStepSize h)
  | .setOdeRhs f => .ok ({ m with rhs := f }, s.onRhsChanged)

def GrSt.calls (m : GrMethod K V E) (s : GrSt K V E) : List (GrCall K V) → Res (GrMethod K V E × GrSt K V E)
  | [] => .ok (m, s)
  | c :: cs => do
    let p ← s.call m c
    p.2.calls p.1 cs

/-- The event controller reports every change it makes to the end point as a truncation. -/
def Honest (ec : Option (EventCtl K V E)) : Prop :=
  ∀ c, ec = some c → ∀ e x1 x2 t2 e' x2' t2' tr, c.atStepEnd e x1 x2 t2 = .ok (e', x2', t2', tr) →
    tr.truncated = false → x2' = x2 ∧ t2' = t2

/-- C34. In every history of calls, with events or without, while a run goes on the stored
derivative is the current right-hand side at the current time and state. -/
theorem C34_cache (cs : List (GrCall K V)) :
    ∀ (m m' : GrMethod K V E) (s s' : GrSt K V E), Honest m.ec → (s.running = true → s.f = m.rhs s.t s.u) →
      s.calls m cs = .ok (m', s') → (s'.running = true → s'.f = m'.rhs s'.t s'.u) := by
  induction cs with
  | nil => intro m m' s s' _ h h2; cases h2; exact h
  | cons c cs ih =>
    intro m m' s s' hec h h2
    rw [GrSt.calls] at h2
    cases hc : s.call m c with
    | error e => rw [hc] at h2; cases h2
    | ok p =>
      obtain ⟨m1, s1⟩ := p
      rw [hc] at h2
      have hec1 : Honest m1.ec := by
        cases c with
        | setInitialState t x => cases hc; exact hec
        | setInitialStepSize t => cases hc; exact hec
        | setOdeRhs f => cases hc; exact hec
        | doStep =>
          simp only [GrSt.call] at hc
          cases hd : s.doStep m with
          | error e => rw [hd] at hc; cases hc
          | ok s2 => rw [hd] at hc; cases hc; exact hec
      refine ih m1 m' s1 s' hec1 ?_ h2
      clear ih h2 s'
      cases c with
      | setInitialState t x => cases hc; intro hr; cases hr
      | setInitialStepSize t => cases hc; intro hr; cases hr
      | setOdeRhs f => cases hc; intro hr; cases hr
      | doStep =>
        simp only [GrSt.call] at hc
        unfold GrSt.doStep at hc
        cases h1 : m.ecStart s.ec s.u s.t with
        | error e => rw [h1] at hc; cases hc
        | ok e1 =>
          simp only [h1, bind_ok] at hc
          split at hc
          all_goals
            revert hc
            generalize hz : m.ecEnd _ _ _ _ = z
            intro hc
            cases z with
            | error e => cases hc
            | ok z =>
              obtain ⟨e', x2', t2', tr⟩ := z
              simp only [bind_ok] at hc
              cases hc
              intro hr
              simp only [Bool.not_eq_true'] at hr
              unfold GrMethod.ecEnd at hz
              cases hm : m.ec with
              | none => rw [hm] at hz; cases hz; rfl
              | some c =>
                rw [hm] at hz
                obtain ⟨g1, g2⟩ := hec c hm _ _ _ _ _ _ _ _ hz hr
                subst g1 g2
                rfl

end

end Verif.Extrap
