import Verif.Driver.Model
import Verif.RK.FixedProps
import Mathlib.Tactic.Linarith
import Mathlib.Tactic.Ring

/-! # C44: `solveOde` -/

set_option linter.unusedSectionVars false

namespace Verif.Driver

open Verif.Res

section
variable {K V S : Type} [Add K] [LinearOrder K]

/-- A sequence of returning steps from `s`: the post-observer calls and the solver after each -/
inductive Steps (sv : Solver K V S) : S → List (List (Note K V) × S) → Prop where
  | nil (s : S) : Steps sv s []
  | cons {s s' : S} {ns : List (Note K V)} {l : List (List (Note K V) × S)}
      (h : sv.doStep s = (ns, .ok s')) (hl : Steps sv s' l) : Steps sv s ((ns, s') :: l)

/-- The observer calls of a sequence of steps -/
def notesOf (l : List (List (Note K V) × S)) : List (Note K V) := (l.map (·.1)).flatten

/-- The solver after a sequence of steps from `s` -/
def lastOf (s : S) (l : List (List (Note K V) × S)) : S := (l.getLast?.map (·.2)).getD s

theorem lastOf_cons (s s' : S) (ns : List (Note K V)) (l : List (List (Note K V) × S)) :
    lastOf s ((ns, s') :: l) = lastOf s' l := by
  cases l with
  | nil => rfl
  | cons a l => simp [lastOf, List.getLast?_eq_getLast_of_ne_nil]

theorem notesOf_cons (s' : S) (ns : List (Note K V)) (l : List (List (Note K V) × S)) :
    notesOf ((ns, s') :: l) = ns ++ notesOf l := by simp [notesOf]

/-- The loop returns exactly after a sequence of steps of which all but the last end before the end time,
and the last one does not. -/
theorem runLoop_ok (sv : Solver K V S) (e : K) (fuel : Nat) (s : S) (ns : List (Note K V)) (s' : S) :
    runLoop sv e fuel s = some (ns, .ok s') ↔
      ∃ l, l ≠ [] ∧ l.length ≤ fuel ∧ Steps sv s l ∧ (∀ p ∈ l.dropLast, sv.time p.2 < e) ∧
        e ≤ sv.time s' ∧ s' = lastOf s l ∧ ns = notesOf l := by
  induction fuel generalizing s ns with
  | zero =>
    constructor
    · intro h; cases h
    · rintro ⟨l, h1, h2, -⟩
      exact absurd (List.length_eq_zero_iff.1 (by omega)) h1
  | succ fuel ih =>
    unfold runLoop
    constructor
    · intro h
      split at h
      · cases h
      · rename_i ns1 s1 h1
        split at h
        · rename_i hlt
          cases hr : runLoop sv e fuel s1 with
          | none => rw [hr] at h; cases h
          | some r =>
            obtain ⟨ns2, r2⟩ := r
            rw [hr] at h
            simp only [Option.map_some, Option.some.injEq, Prod.mk.injEq] at h
            obtain ⟨h2, h3⟩ := h
            rw [h3] at hr
            obtain ⟨l, a1, a2, a3, a4, a5, a6, a7⟩ := (ih s1 ns2).1 hr
            refine ⟨(ns1, s1) :: l, List.cons_ne_nil _ _, by simpa using a2, .cons h1 a3, ?_, a5, ?_, ?_⟩
            · rw [List.dropLast_cons_of_ne_nil a1]
              intro p hp
              rcases List.mem_cons.1 hp with rfl | hp
              · exact hlt
              · exact a4 p hp
            · rw [lastOf_cons]; exact a6
            · rw [notesOf_cons, ← h2, a7]
        · rename_i hlt
          simp only [Option.some.injEq, Prod.mk.injEq, Except.ok.injEq] at h
          obtain ⟨rfl, rfl⟩ := h
          exact ⟨[(ns1, s1)], List.cons_ne_nil _ _, by simp, .cons h1 (.nil _), by simp,
            not_lt.1 hlt, rfl, by simp [notesOf]⟩
    · rintro ⟨l, a1, a2, a3, a4, a5, a6, a7⟩
      cases a3 with
      | nil => exact absurd rfl a1
      | @cons _ s1 ns1 l h1 hl =>
        rw [h1]
        simp only
        by_cases hl0 : l = []
        · subst hl0
          have : s' = s1 := a6
          subst this
          rw [if_neg (not_lt.2 a5), a7]
          simp [notesOf]
        · rw [if_pos (a4 (ns1, s1) (by rw [List.dropLast_cons_of_ne_nil hl0]; exact List.mem_cons_self ..))]
          have := (ih s1 (notesOf l)).2 ⟨l, hl0, by simpa using a2, hl,
            fun p hp => a4 p (by rw [List.dropLast_cons_of_ne_nil hl0]; exact List.mem_cons_of_mem _ hp),
            a5, by rw [a6, lastOf_cons], rfl⟩
          rw [this, a7, notesOf_cons]
          rfl

/-- The loop throws exactly when a step throws, after steps that all end before the end time. -/
theorem runLoop_error (sv : Solver K V S) (e : K) (fuel : Nat) (s : S) (ns : List (Note K V)) (f : Fault) :
    runLoop sv e fuel s = some (ns, .error f) ↔
      ∃ l ns', l.length < fuel ∧ Steps sv s l ∧ (∀ p ∈ l, sv.time p.2 < e) ∧
        sv.doStep (lastOf s l) = (ns', .error f) ∧ ns = notesOf l ++ ns' := by
  induction fuel generalizing s ns with
  | zero =>
    constructor
    · intro h; cases h
    · rintro ⟨l, ns', h2, -⟩; omega
  | succ fuel ih =>
    unfold runLoop
    constructor
    · intro h
      split at h
      · rename_i ns1 f1 h1
        simp only [Option.some.injEq, Prod.mk.injEq, Except.error.injEq] at h
        obtain ⟨rfl, rfl⟩ := h
        exact ⟨[], ns1, by simp, .nil _, by simp, h1, by simp [notesOf]⟩
      · rename_i ns1 s1 h1
        split at h
        · rename_i hlt
          cases hr : runLoop sv e fuel s1 with
          | none => rw [hr] at h; cases h
          | some r =>
            obtain ⟨ns2, r2⟩ := r
            rw [hr] at h
            simp only [Option.map_some, Option.some.injEq, Prod.mk.injEq] at h
            obtain ⟨h2, h3⟩ := h
            rw [h3] at hr
            obtain ⟨l, ns', a2, a3, a4, a5, a6⟩ := (ih s1 ns2).1 hr
            refine ⟨(ns1, s1) :: l, ns', by simpa using a2, .cons h1 a3, ?_, ?_, ?_⟩
            · intro p hp
              rcases List.mem_cons.1 hp with rfl | hp
              · exact hlt
              · exact a4 p hp
            · rw [lastOf_cons]; exact a5
            · rw [notesOf_cons, ← h2, a6, List.append_assoc]
        · cases h
    · rintro ⟨l, ns', a2, a3, a4, a5, a6⟩
      cases a3 with
      | nil =>
        have a5 : sv.doStep s = (ns', .error f) := a5
        rw [a5, a6]
        simp [notesOf]
      | @cons _ s1 ns1 l h1 hl =>
        rw [h1]
        simp only
        rw [if_pos (a4 (ns1, s1) (List.mem_cons_self ..))]
        have := (ih s1 (notesOf l ++ ns')).2 ⟨l, ns', by simpa using a2, hl,
          fun p hp => a4 p (List.mem_cons_of_mem _ hp), by rw [← a5, lastOf_cons], rfl⟩
        rw [this, a6, notesOf_cons, List.append_assoc]
        rfl

/-- The output options that are given, in order, when all of them can be started -/
def Outputs.given (c : Outputs) : List Slot :=
  (if c.statistics.isSome then [Slot.statistics] else []) ++
    (if c.console.isSome then [Slot.console] else []) ++ (if c.file.isSome then [Slot.file] else [])

/-- No output option fails to start. -/
def Outputs.Start (c : Outputs) : Prop :=
  ∀ r, c.statistics = some r ∨ c.console = some r ∨ c.file = some r → r = .ok ()

theorem initOutput_ok (c : Outputs) (h : c.Start) : initOutput c = (c.given, .ok ()) := by
  obtain ⟨a, b, d⟩ := c
  rcases a with _ | a <;> rcases b with _ | b <;> rcases d with _ | d <;>
    simp only [Outputs.Start] at h <;>
    first
      | rfl
      | skip
  all_goals
    (try obtain rfl := h a (by simp))
    (try obtain rfl := h b (by simp))
    (try obtain rfl := h d (by simp))
    rfl

/-- C44. When `solveOde` returns: it has made at least one step, every step but the last ended before
start + duration and the last one did not, and what the outside has seen is: the given output options
started in the order statistics, console, file, then all notifications of all steps, then the output options
finished. Conversely, a sequence of steps of this form makes `solveOde` return. -/
theorem C44_returns (sv : Solver K V S) (c : Outputs) (hc : c.Start) (d : K) (fuel : Nat) (s s' : S)
    (hr : sv.hasRhs s = true) (evs : List (Ev K V)) :
    solveOde sv c d fuel s = some (evs, .ok s') ↔
      ∃ l, l ≠ [] ∧ l.length ≤ fuel ∧ Steps sv s l ∧ (∀ p ∈ l.dropLast, sv.time p.2 < sv.time s + d) ∧
        sv.time s + d ≤ sv.time s' ∧ s' = lastOf s l ∧
        evs = c.given.map .started ++ (notesOf l).map .note ++ c.given.map .finished := by
  unfold solveOde
  rw [if_pos hr, initOutput_ok c hc]
  simp only
  constructor
  · intro h
    cases hl : runLoop sv (sv.time s + d) fuel s with
    | none => rw [hl] at h; cases h
    | some r =>
      obtain ⟨ns, r⟩ := r
      rw [hl] at h
      cases r with
      | error f => cases h
      | ok s1 =>
        simp only [Option.some.injEq, Prod.mk.injEq, Except.ok.injEq] at h
        obtain ⟨h1, rfl⟩ := h
        obtain ⟨l, a1, a2, a3, a4, a5, a6, a7⟩ := (runLoop_ok ..).1 hl
        exact ⟨l, a1, a2, a3, a4, a5, a6, by rw [← a7, h1]⟩
  · rintro ⟨l, a1, a2, a3, a4, a5, a6, a7⟩
    rw [(runLoop_ok sv _ fuel s (notesOf l) s').2 ⟨l, a1, a2, a3, a4, a5, a6, rfl⟩, a7]

/-- C44. When a step throws, `solveOde` throws the same exception at once, and the output options that
were started are not finished. -/
theorem C44_throws (sv : Solver K V S) (c : Outputs) (hc : c.Start) (d : K) (fuel : Nat) (s : S)
    (hr : sv.hasRhs s = true) (evs : List (Ev K V)) (f : Fault) :
    solveOde sv c d fuel s = some (evs, .error f) ↔
      ∃ l ns', l.length < fuel ∧ Steps sv s l ∧ (∀ p ∈ l, sv.time p.2 < sv.time s + d) ∧
        sv.doStep (lastOf s l) = (ns', .error f) ∧
        evs = c.given.map .started ++ (notesOf l ++ ns').map .note := by
  unfold solveOde
  rw [if_pos hr, initOutput_ok c hc]
  simp only
  constructor
  · intro h
    cases hl : runLoop sv (sv.time s + d) fuel s with
    | none => rw [hl] at h; cases h
    | some r =>
      obtain ⟨ns, r⟩ := r
      rw [hl] at h
      cases r with
      | ok s1 => cases h
      | error f1 =>
        simp only [Option.some.injEq, Prod.mk.injEq, Except.error.injEq] at h
        obtain ⟨h1, rfl⟩ := h
        obtain ⟨l, ns', a2, a3, a4, a5, a6⟩ := (runLoop_error ..).1 hl
        exact ⟨l, ns', a2, a3, a4, a5, by rw [← a6, h1]⟩
  · rintro ⟨l, ns', a2, a3, a4, a5, a6⟩
    rw [(runLoop_error sv _ fuel s (notesOf l ++ ns') f).2 ⟨l, ns', a2, a3, a4, a5, rfl⟩, a6]

/-- C44. Without a right-hand side nothing is started and no step is made. -/
theorem C44_noRhs (sv : Solver K V S) (c : Outputs) (d : K) (fuel : Nat) (s : S)
    (hr : sv.hasRhs s = false) :
    solveOde sv c d fuel s = some ([], .error (.exc "ODE right hand size is not specified")) := by
  simp [solveOde, hr]

end

section
variable {K V S : Type} [Field K] [LinearOrder K]

theorem steps_time [IsStrictOrderedRing K] (sv : Solver K V S) (I : S → Prop) (δ : K)
    (hI : ∀ s ns s', I s → sv.doStep s = (ns, .ok s') → I s' ∧ sv.time s + δ ≤ sv.time s')
    (e : K) (N : Nat) (s : S) (hs : I s) (hN : e ≤ sv.time s + ((N : K) + 1) * δ) :
    runLoop sv e (N + 1) s ≠ none := by
  induction N generalizing s with
  | zero =>
    unfold runLoop
    split
    · simp
    · rename_i ns s' h
      obtain ⟨h1, h2⟩ := hI s ns s' hs h
      rw [if_neg]
      · simp
      · rw [not_lt]; push_cast at hN; linarith
  | succ N ih =>
    unfold runLoop
    split
    · simp
    · rename_i ns s' h
      obtain ⟨h1, h2⟩ := hI s ns s' hs h
      split
      · have := ih s' h1 (by push_cast at hN; linarith)
        intro h
        rw [Option.map_eq_none_iff] at h
        exact this h
      · simp

/-- C44. When every returning step advances time by at least `δ > 0`, `solveOde` ends (by returning or by an
exception) within `max 1 ⌈duration / δ⌉` steps. -/
theorem C44_terminates [IsStrictOrderedRing K] (sv : Solver K V S) (I : S → Prop) (δ : K)
    (hI : ∀ s ns s', I s → sv.doStep s = (ns, .ok s') → I s' ∧ sv.time s + δ ≤ sv.time s')
    (c : Outputs) (d : K) (s : S) (hs : I s) (N : Nat) (hN : 1 ≤ N) (hd : d ≤ N * δ) :
    solveOde sv c d N s ≠ none := by
  unfold solveOde
  split
  · split
    · simp
    · have := steps_time sv I δ hI (sv.time s + d) (N - 1) s hs (by
        have : (((N - 1 : Nat) : K) + 1) = N := by
          rw [Nat.cast_sub hN]; push_cast; ring
        rw [this]; linarith)
      rw [Nat.sub_add_cancel hN] at this
      split
      · rename_i h; exact absurd h this
      · simp
      · simp
  · simp

/-- C44. The overshoot: the last step started before start + duration unless it was the only one, so the
final time exceeds it by less than the length of the last step. -/
theorem C44_overshoot [IsStrictOrderedRing K] (sv : Solver K V S) (c : Outputs) (hc : c.Start) (d : K)
    (hd : 0 < d) (fuel : Nat) (s s' : S) (hr : sv.hasRhs s = true) (evs : List (Ev K V))
    (h : solveOde sv c d fuel s = some (evs, .ok s')) :
    ∃ q ns, sv.doStep q = (ns, .ok s') ∧ sv.time q < sv.time s + d ∧
      sv.time s' - (sv.time s + d) < sv.time s' - sv.time q := by
  obtain ⟨l, a1, a2, a3, a4, a5, a6, a7⟩ := (C44_returns sv c hc d fuel s s' hr evs).1 h
  have key : ∀ (l : List (List (Note K V) × S)) (s0 : S), l ≠ [] → Steps sv s0 l →
      (sv.time s0 < sv.time s + d) → (∀ p ∈ l.dropLast, sv.time p.2 < sv.time s + d) →
      ∃ q ns, sv.doStep q = (ns, .ok (lastOf s0 l)) ∧ sv.time q < sv.time s + d := by
    intro l
    induction l with
    | nil => intro s0 h; exact absurd rfl h
    | cons a l ih =>
      intro s0 _ hs h0 hl
      cases hs with
      | @cons _ s1 ns1 _ h1 hl1 =>
        by_cases hne : l = []
        · subst hne
          exact ⟨s0, ns1, h1, h0⟩
        · rw [lastOf_cons]
          rw [List.dropLast_cons_of_ne_nil hne] at hl
          exact ih s1 hne hl1 (hl _ (List.mem_cons_self ..)) (fun p hp => hl p (List.mem_cons_of_mem _ hp))
  obtain ⟨q, ns, h1, h2⟩ := key l s a1 a3 (by linarith) a4
  rw [← a6] at h1
  exact ⟨q, ns, h1, h2, by linarith⟩

/-- C44 needs the lower bound on the steps: when steps shrink (each ends halfway to the end), `solveOde`
never ends. -/
theorem C44_needs_bound [IsStrictOrderedRing K] (sv : Solver K V S) (e : K) (s : S)
    (hs : sv.time s < e) (h : ∀ s, sv.time s < e → ∃ ns s', sv.doStep s = (ns, .ok s') ∧ sv.time s' < e)
    (fuel : Nat) : runLoop sv e fuel s = none := by
  induction fuel generalizing s with
  | zero => rfl
  | succ fuel ih =>
    obtain ⟨ns, s', h1, h2⟩ := h s hs
    unfold runLoop
    rw [h1]
    simp only
    rw [if_pos h2, ih s' h2]
    rfl

end

/-! ### The fixed-step explicit solvers under `solveOde` -/

section
variable {K V E : Type} [Zero K] [Add K] [Mul K] [DecidableEq K] [Zero V] [Add V] [SMul K V]

/-- The call recorded last in the log of an explicit solver, with what the solver shows -/
def erkNotes (s : RK.FixedSt K V E) : List (Note K V) :=
  match s.log with
  | .post h a ch tr _ :: _ => [⟨s.t, s.x, h, a, ch, tr⟩]
  | _ => []

/-- OdeSolverExplicitRK as a solver of `solveOde` (OdeSolverExplicitRK.h:39-99): the post-observers are
called at the end of `doStep`. -/
def erk (m : RK.Method K V E) : Solver K V (RK.FixedSt K V E) where
  hasRhs _ := true
  time s := s.t
  state s := s.x
  doStep s :=
    match s.doStep m with
    | .ok s' => (erkNotes s', .ok s')
    | .error e => ([], .error e)

end

section
variable {K V E : Type} [Zero K] [Add K] [Mul K] [DecidableEq K] [Zero V] [Add V] [SMul K V]

theorem bind_inv {α β : Type} {x : Res α} {f : α → Res β} {r : β} (h : (x >>= f) = .ok r) :
    ∃ a, x = .ok a ∧ f a = .ok r := by
  cases x with
  | error e => cases h
  | ok a => exact ⟨a, rfl, h⟩

open RK in
/-- A returning step is reported last, as accepted with the step size unchanged. -/
theorem erk_log (m : Method K V E) (s s' : FixedSt K V E) (h : s.doStep m = .ok s') :
    ∃ k tr l, s'.log = .post k true false tr 0 :: l := by
  unfold FixedSt.doStep at h
  obtain ⟨e, -, h⟩ := bind_inv h
  obtain ⟨k, -, h⟩ := bind_inv h
  obtain ⟨out, -, h⟩ := bind_inv h
  obtain ⟨next, -, h⟩ := bind_inv h
  obtain ⟨q, -, h⟩ := bind_inv h
  obtain ⟨x2, -, h⟩ := bind_inv h
  cases h
  exact ⟨_, _, _, rfl⟩

end

section
variable {K V E : Type} [Field K] [LinearOrder K] [AddCommGroup V] [Module K V]

open RK in
/-- A step of the fixed-step solver without events, as seen by `solveOde`. -/
theorem erk_step {T : Tableau K} {m : Method K V E} (hs : 1 ≤ T.s) (h0 : T.c 0 = 0)
    (hco : m.co = T.pack 1 (-1)) {I : E → Prop} (hq : Quiet m.ec I) {s : FixedSt K V E}
    {v : View K V} (hsv : Shows T I s v) :
    ∃ s', Shows T I s' (v.call (fun t h x => T.output m.rhs t h x 0) .doStep) ∧
      (erk m).doStep s = ([⟨v.t + v.using?.getD v.hInit, T.output m.rhs v.t (v.using?.getD v.hInit) v.x 0,
        v.using?.getD v.hInit, true, false, Trunc.none⟩], .ok s') := by
  obtain ⟨s', h1, h2⟩ := doStep_shows hs h0 hco hq hsv
  refine ⟨s', h2, ?_⟩
  obtain ⟨k, tr, l, hl⟩ := erk_log m s s' h1
  have hlog := h2.log
  rw [hl] at hlog
  simp only [reported, View.call] at hlog
  split at hlog
  · rename_i htr
    cases hr : reported l with
    | none => rw [hr] at hlog; cases hlog
    | some l' =>
      rw [hr] at hlog
      simp only [Option.map_some, Option.some.injEq, List.cons.injEq] at hlog
      unfold erk erkNotes
      simp only [h1, hl]
      rw [htr.1, hlog.1]
      have ht := h2.t
      have hx := h2.x
      simp only [View.call] at ht hx
      rw [ht, hx]
  · cases hlog

open RK in
theorem erk_run {T : Tableau K} {m : Method K V E} (hs : 1 ≤ T.s) (h0 : T.c 0 = 0)
    (hco : m.co = T.pack 1 (-1)) {I : E → Prop} (hq : Quiet m.ec I) (h t : K) (xs : Nat → V)
    (hx : ∀ k : Nat, xs (k + 1) = T.output m.rhs (t + k * h) h (xs k) 0) (j n : Nat) (s : FixedSt K V E)
    (v : View K V) (hsv : Shows T I s v) (hv : v.using?.getD v.hInit = h) (hvt : v.t = t + j * h)
    (hvx : v.x = xs j) :
    ∃ l, Steps (erk m) s l ∧ l.length = n ∧
      (∀ i (hi : i < l.length), (erk m).time (l[i]).2 = t + ((j + i + 1 : Nat) : K) * h ∧
        (erk m).state (l[i]).2 = xs (j + i + 1)) ∧
      notesOf l = (List.range' j n).map (fun k =>
        (⟨t + ((k + 1 : Nat) : K) * h, xs (k + 1), h, true, false, Trunc.none⟩ : Note K V)) := by
  induction n generalizing j s v with
  | zero => exact ⟨[], .nil _, rfl, by simp, rfl⟩
  | succ n ih =>
    obtain ⟨s', h1, h2⟩ := erk_step hs h0 hco hq hsv
    have hvt' : (v.call (fun t h x => T.output m.rhs t h x 0) Call.doStep).t
        = t + ((j + 1 : Nat) : K) * h := by
      simp only [View.call]; rw [hv, hvt]; push_cast; ring
    have hvx' : (v.call (fun t h x => T.output m.rhs t h x 0) Call.doStep).x = xs (j + 1) := by
      simp only [View.call]; rw [hv, hvt, hvx, hx]
    obtain ⟨l, a1, a2, a3, a4⟩ := ih (j + 1) s' _ h1 (by simp only [View.call]; rw [hv]; rfl) hvt' hvx'
    refine ⟨_ :: l, .cons h2 a1, by simp [a2], ?_, ?_⟩
    · intro i hi
      cases i with
      | zero =>
        exact ⟨h1.t.trans hvt', h1.x.trans hvx'⟩
      | succ i =>
        have := a3 i (by simpa using hi)
        simp only [List.getElem_cons_succ]
        rw [show j + (i + 1) + 1 = j + 1 + i + 1 by omega]
        exact this
    · rw [notesOf_cons, a4, List.range'_succ]
      simp only [List.map_cons, List.singleton_append]
      rw [hv, hvt, hvx, ← hx]
      congr 2
      push_cast; ring

open RK in
/-- C44. The fixed-step explicit solvers without events, from a fresh state at time `t` with step `h > 0`:
`solveOde` makes exactly `n = max 1 ⌈d/h⌉` steps, ends at `t + n h` with the `n`-fold iterate of the method,
and every step is reported once. -/
theorem C44_fixed [IsStrictOrderedRing K] (T : Tableau K) (m : Method K V E) (hs : 1 ≤ T.s)
    (h0 : T.c 0 = 0) (hco : m.co = T.pack 1 (-1)) (I : E → Prop) (hq : Quiet m.ec I) (t h : K) (hh : 0 < h)
    (x : V) (hold : Option K) (e : E) (hI : I e) (xs : Nat → V) (hx0 : xs 0 = x)
    (hx : ∀ k : Nat, xs (k + 1) = T.output m.rhs (t + k * h) h (xs k) 0) (c : Outputs) (hc : c.Start) (d : K)
    (n : Nat) (hn : 1 ≤ n) (hd : d ≤ n * h) (hd' : n = 1 ∨ ((n : K) - 1) * h < d) :
    ∃ s', s'.t = t + n * h ∧ s'.x = xs n ∧
      solveOde (erk m) c d n ⟨t, x, hold, Output.mkEmpty, h, e, []⟩ = some
        (c.given.map .started ++ ((List.range' 0 n).map (fun k =>
          (⟨t + ((k + 1 : Nat) : K) * h, xs (k + 1), h, true, false, Trunc.none⟩ : Note K V))).map .note
          ++ c.given.map .finished, .ok s') := by
  obtain ⟨l, a1, a2, a3, a4⟩ := erk_run hs h0 hco hq h t xs hx 0 n
    ⟨t, x, hold, Output.mkEmpty, h, e, []⟩ ⟨t, x, h, none, []⟩
    ⟨hI, rfl, rfl, rfl, fun _ => rfl, fun h hh => by simp at hh, rfl⟩ rfl (by simp) hx0.symm
  have hne : l ≠ [] := by
    intro hl; rw [hl] at a2; simp at a2; omega
  have hlast : lastOf (⟨t, x, hold, Output.mkEmpty, h, e, []⟩ : FixedSt K V E) l
      = (l[n - 1]'(by omega)).2 := by
    have h1 : l[l.length - 1]? = some (l[n - 1]'(by omega)) := by
      rw [show l.length - 1 = n - 1 by rw [a2]]
      exact List.getElem?_eq_getElem _
    unfold lastOf
    rw [List.getLast?_eq_getElem?, h1]
    rfl
  have hend := a3 (n - 1) (by omega)
  rw [show 0 + (n - 1) + 1 = n by omega] at hend
  refine ⟨_, hend.1, hend.2, ?_⟩
  refine (C44_returns (erk m) c hc d n _ _ rfl _).2 ⟨l, hne, by omega, a1, ?_, ?_, hlast.symm, by rw [a4]⟩
  · intro p hp
    obtain ⟨i, hi, rfl⟩ := List.mem_iff_getElem.1 hp
    rw [List.length_dropLast] at hi
    rw [List.getElem_dropLast]
    rw [(a3 i (by omega)).1]
    have hin : ((0 + i + 1 : Nat) : K) ≤ (n : K) - 1 := by
      have h1 : 0 + i + 1 ≤ n - 1 := by omega
      have h2 : ((0 + i + 1 : Nat) : K) ≤ ((n - 1 : Nat) : K) := by exact_mod_cast h1
      rwa [Nat.cast_sub hn, Nat.cast_one] at h2
    rcases hd' with hd' | hd'
    · omega
    · have := mul_le_mul_of_nonneg_right hin hh.le
      change t + _ < t + d
      linarith
  · rw [hend.1]
    change t + d ≤ t + n * h
    linarith

end

/-- Euler steps of 3/10 on `x' = x` over a duration of 1: four steps, the end time is overshot by 1/5; the
console output is started first and finished last. -/
example : ∃ evs s', solveOde (erk RK.eulerMethod) ⟨none, some (.ok ()), none⟩ 1 4
      ⟨0, 1, none, RK.Output.mkEmpty, 3/10, (), []⟩ = some (evs, .ok s') ∧ s'.t = 6/5 ∧
      s'.x = (13/10)^4 ∧ evs.length = 6 ∧ evs.head? = some (.started .console) ∧
      evs.getLast? = some (.finished .console) := by
  have h : ((solveOde (erk RK.eulerMethod) ⟨none, some (.ok ()), none⟩ 1 4
      ⟨0, 1, none, RK.Output.mkEmpty, 3/10, (), []⟩).map fun r =>
        (match r.2 with
          | .ok s' => decide (s'.t = 6/5 ∧ s'.x = (13/10)^4 ∧ r.1.length = 6 ∧
              r.1.head? = some (.started .console) ∧ r.1.getLast? = some (.finished .console))
          | .error _ => false)) = some true := by decide +kernel
  match hr : solveOde (erk RK.eulerMethod) ⟨none, some (.ok ()), none⟩ 1 4
      ⟨0, 1, none, RK.Output.mkEmpty, 3/10, (), []⟩ with
  | none => rw [hr] at h; cases h
  | some (evs, .error f) => rw [hr] at h; cases h
  | some (evs, .ok s') =>
    rw [hr] at h
    simp only [Option.map_some, Option.some.injEq, decide_eq_true_eq] at h
    exact ⟨evs, s', rfl, h⟩

end Verif.Driver
