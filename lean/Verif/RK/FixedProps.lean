import Verif.RK.Pack
import Verif.Witness

/-! # The fixed-step solver -/

set_option linter.unusedSectionVars false

namespace Verif.RK

open Verif.Res

section
variable {R V E : Type} [CommRing R] [DecidableEq R] [AddCommGroup V] [Module R V]

/-- No events: while `I` holds of its state, the event controller (if any) never fails and never
changes the step; and `I` keeps holding. -/
structure Quiet (ec : Option (EventCtl R V E)) (I : E → Prop) : Prop where
  start : ∀ c, ec = some c → ∀ e, I e → ∀ x t, ∃ e', c.atStepStart e x t = .ok e' ∧ I e'
  finish : ∀ c, ec = some c → ∀ e, I e → ∀ x1 x2 t2, ∃ e',
    c.atStepEnd e x1 x2 t2 = .ok (e', x2, t2, Trunc.none) ∧ I e'
  reset : ∀ c, ec = some c → ∀ e, I e → I (c.reset e)

theorem Quiet.ecStart {m : Method R V E} {I : E → Prop} (hq : Quiet m.ec I) (e : E) (hI : I e)
    (x : V) (t : R) : ∃ e', RK.ecStart m e x t = .ok e' ∧ I e' := by
  unfold RK.ecStart
  cases h : m.ec with
  | none => exact ⟨e, rfl, hI⟩
  | some c => exact hq.start c h e hI x t

theorem Quiet.ecEnd {m : Method R V E} {I : E → Prop} (hq : Quiet m.ec I) (e : E) (hI : I e)
    (x1 x2 : V) (t2 : R) : ∃ e', RK.ecEnd m e x1 x2 t2 = .ok (e', x2, t2, Trunc.none) ∧ I e' := by
  unfold RK.ecEnd
  cases h : m.ec with
  | none => exact ⟨e, rfl, hI⟩
  | some c => exact hq.finish c h e hI x1 x2 t2

/-- Calls made by the user. -/
inductive Call (R V : Type) where
  | doStep
  | setInitialState (t : R) (x : V)
  | setInitialStepSize (h : R)

def FixedSt.call (m : Method R V E) (s : FixedSt R V E) : Call R V → Res (FixedSt R V E)
  | .doStep => s.doStep m
  | .setInitialState t x => .ok (s.setInitialState m t x)
  | .setInitialStepSize h => .ok (s.setInitialStepSize h)

def FixedSt.calls (m : Method R V E) (s : FixedSt R V E) : List (Call R V) → Res (FixedSt R V E)
  | [] => .ok s
  | c :: cs => do (← s.call m c).calls m cs

/-- What the user sees: time, state, configured step size, the step size in use since the last
`setInitialState` (taken from the configuration at the first step), step sizes of all steps made
(latest first). -/
structure View (R V : Type) where
  t : R
  x : V
  hInit : R
  using? : Option R
  steps : List R

/-- The specification: each `doStep` advances by one step of the map `Φ t h x`. -/
def View.call (Φ : R → R → V → V) (v : View R V) : Call R V → View R V
  | .doStep =>
    let h := v.using?.getD v.hInit
    { v with t := v.t + h, x := Φ v.t h v.x, using? := some h, steps := h :: v.steps }
  | .setInitialState t x => { v with t := t, x := x, using? := none }
  | .setInitialStepSize h => { v with hInit := h }

/-- Step sizes reported to the post-observers; all steps must be reported as accepted, unchanged
and not truncated. -/
def reported : List (Obs R) → Option (List R)
  | [] => some []
  | .pre _ :: l => reported l
  | .post h true false tr e :: l =>
    if tr = Trunc.none ∧ e = 0 then (reported l).map (h :: ·) else none
  | .post _ _ _ _ _ :: _ => none

/-- The solver state shows the view. -/
structure Shows (T : Tableau R) (I : E → Prop) (s : FixedSt R V E) (v : View R V) : Prop where
  ec : I s.ec
  t : s.t = v.t
  x : s.x = v.x
  hInit : s.hInit = v.hInit
  fresh : v.using? = none → s.out.k = []
  busy : ∀ h, v.using? = some h → s.h = some h ∧ s.out.k.length = T.s ∧ s.out.x2.length = 1
  log : reported s.log = some v.steps

theorem doStep_shows {T : Tableau R} {m : Method R V E} (hs : 1 ≤ T.s) (h0 : T.c 0 = 0)
    (hco : m.co = T.pack 1 (-1)) {I : E → Prop} (hq : Quiet m.ec I) {s : FixedSt R V E}
    {v : View R V} (hsv : Shows T I s v) :
    ∃ s', s.doStep m = .ok s' ∧
      Shows T I s' (v.call (fun t h x => T.output m.rhs t h x 0) .doStep) := by
  have hc1 : (T.pack 1 (-1)).c.length + 1 = T.s := by simp [Tableau.pack]; omega
  obtain ⟨si, hsi⟩ : ∃ si, FixedSt.initStep m { s with log := .pre s.h :: s.log } = si := ⟨_, rfl⟩
  have hst : si.t = v.t ∧ si.x = v.x ∧ si.hInit = v.hInit ∧
      si.h = some (v.using?.getD v.hInit) ∧ si.out.k.length = T.s ∧ si.out.x2.length = 1 ∧
      si.ec = s.ec ∧ reported si.log = some v.steps := by
    unfold FixedSt.initStep at hsi
    cases hu : v.using? with
    | none =>
      rw [if_pos (by simp [hsv.fresh hu])] at hsi
      subst hsi
      refine ⟨hsv.t, hsv.x, hsv.hInit, by simp [hsv.hInit], ?_, by simp [Output.mk'], rfl, hsv.log⟩
      simp only [Output.mk', List.length_replicate, hco, hc1]
    | some h =>
      obtain ⟨b1, b2, b3⟩ := hsv.busy h hu
      have hne : ¬ s.out.k.isEmpty = true := by
        rw [List.isEmpty_iff]
        intro h
        rw [h] at b2
        simp at b2
        omega
      rw [if_neg (by simpa using hne)] at hsi
      subst hsi
      exact ⟨hsv.t, hsv.x, hsv.hInit, by simp [b1], b2, b3, rfl, hsv.log⟩
  obtain ⟨g1, g2, g3, g4, g5, g6, g7, g8⟩ := hst
  obtain ⟨e1, he1, hI1⟩ := hq.ecStart si.ec (by rw [g7]; exact hsv.ec) si.x si.t
  obtain ⟨o', k1, k2, k3, _, k5⟩ := compute_tableau si.out T m.co m.rhs si.x si.t
    (v.using?.getD v.hInit) (by rw [hco, g6]; exact pack_sizes T _ _ hs) g5
    (fun i j hi hj => by rw [hco]; exact pack_A T _ _ hi hj)
    (fun ix i hx hi => by rw [hco]; exact pack_B T _ _ (by omega) hi)
    (fun i hi => by rw [hco]; exact pack_C T _ _ h0 hi)
  have hx2 := (k5 0 (by omega)).1 (by rw [hco]; simp [Tableau.pack])
  obtain ⟨e2, he2, hI2⟩ := hq.ecEnd e1 hI1 si.x
    (T.output m.rhs si.t (v.using?.getD v.hInit) si.x 0) (si.t + v.using?.getD v.hInit)
  refine ⟨{ si with
    t := si.t + v.using?.getD v.hInit
    x := T.output m.rhs si.t (v.using?.getD v.hInit) si.x 0
    out := { o' with x2 := o'.x2.set 0 si.x }
    ec := e2
    log := .post (v.using?.getD v.hInit) true false Trunc.none 0 :: si.log }, ?_, ?_⟩
  · unfold FixedSt.doStep
    simp only [hsi, he1, bind_ok, g4, readH, k1, raw_of_getElem? hx2, he2]
    unfold rawSet
    rw [if_pos (by omega)]
    simp only [bind_ok]
  · refine ⟨hI2, ?_, ?_, ?_, ?_, ?_, ?_⟩
    · simp only [View.call, g1]
    · simp only [View.call, g1, g2]
    · simp only [View.call, g3]
    · intro h; simp [View.call] at h
    · intro h hh
      simp only [View.call, Option.some.injEq] at hh
      exact ⟨by rw [← hh]; exact g4, k2, by simp only [List.length_set]; omega⟩
    · simp only [View.call, reported, g8]
      simp

theorem call_shows {T : Tableau R} {m : Method R V E} (hs : 1 ≤ T.s) (h0 : T.c 0 = 0)
    (hco : m.co = T.pack 1 (-1)) {I : E → Prop} (hq : Quiet m.ec I) {s : FixedSt R V E}
    {v : View R V} (hsv : Shows T I s v) (c : Call R V) :
    ∃ s', s.call m c = .ok s' ∧ Shows T I s' (v.call (fun t h x => T.output m.rhs t h x 0) c) := by
  cases c with
  | doStep => exact doStep_shows hs h0 hco hq hsv
  | setInitialState t x =>
    refine ⟨_, rfl, ⟨?_, rfl, rfl, hsv.hInit, fun _ => rfl, fun h hh => ?_, hsv.log⟩⟩
    · unfold FixedSt.setInitialState
      dsimp only
      split
      · exact hq.reset _ (by assumption) _ hsv.ec
      · exact hsv.ec
    · simp [View.call] at hh
  | setInitialStepSize h =>
    exact ⟨_, rfl, ⟨hsv.ec, hsv.t, hsv.x, rfl, hsv.fresh, hsv.busy, hsv.log⟩⟩

/-- C28. For every history of calls the fixed-step solver does not fail and shows exactly what the
specification says: time, state and the steps reported to the observers. -/
theorem C28_history (T : Tableau R) (m : Method R V E) (hs : 1 ≤ T.s) (h0 : T.c 0 = 0)
    (hco : m.co = T.pack 1 (-1)) (I : E → Prop) (hq : Quiet m.ec I) (t : R) (x : V)
    (h : Option R) (hInit : R) (e : E) (hI : I e) (cs : List (Call R V)) :
    ∃ s, (⟨t, x, h, Output.mkEmpty, hInit, e, []⟩ : FixedSt R V E).calls m cs = .ok s ∧
      let v := cs.foldl (View.call (fun t h x => T.output m.rhs t h x 0)) ⟨t, x, hInit, none, []⟩
      s.t = v.t ∧ s.x = v.x ∧ reported s.log = some v.steps := by
  have gen : ∀ (cs : List (Call R V)) (s : FixedSt R V E) (v : View R V), Shows T I s v →
      ∃ s', s.calls m cs = .ok s' ∧
        Shows T I s' (cs.foldl (View.call (fun t h x => T.output m.rhs t h x 0)) v) := by
    intro cs
    induction cs with
    | nil => intro s v h; exact ⟨s, rfl, h⟩
    | cons c cs ih =>
      intro s v hsv
      obtain ⟨s', h1, h2⟩ := call_shows hs h0 hco hq hsv c
      obtain ⟨s'', h3, h4⟩ := ih s' _ h2
      refine ⟨s'', ?_, h4⟩
      unfold FixedSt.calls
      rw [h1]
      simp only [bind_ok]
      exact h3
  obtain ⟨s, h1, h2⟩ := gen cs ⟨t, x, h, Output.mkEmpty, hInit, e, []⟩ ⟨t, x, hInit, none, []⟩
    ⟨hI, rfl, rfl, rfl, fun _ => rfl, fun h hh => by simp at hh, rfl⟩
  exact ⟨s, h1, h2.t, h2.x, h2.log⟩

/-- C28. After `n` calls of `doStep` from `(t₀, x₀)` with step `h`: time `t₀ + n h`, the state is
the `n`-fold iterate of the method, and observers have seen `n` steps of size `h`. -/
theorem C28_iterate (T : Tableau R) (m : Method R V E) (hs : 1 ≤ T.s) (h0 : T.c 0 = 0)
    (hco : m.co = T.pack 1 (-1)) (I : E → Prop) (hq : Quiet m.ec I) (t t₀ h : R)
    (x x₀ : V) (hold : Option R) (e : E) (hI : I e) (xs : Nat → V) (hx0 : xs 0 = x₀)
    (hx : ∀ k, xs (k + 1) = T.output m.rhs (t₀ + k * h) h (xs k) 0) (n : Nat) :
    ∃ s, (⟨t, x, hold, Output.mkEmpty, h, e, []⟩ : FixedSt R V E).calls m
        (.setInitialState t₀ x₀ :: List.replicate n .doStep) = .ok s ∧
      s.t = t₀ + n * h ∧ s.x = xs n ∧ reported s.log = some (List.replicate n h) := by
  obtain ⟨s, h1, h2⟩ := C28_history T m hs h0 hco I hq t x hold h e hI
    (.setInitialState t₀ x₀ :: List.replicate n .doStep)
  refine ⟨s, h1, ?_⟩
  have gen : ∀ n, ∃ v : View R V, (Call.setInitialState t₀ x₀ :: List.replicate n Call.doStep).foldl
        (View.call (fun t h x => T.output m.rhs t h x 0)) ⟨t, x, h, none, []⟩ = v ∧
      v.t = t₀ + n * h ∧ v.x = xs n ∧ v.steps = List.replicate n h ∧ v.hInit = h ∧
        v.using?.getD v.hInit = h := by
    intro n
    induction n with
    | zero => exact ⟨_, rfl, by simp [View.call], by simp [View.call, hx0], rfl, rfl, rfl⟩
    | succ n ih =>
      obtain ⟨v, a0, a1, a2, a3, a4, a5⟩ := ih
      refine ⟨v.call (fun t h x => T.output m.rhs t h x 0) .doStep, ?_, ?_, ?_, ?_, a4, ?_⟩
      · rw [List.replicate_succ', ← List.cons_append, List.foldl_append, a0]
        rfl
      · simp only [View.call]; rw [a1, a5]; push_cast; ring
      · simp only [View.call]; rw [a1, a2, a5, hx n]
      · simp only [View.call]; rw [a3, a5]; rfl
      · simp only [View.call]; rw [a5]; rfl
  obtain ⟨v, b0, b1, b2, b3, _, _⟩ := gen n
  simp only [b0] at h2
  obtain ⟨c1, c2, c3⟩ := h2
  exact ⟨c1.trans b1, c2.trans b2, by rw [c3, b3]⟩

/-- C66. After the first step since `setInitialState`, pre-observers are told the size of the
step being made. -/
theorem C66_later_steps_partial (m : Method R V E)
    (s s' : FixedSt R V E) (h : s.doStep m = .ok s') (hk : s.out.k ≠ []) (hl : s.h ≠ none) :
    ∃ h tr, s'.log = .post h true false tr 0 :: .pre (some h) :: s.log := by
  obtain ⟨hv, hh⟩ := Option.ne_none_iff_exists'.1 hl
  unfold FixedSt.doStep at h
  have hi : FixedSt.initStep m { s with log := .pre s.h :: s.log }
      = { s with log := .pre s.h :: s.log } := by
    unfold FixedSt.initStep
    rw [if_neg (by simpa [List.isEmpty_iff] using hk)]
  simp only [hi] at h
  simp only [hh, readH] at h
  cases he : RK.ecStart m s.ec s.x s.t with
  | error _ => rw [he] at h; cases h
  | ok e1 =>
    rw [he] at h
    simp only [bind_ok] at h
    cases hc : compute s.out m.co m.rhs s.x s.t hv with
    | error _ => rw [hc] at h; cases h
    | ok o' =>
      rw [hc] at h
      simp only [bind_ok] at h
      cases hr : raw o'.x2 0 with
      | error _ => rw [hr] at h; cases h
      | ok nx =>
        rw [hr] at h
        simp only [bind_ok] at h
        cases hn : RK.ecEnd m e1 s.x nx (s.t + hv) with
        | error _ => rw [hn] at h; cases h
        | ok q =>
          rw [hn] at h
          simp only [bind_ok] at h
          cases hw : rawSet o'.x2 0 s.x with
          | error _ => rw [hw] at h; cases h
          | ok x2 =>
            rw [hw] at h
            simp only [bind_ok] at h
            cases h
            exact ⟨hv, q.2.2.2, rfl⟩

end

/-- Explicit Euler on `x' = x`. -/
def eulerMethod : Method ℚ ℚ Unit :=
  ⟨(⟨1, fun _ _ => 0, fun _ _ => 1, fun _ => 0⟩ : Tableau ℚ).pack 1 (-1), fun _ x => x, none⟩

/-- C66 is false for the first step: the pre-observers get an uninitialised value at the very
first step, and the step size of the previous run after `setInitialState`. -/
theorem C66_first_step_false :
    ∃ s, (⟨0, 1, none, Output.mkEmpty, 1/2, (), []⟩ : FixedSt ℚ ℚ Unit).calls eulerMethod
        [.doStep, .setInitialStepSize (1/4), .setInitialState 0 1, .doStep] = .ok s ∧
      s.log = [.post (1/4) true false Trunc.none 0, .pre (some (1/2)),
        .post (1/2) true false Trunc.none 0, .pre none] := by
  obtain ⟨s, h1, h2⟩ := exists_of_test
    (r := (⟨0, 1, none, Output.mkEmpty, 1/2, (), []⟩ : FixedSt ℚ ℚ Unit).calls eulerMethod
        [.doStep, .setInitialStepSize (1/4), .setInitialState 0 1, .doStep])
    (p := fun s => decide (s.log = [.post (1/4) true false Trunc.none 0, .pre (some (1/2)),
        .post (1/2) true false Trunc.none 0, .pre none])) (by decide +kernel)
  exact ⟨s, h1, of_decide_eq_true h2⟩

/-- The coded tableaux are of the form required in `C28_history`. -/
example : (euler.tableau 1).pack 1 (-1) = euler ∧ (rk4.tableau 4).pack 1 (-1) = rk4 ∧
    (euler.tableau 1).c 0 = 0 ∧ (rk4.tableau 4).c 0 = 0 := by
  refine ⟨?_, ?_, rfl, rfl⟩
  · have h : ∀ c d : Coefficients ℚ, c.a = d.a → c.b = d.b → c.c = d.c → c.lastK = d.lastK →
        c = d := by rintro ⟨⟩ ⟨⟩ rfl rfl rfl rfl; rfl
    exact h _ _ (by decide +kernel) (by decide +kernel) (by decide +kernel) rfl
  · have h : ∀ c d : Coefficients ℚ, c.a = d.a → c.b = d.b → c.c = d.c → c.lastK = d.lastK →
        c = d := by rintro ⟨⟩ ⟨⟩ rfl rfl rfl rfl; rfl
    exact h _ _ (by decide +kernel) (by decide +kernel) (by decide +kernel) rfl

/-- Three Euler steps of size 1/2 on `x' = x`, a change of the configured step that has no effect
on the run, and a restart that uses it. -/
example : ∃ s, (⟨0, 1, none, Output.mkEmpty, 1/2, (), []⟩ : FixedSt ℚ ℚ Unit).calls eulerMethod
        [.doStep, .doStep, .setInitialStepSize (1/4), .doStep, .setInitialState 7 8, .doStep]
          = .ok s ∧ s.t = 29/4 ∧ s.x = 10 ∧ reported s.log = some [1/4, 1/2, 1/2, 1/2] := by
  obtain ⟨s, h1, h2⟩ := exists_of_test
    (r := (⟨0, 1, none, Output.mkEmpty, 1/2, (), []⟩ : FixedSt ℚ ℚ Unit).calls eulerMethod
        [.doStep, .doStep, .setInitialStepSize (1/4), .doStep, .setInitialState 7 8, .doStep])
    (p := fun s => decide (s.t = 29/4 ∧ s.x = 10 ∧ reported s.log = some [1/4, 1/2, 1/2, 1/2]))
    (by decide +kernel)
  exact ⟨s, h1, of_decide_eq_true h2⟩

end Verif.RK
