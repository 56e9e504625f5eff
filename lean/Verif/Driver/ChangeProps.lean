import Verif.Driver.Solvers
import Verif.Event.Model
import Verif.RK.Attempt
import Verif.RK.Kernel
import Verif.RK.Orders
import Mathlib.Algebra.Module.LinearMap.Basic
import Mathlib.LinearAlgebra.Prod
import Mathlib.Tactic.Module
import Mathlib.Tactic.Linarith

/-!
# Changes of variables and of time (C142)

A model written in other variables, other units or with another origin of time gives the same run in those variables.
-/

set_option linter.unusedSectionVars false
set_option linter.unusedSimpArgs false

namespace Verif.Driver.Variables

open Verif.Res RK

section
variable {K V W E E' : Type} [Field K] [LinearOrder K] [IsStrictOrderedRing K] [AddCommGroup V] [Module K V] [AddCommGroup W]
  [Module K W]

/-- New variables `L x + b`, new time `c t + τ` -/
structure Change (K V W : Type) [Field K] [AddCommGroup V] [Module K V] [AddCommGroup W] [Module K W] where
  L : V →ₗ[K] W
  b : W
  c : K
  τ : K

namespace Change

variable (M : Change K V W)

/-- New time -/
def time (t : K) : K := M.c * t + M.τ

/-- New variables -/
def state (x : V) : W := M.L x + M.b

/-- A report in the new variables -/
def note (n : Note K V) : Note K W := ⟨M.time n.time, M.state n.state, M.c * n.h, n.accepted, n.changed, n.tr⟩

/-- An event in the new variables -/
def event : Ev K V → Ev K W
  | .started o => .started o
  | .note n => .note (M.note n)
  | .finished o => .finished o

/-- `g` is the right-hand side `f` written in the new variables. -/
def Rhs (f : K → V → V) (g : K → W → W) : Prop := ∀ t x, M.L (f t x) = M.c • g (M.time t) (M.state x)

/-- The second event controller does in the new variables what the first does; `φ` translates their states. -/
structure Events (φ : E → E') (C : EventCtl K V E) (C' : EventCtl K W E') : Prop where
  start : ∀ e x t, C'.atStepStart (φ e) (M.state x) (M.time t) = (C.atStepStart e x t).map φ
  stop : ∀ e x1 x2 t, C'.atStepEnd (φ e) (M.state x1) (M.state x2) (M.time t) =
    (C.atStepEnd e x1 x2 t).map fun r => (φ r.1, M.state r.2.1, M.time r.2.2.1, r.2.2.2)

/-- Both methods have no event controller, or have related ones. -/
def Controllers (φ : E → E') : Option (EventCtl K V E) → Option (EventCtl K W E') → Prop
  | none, none => True
  | some C, some C' => M.Events φ C C'
  | _, _ => False

/-- Outcomes of runs that are the same in the new variables -/
def Same (r : Option (List (Ev K V) × Res (FixedSt K V E))) (r' : Option (List (Ev K W) × Res (FixedSt K W E'))) : Prop :=
  match r, r' with
  | none, none => True
  | some (evs, .ok s), some (evs', .ok s') => evs' = evs.map M.event ∧ s'.t = M.time s.t ∧ s'.x = M.state s.x
  | some (evs, .error e), some (evs', .error e') => evs' = evs.map M.event ∧ e' = e
  | _, _ => False

end Change

/-- A solver that has not been used, at time `t` with state `x` and initial step size `h` -/
def begin (t : K) (x : V) (h : K) (e : E) : FixedSt K V E := ⟨t, x, none, Output.mkEmpty, h, e, []⟩

/-! ### The kernel -/

/-- The method has the coefficients its kernel reads, and its outputs do not use a stage that is not computed. -/
structure Fits (co : Coefficients K) (n : Nat) : Prop where
  sizes : co.Sizes (co.c.length + 1) n
  last : co.c = [] → co.lastK < 0

variable {M : Change K V W}

theorem Change.state_add (x v : V) : M.state (x + v) = M.state x + M.L v := by
  unfold Change.state
  rw [map_add]
  abel

theorem Change.time_add (t h : K) : M.time (t + h) = M.time t + M.c * h := by
  unfold Change.time
  ring

theorem compute_change {f : K → V → V} {g : K → W → W} (hfg : M.Rhs f g) {co : Coefficients K} {n : Nat} (hc : Fits co n)
    (o : Output V) (o' : Output W) (hk : o.k.length = co.c.length + 1) (hk' : o'.k.length = co.c.length + 1)
    (hx : o.x2.length = n) (hx' : o'.x2.length = n) (x : V) (t h : K) :
    ∃ u u', compute o co f x t h = .ok u ∧ compute o' co g (M.state x) (M.time t) (M.c * h) = .ok u' ∧
      u.k.length = co.c.length + 1 ∧ u'.k.length = co.c.length + 1 ∧ u.x2.length = n ∧ u'.x2.length = n ∧
      ∀ i, i < n → u'.x2.getD i 0 = M.state (u.x2.getD i 0) := by
  obtain ⟨u, e1, l1, l2, st, out⟩ := compute_ok o co f x t h (by rw [hk, hx]; exact hc.sizes)
  obtain ⟨u', e1', l1', l2', st', out'⟩ := compute_ok o' co g (M.state x) (M.time t) (M.c * h) (by rw [hk', hx']; exact hc.sizes)
  refine ⟨u, u', e1, e1', by rw [l1, hk], by rw [l1', hk'], by rw [l2, hx], by rw [l2', hx'], ?_⟩
  rw [hk] at st out
  rw [hk'] at st' out'
  have comb : ∀ (s : Nat) (a : Nat → K), (∀ j, j < s → M.L (u.k.getD j 0) = M.c • u'.k.getD j 0) →
      M.state (x + h • ∑ j ∈ Finset.range s, a j • u.k.getD j 0) =
        M.state x + (M.c * h) • ∑ j ∈ Finset.range s, a j • u'.k.getD j 0 := by
    intro s a hs
    rw [Change.state_add, map_smul, map_sum, mul_comm M.c h, mul_smul, Finset.smul_sum (r := M.c)]
    congr 2
    refine Finset.sum_congr rfl fun j hj => ?_
    rw [map_smul, hs j (Finset.mem_range.1 hj), smul_comm]
  have stages : ∀ i, i < co.c.length + 1 → M.L (u.k.getD i 0) = M.c • u'.k.getD i 0 := by
    intro i
    induction i using Nat.strong_induction_on with
    | _ i ih =>
      intro hi
      rw [st i hi, st' i hi, hfg, comb i _ (fun j hj => ih j hj (by omega)), Change.time_add]
      ring_nf
  intro i hi
  obtain ⟨p1, p2, -⟩ := out i (by omega)
  obtain ⟨q1, q2, -⟩ := out' i (by omega)
  by_cases hl : (i : Int) = co.lastK
  · have h2 : 2 ≤ co.c.length + 1 := by
      by_contra hn
      have := hc.last (List.length_eq_zero_iff.1 (by omega))
      omega
    rw [p2 hl h2, q2 hl h2, comb _ _ (fun j hj => stages j (by omega))]
  · rw [p1 hl, q1 hl, comb _ _ stages]

/-! ### Steps -/

/-- A call of an observer in the new variables -/
def Change.obs (M : Change K V W) : Obs K → Obs K
  | .pre h => .pre (h.map (M.c * ·))
  | .post h a ch tr err => .post (M.c * h) a ch tr err

/-- States of solvers that are the same in the new variables -/
structure Alike (M : Change K V W) (φ : E → E') (co : Coefficients K) (n : Nat) (s : FixedSt K V E) (s' : FixedSt K W E') :
    Prop where
  t : s'.t = M.time s.t
  x : s'.x = M.state s.x
  h : s'.h = s.h.map (M.c * ·)
  hInit : s'.hInit = M.c * s.hInit
  ec : s'.ec = φ s.ec
  log : s'.log = s.log.map M.obs
  buffers : (s.out.k = [] ∧ s'.out.k = []) ∨ (s.out.k.length = co.c.length + 1 ∧ s'.out.k.length = co.c.length + 1 ∧
    s.out.x2.length = n ∧ s'.out.x2.length = n)

/-- Results related by `R`, or the same fault -/
def Both {A B : Type} (R : A → B → Prop) : Res A → Res B → Prop
  | .ok a, .ok b => R a b
  | .error e, .error e' => e' = e
  | _, _ => False

theorem Both.bind {A B A' B' : Type} {R : A → A' → Prop} {Q : B → B' → Prop} {r : Res A} {r' : Res A'} {f : A → Res B}
    {f' : A' → Res B'} (h : Both R r r') (hf : ∀ a a', R a a' → Both Q (f a) (f' a')) : Both Q (r >>= f) (r' >>= f') := by
  cases r <;> cases r' <;> first | exact h | exact h.elim | exact hf _ _ h

theorem Both.map {A C : Type} {R : A → C → Prop} (r : Res A) (f : A → C) (h : ∀ a, R a (f a)) : Both R r (r.map f) := by
  cases r with
  | error e => exact rfl
  | ok a => exact h a

theorem Alike.push {φ : E → E'} {co : Coefficients K} {n : Nat} {s : FixedSt K V E} {s' : FixedSt K W E'} (hs : Alike M φ co n s s')
    {a : Obs K} {b : Obs K} (h : b = M.obs a) : Alike M φ co n { s with log := a :: s.log } { s' with log := b :: s'.log } :=
  ⟨hs.t, hs.x, hs.h, hs.hInit, hs.ec, by rw [hs.log, h]; rfl, hs.buffers⟩

theorem start_change {φ : E → E'} {m : Method K V E} {m' : Method K W E'} (he : M.Controllers φ m.ec m'.ec) (e : E) (x : V) (t : K) :
    Both (fun a b => b = φ a) (ecStart m e x t) (ecStart m' (φ e) (M.state x) (M.time t)) := by
  unfold ecStart
  rcases hm : m.ec with _ | C <;> rcases hm' : m'.ec with _ | C' <;> rw [hm, hm'] at he
  · exact rfl
  · exact he.elim
  · exact he.elim
  · simp only [he.start]
    exact Both.map _ _ fun _ => rfl

theorem stop_change {φ : E → E'} {m : Method K V E} {m' : Method K W E'} (he : M.Controllers φ m.ec m'.ec) (e : E) (x1 x2 : V) (t : K) :
    Both (fun a b => b = (φ a.1, M.state a.2.1, M.time a.2.2.1, a.2.2.2)) (ecEnd m e x1 x2 t)
      (ecEnd m' (φ e) (M.state x1) (M.state x2) (M.time t)) := by
  unfold ecEnd
  rcases hm : m.ec with _ | C <;> rcases hm' : m'.ec with _ | C' <;> rw [hm, hm'] at he
  · exact rfl
  · exact he.elim
  · exact he.elim
  · simp only [he.stop]
    exact Both.map _ _ fun _ => rfl

theorem readH_change (h : Option K) : Both (fun a b => b = M.c * a) (readH h) (readH (h.map (M.c * ·))) := by
  cases h <;> exact rfl

theorem init_change {φ : E → E'} {m : Method K V E} {m' : Method K W E'} (hco : m'.co = m.co) {s : FixedSt K V E}
    {s' : FixedSt K W E'} (hs : Alike M φ m.co 1 s s') :
    Alike M φ m.co 1 (s.initStep m) (s'.initStep m') ∧ (s.initStep m).out.k.length = m.co.c.length + 1 ∧
      (s'.initStep m').out.k.length = m.co.c.length + 1 ∧ (s.initStep m).out.x2.length = 1 ∧ (s'.initStep m').out.x2.length = 1 := by
  obtain ⟨h1, h2, h3, h4, h5, h6, h7⟩ := hs
  unfold FixedSt.initStep
  rcases h7 with ⟨k1, k2⟩ | ⟨k1, k2, k3, k4⟩
  · rw [if_pos (by simp [k1]), if_pos (by simp [k2]), hco]
    exact ⟨⟨h1, h2, by simp [h4], h4, h5, h6, .inr (by simp [Output.mk'])⟩, by simp [Output.mk'], by simp [Output.mk'],
      by simp [Output.mk'], by simp [Output.mk']⟩
  · rw [if_neg (by rw [List.isEmpty_iff]; intro h; rw [h] at k1; simp at k1),
      if_neg (by rw [List.isEmpty_iff]; intro h; rw [h] at k2; simp at k2)]
    exact ⟨⟨h1, h2, h3, h4, h5, h6, .inr ⟨k1, k2, k3, k4⟩⟩, k1, k2, k3, k4⟩

theorem raw_first {A : Type} {l : List A} (d : A) {i : Nat} (h : i < l.length) : raw l i = .ok (l.getD i d) := raw_getD d h

theorem step_change {φ : E → E'} {m : Method K V E} {m' : Method K W E'} (hco : m'.co = m.co) (hc : Fits m.co 1)
    (hfg : M.Rhs m.rhs m'.rhs) (he : M.Controllers φ m.ec m'.ec) {s : FixedSt K V E} {s' : FixedSt K W E'}
    (hs : Alike M φ m.co 1 s s') : Both (Alike M φ m.co 1) (s.doStep m) (s'.doStep m') := by
  have hs1 : Alike M φ m.co 1 { s with log := .pre s.h :: s.log } { s' with log := .pre s'.h :: s'.log } :=
    hs.push (by rw [hs.h]; rfl)
  unfold FixedSt.doStep
  obtain ⟨hi, i1, i2, i3, i4⟩ := init_change hco hs1
  simp only
  generalize FixedSt.initStep m { s with log := .pre s.h :: s.log } = a at hi i1 i3
  generalize FixedSt.initStep m' { s' with log := .pre s'.h :: s'.log } = a' at hi i2 i4
  rw [hi.ec, hi.x, hi.t, hi.h, hco]
  refine Both.bind (start_change he a.ec a.x a.t) fun e e' hee => ?_
  subst hee
  refine Both.bind (readH_change a.h) fun h h' hh => ?_
  subst hh
  obtain ⟨u, u', c1, c2, l1, l2, l3, l4, hx⟩ := compute_change hfg hc a.out a'.out i1 i2 i3 i4 a.x a.t h
  rw [c1, c2]
  simp only [bind_ok]
  rw [raw_first 0 (by omega), raw_first 0 (by omega), hx 0 (by omega)]
  simp only [bind_ok]
  rw [← Change.time_add]
  refine Both.bind (stop_change he e a.x _ _) fun r r' hr => ?_
  subst hr
  unfold rawSet
  rw [if_pos (by omega), if_pos (by omega)]
  simp only [bind_ok]
  exact ⟨rfl, rfl, rfl, hi.hInit, rfl, by
    show Obs.post _ _ _ _ _ :: a'.log = _
    rw [hi.log]
    rfl, .inr ⟨l1, l2, by simp [l3], by simp [l4]⟩⟩

/-! ### Runs -/

theorem loop_change {S S' : Type} (sv : Solver K V S) (sv' : Solver K W S') (R : S → S' → Prop) (hc : 0 < M.c)
    (ht : ∀ s s', R s s' → sv'.time s' = M.time (sv.time s))
    (hst : ∀ s s', R s s' → (sv'.doStep s').1 = (sv.doStep s).1.map M.note ∧ Both R (sv.doStep s).2 (sv'.doStep s').2)
    (e : K) (fuel : Nat) (s : S) (s' : S') (hs : R s s') :
    match runLoop sv e fuel s, runLoop sv' (M.time e) fuel s' with
    | none, none => True
    | some (ns, r), some (ns', r') => ns' = ns.map M.note ∧ Both R r r'
    | _, _ => False := by
  induction fuel generalizing s s' with
  | zero => trivial
  | succ fuel ih =>
    unfold runLoop
    obtain ⟨h1, h2⟩ := hst s s' hs
    rcases hd : sv.doStep s with ⟨ns, r⟩
    rcases hd' : sv'.doStep s' with ⟨ns', r'⟩
    rw [hd, hd'] at h1 h2
    simp only at h1 h2
    cases r with
    | error f =>
      cases r' with
      | error f' => exact ⟨h1, h2⟩
      | ok b => exact h2.elim
    | ok a =>
      cases r' with
      | error f' => exact h2.elim
      | ok b =>
        simp only
        have hlt : sv'.time b < M.time e ↔ sv.time a < e := by
          rw [ht a b h2]
          unfold Change.time
          constructor
          · intro h; exact lt_of_mul_lt_mul_left (by linarith) hc.le
          · intro h; linarith [mul_lt_mul_of_pos_left h hc]
        by_cases hl : sv.time a < e
        · rw [if_pos hl, if_pos (hlt.2 hl)]
          have := ih a b h2
          rcases h3 : runLoop sv e fuel a with _ | ⟨n2, r2⟩ <;> rcases h4 : runLoop sv' (M.time e) fuel b with _ | ⟨n2', r2'⟩ <;>
            rw [h3, h4] at this <;> simp only [Option.map_none, Option.map_some]
          · exact this.elim
          · exact this.elim
          · exact ⟨by rw [h1, this.1, List.map_append], this.2⟩
        · rw [if_neg hl, if_neg (fun h => hl (hlt.1 h))]
          exact ⟨h1, h2⟩

theorem run_change {φ : E → E'} {co : Coefficients K} {n : Nat} (sv : Solver K V (FixedSt K V E))
    (sv' : Solver K W (FixedSt K W E')) (hr : ∀ s, sv.hasRhs s = true) (hr' : ∀ s, sv'.hasRhs s = true)
    (ht : ∀ s, sv.time s = s.t) (ht' : ∀ s, sv'.time s = s.t) (hc : 0 < M.c)
    (hst : ∀ s s', Alike M φ co n s s' → (sv'.doStep s').1 = (sv.doStep s).1.map M.note ∧
      Both (Alike M φ co n) (sv.doStep s).2 (sv'.doStep s').2)
    (o : Outputs) (d : K) (fuel : Nat) (s : FixedSt K V E) (s' : FixedSt K W E') (hs : Alike M φ co n s s') :
    M.Same (solveOde sv o d fuel s) (solveOde sv' o (M.c * d) fuel s') := by
  unfold solveOde
  rw [if_pos (hr s), if_pos (hr' s')]
  have hev : ∀ l : List Slot, (l.map (Ev.started : Slot → Ev K V)).map M.event = l.map .started := fun l => by
    rw [List.map_map]; rfl
  have hev2 : ∀ l : List Slot, (l.map (Ev.finished : Slot → Ev K V)).map M.event = l.map .finished := fun l => by
    rw [List.map_map]; rfl
  have hev3 : ∀ l : List (Note K V), (l.map Ev.note).map M.event = (l.map M.note).map .note := fun l => by
    rw [List.map_map, List.map_map]; rfl
  rcases initOutput o with ⟨l, f | ⟨⟩⟩
  · exact ⟨(hev l).symm, rfl⟩
  · simp only
    have := loop_change sv sv' (Alike M φ co n) hc (fun a b h => by rw [ht, ht']; exact h.t) hst (sv.time s + d) fuel s s' hs
    rw [Change.time_add] at this
    rw [show sv'.time s' = M.time (sv.time s) by rw [ht, ht']; exact hs.t]
    rcases h3 : runLoop sv (sv.time s + d) fuel s with _ | ⟨n2, r2⟩ <;>
      rcases h4 : runLoop sv' (M.time (sv.time s) + M.c * d) fuel s' with _ | ⟨n2', r2'⟩ <;> rw [h3, h4] at this
    · trivial
    · exact this.elim
    · exact this.elim
    · obtain ⟨k1, k2⟩ := this
      cases r2 <;> cases r2'
      · exact ⟨by rw [k1, List.map_append, hev, hev3], k2⟩
      · exact k2.elim
      · exact k2.elim
      · exact ⟨by rw [k1, List.map_append, List.map_append, hev, hev2, hev3], k2.t, k2.x⟩

theorem begin_alike (φ : E → E') (co : Coefficients K) (n : Nat) (t : K) (x : V) (h : K) (e : E) :
    Alike M φ co n (begin t x h e) (begin (M.time t) (M.state x) (M.c * h) (φ e)) :=
  ⟨rfl, rfl, rfl, rfl, rfl, rfl, .inl ⟨rfl, rfl⟩⟩

/-- C142, constant step size: a run in the new variables is the run in the old ones, written in the new variables: the same reports
in the same order, the same outcome. -/
theorem C142_fixed (hc : 0 < M.c) (φ : E → E') (m : Method K V E) (m' : Method K W E') (hco : m'.co = m.co) (hf : Fits m.co 1)
    (hfg : M.Rhs m.rhs m'.rhs) (he : M.Controllers φ m.ec m'.ec) (o : Outputs) (t : K) (x : V) (h d : K) (e : E) (fuel : Nat) :
    M.Same (solveOde (erk m) o d fuel (begin t x h e))
      (solveOde (erk m') o (M.c * d) fuel (begin (M.time t) (M.state x) (M.c * h) (φ e))) := by
  refine run_change (φ := φ) (co := m.co) (n := 1) (erk m) (erk m') (fun _ => rfl) (fun _ => rfl) (fun _ => rfl) (fun _ => rfl) hc
    (fun s s' hs => ?_) o d fuel _ _ (begin_alike ..)
  have := step_change hco hf hfg he hs
  simp only [erk]
  rcases h1 : s.doStep m with f | a <;> rcases h2 : s'.doStep m' with f' | b <;> rw [h1, h2] at this
  · exact ⟨rfl, this⟩
  · exact this.elim
  · exact this.elim
  · refine ⟨?_, this⟩
    obtain ⟨k, tr, l, hl⟩ := erk_log m s a h1
    simp only [erkNotes, this.log, hl, List.map_cons, Change.obs, this.t, this.x]
    rfl

/-! ### Error control -/

/-- The answer of the controller for the new unit of time -/
def Change.answer (M : Change K V W) (r : CtlResult K) : CtlResult K := ⟨M.c * r.newStepSize, r.acceptStep, r.changeStepSize⟩

/-- The second method is the first in the new variables. -/
structure Change.Method (M : Change K V W) (φ : E → E') (m : EmbMethod K V E) (m' : EmbMethod K W E') : Prop where
  co : m'.co = m.co
  rhs : M.Rhs m.rhs m'.rhs
  ec : M.Controllers φ m.ec m'.ec
  order : m'.lowOrder = m.lowOrder
  disable : m'.disableErrorCheck = m.disableErrorCheck
  force : m'.forceErrorCalc = m.forceErrorCalc
  after : m'.hAfterSwitch = M.c * m.hAfterSwitch
  mode : m'.lowMode = m.lowMode
  hMin : m'.hMin = M.c * m.hMin
  norm : ∀ v, m'.norm (M.L v) = m.norm v
  control : ∀ h err k, m'.control (M.c * h) err k = M.answer (m.control h err k)

theorem init2_change {φ : E → E'} {m : EmbMethod K V E} {m' : EmbMethod K W E'} (hco : m'.co = m.co) {s : FixedSt K V E}
    {s' : FixedSt K W E'} (hs : Alike M φ m.co 2 s s') :
    Alike M φ m.co 2 (s.initStep2 m) (s'.initStep2 m') ∧ (s.initStep2 m).out.k.length = m.co.c.length + 1 ∧
      (s'.initStep2 m').out.k.length = m.co.c.length + 1 ∧ (s.initStep2 m).out.x2.length = 2 ∧
      (s'.initStep2 m').out.x2.length = 2 := by
  obtain ⟨h1, h2, h3, h4, h5, h6, h7⟩ := hs
  unfold FixedSt.initStep2
  rcases h7 with ⟨k1, k2⟩ | ⟨k1, k2, k3, k4⟩
  · rw [if_pos (by simp [k1]), if_pos (by simp [k2]), hco]
    exact ⟨⟨h1, h2, by simp [h4], h4, h5, h6, .inr (by simp [Output.mk'])⟩, by simp [Output.mk'], by simp [Output.mk'],
      by simp [Output.mk'], by simp [Output.mk']⟩
  · rw [if_neg (by rw [List.isEmpty_iff]; intro h; rw [h] at k1; simp at k1),
      if_neg (by rw [List.isEmpty_iff]; intro h; rw [h] at k2; simp at k2)]
    exact ⟨⟨h1, h2, h3, h4, h5, h6, .inr ⟨k1, k2, k3, k4⟩⟩, k1, k2, k3, k4⟩

/-- Outcomes of attempts that are the same in the new variables -/
def AlikeA (M : Change K V W) (φ : E → E') (co : Coefficients K) : Attempt (FixedSt K V E) → Attempt (FixedSt K W E') → Prop
  | .accepted s, .accepted s' => Alike M φ co 2 s s'
  | .rejected s, .rejected s' => Alike M φ co 2 s s'
  | .thrown msg s, .thrown msg' s' => msg' = msg ∧ Alike M φ co 2 s s'
  | _, _ => False

theorem attempt_change (hc : 0 < M.c) {φ : E → E'} {m : EmbMethod K V E} {m' : EmbMethod K W E'} (hm : M.Method φ m m')
    (hf : Fits m.co 2) {s : FixedSt K V E} {s' : FixedSt K W E'} (hs : Alike M φ m.co 2 s s') :
    Both (AlikeA M φ m.co) (s.attempt m) (s'.attempt m') := by
  have hs1 : Alike M φ m.co 2 { s with log := .pre s.h :: s.log } { s' with log := .pre s'.h :: s'.log } :=
    hs.push (by rw [hs.h]; rfl)
  unfold FixedSt.attempt
  obtain ⟨hi, i1, i2, i3, i4⟩ := init2_change hm.co hs1
  simp only
  generalize FixedSt.initStep2 m { s with log := .pre s.h :: s.log } = a at hi i1 i3
  generalize FixedSt.initStep2 m' { s' with log := .pre s'.h :: s'.log } = a' at hi i2 i4
  rw [hi.ec, hi.x, hi.t, hi.h, hm.co]
  refine Both.bind (start_change hm.ec a.ec a.x a.t) fun e e' hee => ?_
  subst hee
  refine Both.bind (readH_change a.h) fun h h' hh => ?_
  subst hh
  obtain ⟨u, u', c1, c2, l1, l2, l3, l4, hx⟩ := compute_change hm.rhs hf a.out a'.out i1 i2 i3 i4 a.x a.t h
  rw [c1, c2]
  simp only [bind_ok]
  rw [raw_first (l := u.x2) 0 (i := 0) (by omega), raw_first (l := u'.x2) 0 (i := 0) (by omega),
    raw_first (l := u.x2) 0 (i := 1) (by omega), raw_first (l := u'.x2) 0 (i := 1) (by omega), hx 0 (by omega), hx 1 (by omega)]
  simp only [bind_ok]
  have hdiff : M.state (u.x2.getD 0 0) - M.state (u.x2.getD 1 0) = M.L (u.x2.getD 0 0 - u.x2.getD 1 0) := by
    unfold Change.state
    rw [map_sub]
    abel
  rw [hdiff, hm.norm, hm.disable, hm.force, hm.order]
  obtain ⟨err, herr⟩ : ∃ err, (if (!m.disableErrorCheck || m.forceErrorCalc) = true then m.norm (u.x2.getD 0 0 - u.x2.getD 1 0)
    else 0) = err := ⟨_, rfl⟩
  rw [herr]
  have hres : (if m.disableErrorCheck = true then (⟨M.c * h, true, false⟩ : CtlResult K) else m'.control (M.c * h) err m.lowOrder) =
      M.answer (if m.disableErrorCheck = true then ⟨h, true, false⟩ else m.control h err m.lowOrder) := by
    split
    · rfl
    · exact hm.control h err _
  rw [hres]
  obtain ⟨res, hr⟩ : ∃ res, (if m.disableErrorCheck = true then (⟨h, true, false⟩ : CtlResult K) else m.control h err m.lowOrder) =
    res := ⟨_, rfl⟩
  rw [hr, show (M.answer res).acceptStep = res.acceptStep from rfl, show (M.answer res).changeStepSize = res.changeStepSize from rfl,
    show (M.answer res).newStepSize = M.c * res.newStepSize from rfl]
  obtain ⟨v, hv⟩ : ∃ v, (if (!m.disableErrorCheck || m.forceErrorCalc) = true then
    { u with buf := u.x2.getD 0 0 - u.x2.getD 1 0 } else u) = v := ⟨_, rfl⟩
  obtain ⟨v', hv'⟩ : ∃ v', (if (!m.disableErrorCheck || m.forceErrorCalc) = true then
    { u' with buf := M.L (u.x2.getD 0 0 - u.x2.getD 1 0) } else u') = v' := ⟨_, rfl⟩
  rw [hv, hv']
  have kv : v.k = u.k ∧ v.x2 = u.x2 := by subst hv; split <;> exact ⟨rfl, rfl⟩
  have kv' : v'.k = u'.k ∧ v'.x2 = u'.x2 := by subst hv'; split <;> exact ⟨rfl, rfl⟩
  have hidx : m'.modeIndex = m.modeIndex := by unfold EmbMethod.modeIndex; rw [hm.mode]
  have hlt : m.modeIndex < 2 := by unfold EmbMethod.modeIndex; split <;> omega
  rw [hidx]
  refine Both.bind (R := fun p p' => Alike M φ m.co 2 p.1 p'.1 ∧ p'.2 = p.2) ?_ ?_
  · cases hacc : res.acceptStep with
    | false =>
      simp only [hacc, Bool.false_eq_true, if_false]
      exact ⟨⟨rfl, rfl, rfl, hi.hInit, rfl, hi.log, .inr ⟨by rw [kv.1, l1], by rw [kv'.1, l2], by rw [kv.2, l3], by rw [kv'.2, l4]⟩⟩, rfl⟩
    | true =>
      simp only [hacc, if_true]
      rw [kv.2, kv'.2, raw_first (l := u.x2) 0 (by omega), raw_first (l := u'.x2) 0 (by omega), hx _ hlt]
      simp only [bind_ok]
      rw [← Change.time_add]
      refine Both.bind (stop_change hm.ec e a.x _ _) fun r r' hr => ?_
      subst hr
      unfold rawSet
      rw [if_pos (by omega), if_pos (by omega)]
      simp only [bind_ok]
      exact ⟨⟨rfl, rfl, rfl, hi.hInit, rfl, hi.log, .inr ⟨by simp [kv.1, l1], by simp [kv'.1, l2], by simp [l3], by simp [l4]⟩⟩, rfl⟩
  · rintro ⟨b, tr'⟩ ⟨b', tr⟩ ⟨hb, htr⟩
    simp only at hb htr
    subst htr
    simp only
    obtain ⟨d, hd⟩ : ∃ d, (if res.changeStepSize = true then { b with h := some res.newStepSize } else b) = d := ⟨_, rfl⟩
    obtain ⟨d', hd'⟩ : ∃ d', (if res.changeStepSize = true then { b' with h := some (M.c * res.newStepSize) } else b') = d' := ⟨_, rfl⟩
    rw [hd, hd']
    have hdd : Alike M φ m.co 2 d d' := by
      subst hd hd'
      split
      · exact { hb with h := rfl }
      · exact hb
    have hle : (M.c * res.newStepSize ≤ m'.hMin) ↔ res.newStepSize ≤ m.hMin := by
      rw [hm.hMin]
      exact mul_le_mul_iff_right₀ hc
    simp only [hle]
    by_cases hthrow : (res.changeStepSize && decide (res.newStepSize ≤ m.hMin)) = true
    · rw [if_pos hthrow, if_pos hthrow]
      exact ⟨rfl, hdd⟩
    · rw [if_neg hthrow, if_neg hthrow, hdd.h]
      refine Both.bind (readH_change d.h) fun g g' hg => ?_
      subst hg
      have h1 : (0 < m'.hAfterSwitch) ↔ 0 < m.hAfterSwitch := by rw [hm.after]; exact mul_pos_iff_of_pos_left hc
      have h2 : (m'.hAfterSwitch < M.c * g) ↔ m.hAfterSwitch < g := by
        rw [hm.after]; exact mul_lt_mul_iff_right₀ hc
      simp only [h1, h2]
      have hlog : Alike M φ m.co 2 { d with log := .post h res.acceptStep res.changeStepSize tr err :: d.log }
          { d' with log := .post (M.c * h) res.acceptStep res.changeStepSize tr err :: d'.log } :=
        hdd.push rfl
      have hlog2 : Alike M φ m.co 2 { d with log := .post h res.acceptStep res.changeStepSize tr err :: d.log, h := some m.hAfterSwitch }
          { d' with log := .post (M.c * h) res.acceptStep res.changeStepSize tr err :: d'.log, h := some m'.hAfterSwitch } :=
        { hlog with h := by show some m'.hAfterSwitch = _; rw [hm.after]; rfl }
      rw [hdd.h] at hlog
      split <;> split <;> first | exact hlog | exact hlog2

theorem passes_change (hc : 0 < M.c) {φ : E → E'} {m : EmbMethod K V E} {m' : EmbMethod K W E'} (hm : M.Method φ m m')
    (hf : Fits m.co 2) (p : Nat) (s : FixedSt K V E) (s' : FixedSt K W E') (hs : Alike M φ m.co 2 s s') :
    ((emb m' p).doStep s').1 = ((emb m p).doStep s).1.map M.note ∧
      Both (Alike M φ m.co 2) ((emb m p).doStep s).2 ((emb m' p).doStep s').2 := by
  show (passes (·.attempt m') (fun s => noteOf s.t s.x s.log) p s').1 = (passes (·.attempt m) (fun s => noteOf s.t s.x s.log) p s).1.map M.note ∧
      Both (Alike M φ m.co 2) (passes (·.attempt m) (fun s => noteOf s.t s.x s.log) p s).2
        (passes (·.attempt m') (fun s => noteOf s.t s.x s.log) p s').2
  have hnote : ∀ (a : FixedSt K V E) (b : FixedSt K W E'), Alike M φ m.co 2 a b →
      noteOf b.t b.x b.log = (noteOf a.t a.x a.log).map M.note := by
    intro a b hab
    rw [hab.t, hab.x, hab.log]
    rcases a.log with _ | ⟨_ | _, l⟩ <;> rfl
  induction p generalizing s s' with
  | zero => exact ⟨rfl, rfl⟩
  | succ p ih =>
    unfold passes
    have := attempt_change hc hm hf hs
    simp only
    rcases h1 : s.attempt m with f | A <;> rcases h2 : s'.attempt m' with f' | B <;> rw [h1, h2] at this
    · exact ⟨rfl, this⟩
    · exact this.elim
    · exact this.elim
    · cases A <;> cases B <;> first | exact False.elim this | skip
      · exact ⟨hnote _ _ this, this⟩
      · obtain ⟨k1, k2⟩ := ih _ _ this
        refine ⟨?_, k2⟩
        simp only
        rw [k1, hnote _ _ this, List.map_append]
      · refine ⟨rfl, ?_⟩
        show Fault.exc _ = Fault.exc _
        rw [this.1]

/-- C142, error control: the same, if the norm of the error is the same in the new variables and the controller gives the same
answers in the new unit of time. -/
theorem C142_adaptive (hc : 0 < M.c) (φ : E → E') (m : EmbMethod K V E) (m' : EmbMethod K W E') (hm : M.Method φ m m')
    (hf : Fits m.co 2) (o : Outputs) (t : K) (x : V) (h d : K) (e : E) (p fuel : Nat) :
    M.Same (solveOde (emb m p) o d fuel (begin t x h e))
      (solveOde (emb m' p) o (M.c * d) fuel (begin (M.time t) (M.state x) (M.c * h) (φ e))) :=
  run_change (φ := φ) (co := m.co) (n := 2) (emb m p) (emb m' p) (fun _ => rfl) (fun _ => rfl) (fun _ => rfl) (fun _ => rfl) hc
    (passes_change hc hm hf p) o d fuel _ _ (begin_alike ..)

/-- C142: the step size controller of the library gives the same answers in a new unit of time, if its threshold is converted. -/
theorem C142_controller (hc : 0 < M.c) (c : CtlParams K) (pow : K → K → K) (h err k : K) :
    ({ c with maxThreshold := M.c * c.maxThreshold } : CtlParams K).control pow (M.c * h) err k = M.answer (c.control pow h err k) := by
  unfold CtlParams.control
  by_cases he : err = 0
  · rw [if_pos he, if_pos he]; rfl
  rw [if_neg he, if_neg he]
  simp only
  generalize pow (c.tolerance / err) (1 / (k + 1)) = p
  have h1 : (0 < M.c * c.maxThreshold) ↔ 0 < c.maxThreshold := mul_pos_iff_of_pos_left hc
  have h2 : (M.c * c.maxThreshold < p * c.insurance * (M.c * h)) ↔ c.maxThreshold < p * c.insurance * h := by
    rw [show p * c.insurance * (M.c * h) = M.c * (p * c.insurance * h) by ring]
    exact mul_lt_mul_iff_right₀ hc
  have h3 : M.c * c.maxThreshold / (M.c * h) = c.maxThreshold / h := mul_div_mul_left _ _ hc.ne'
  simp only [h1, h2, h3]
  split_ifs <;> simp [Change.answer, mul_assoc]

/-! ### Events -/

variable {Q : Type}

/-- The event functions in the new variables -/
structure Change.Functions (M : Change K V W) (r : Event.EvRhs K V Q) (r' : Event.EvRhs K W Q) : Prop where
  count : ∀ q, r'.zeroFuncCount q = r.zeroFuncCount q
  flags : ∀ q, r'.zeroFuncFlags q = r.zeroFuncFlags q
  values : ∀ q t x, r'.zeroFunctions q (M.time t) (M.state x) = r.zeroFunctions q t x
  switch : ∀ q l t x, r'.switchPhaseState q l (M.time t) (M.state x) =
    ((r.switchPhaseState q l t x).1, M.state (r.switchPhaseState q l t x).2)
  truncate : ∀ q t x, r'.truncateStep q (M.time t) (M.state x) =
    ((r.truncateStep q t x).1, M.time (r.truncateStep q t x).2.1, M.state (r.truncateStep q t x).2.2)

/-- The state of the event controller in the new variables -/
def Change.ctl (M : Change K V W) (e : Event.Ctl K × Q) : Event.Ctl K × Q := ({ e.1 with t1 := M.time e.1.t1 }, e.2)

/-- C142, events: the linear event controller commutes with changes of variables. -/
theorem C142_events (r : Event.EvRhs K V Q) (r' : Event.EvRhs K W Q) (hr : M.Functions r r') :
    M.Events M.ctl (Event.controller r) (Event.controller r') := by
  constructor
  · rintro ⟨⟨clean, haveZf, haveRec, zf1, zf2, zfbuf, flags, st, t1⟩, q⟩ x t
    show (Event.Ctl.atStepStart r' q ⟨clean, haveZf, haveRec, zf1, zf2, zfbuf, flags, st, M.time t1⟩ (M.state x) (M.time t) >>=
      fun c => .ok (c, q)) = Except.map M.ctl
        (Event.Ctl.atStepStart r q ⟨clean, haveZf, haveRec, zf1, zf2, zfbuf, flags, st, t1⟩ x t >>= fun c => .ok (c, q))
    unfold Event.Ctl.atStepStart
    cases clean with
    | false => rfl
    | true =>
      simp only [if_true]
      have h1 : Event.Ctl.initClean r' q ⟨true, haveZf, haveRec, zf1, zf2, zfbuf, flags, st, M.time t⟩ =
          { Event.Ctl.initClean r q ⟨true, haveZf, haveRec, zf1, zf2, zfbuf, flags, st, t⟩ with t1 := M.time t } := by
        unfold Event.Ctl.initClean
        simp only [hr.count, hr.flags]
      have h2 : (Event.Ctl.initClean r q ⟨true, haveZf, haveRec, zf1, zf2, zfbuf, flags, st, t⟩).t1 = t := rfl
      rw [h1]
      generalize Event.Ctl.initClean r q ⟨true, haveZf, haveRec, zf1, zf2, zfbuf, flags, st, t⟩ = a at h2
      obtain ⟨clean, haveZf, haveRec, zf1, zf2, zfbuf, flags, st, t1⟩ := a
      simp only at h2
      subst h2
      simp only [hr.values]
      cases haveZf with
      | false => rfl
      | true =>
        simp only [if_true]
        rcases loop 0 (r.zeroFunctions q t1 x).length (fun i st => do
          let z ← at' (r.zeroFunctions q t1 x) i
          let f ← raw flags i
          rawSet st i (Event.sFlag z f)) st with f | st <;> rfl
  · rintro ⟨⟨clean, haveZf, haveRec, zf1, zf2, zfbuf, flags, st, t1⟩, q⟩ x1 x2 t
    show Event.Ctl.atStepEnd r' q ⟨clean, haveZf, haveRec, zf1, zf2, zfbuf, flags, st, M.time t1⟩ (M.state x1) (M.state x2) (M.time t) =
      Except.map _ (Event.Ctl.atStepEnd r q ⟨clean, haveZf, haveRec, zf1, zf2, zfbuf, flags, st, t1⟩ x1 x2 t)
    unfold Event.Ctl.atStepEnd
    cases haveZf with
    | false =>
      simp only [Bool.not_false, if_true, hr.truncate]
      rfl
    | true =>
      simp only [Bool.not_true, Bool.false_eq_true, if_false, hr.values]
      generalize r.zeroFunctions q t x2 = zf2
      have h1 : (⟨clean, true, haveRec, zf1, zf2, zfbuf, flags, st, M.time t1⟩ : Event.Ctl K).crossed =
        (⟨clean, true, haveRec, zf1, zf2, zfbuf, flags, st, t1⟩ : Event.Ctl K).crossed := rfl
      rw [h1]
      rcases (⟨clean, true, haveRec, zf1, zf2, zfbuf, flags, st, t1⟩ : Event.Ctl K).crossed with f | zfi
      · rfl
      simp only [bind_ok]
      split
      · rfl
      have h2 : (⟨clean, true, haveRec, zf1, zf2, zfbuf, flags, st, M.time t1⟩ : Event.Ctl K).earliest zfi =
        (⟨clean, true, haveRec, zf1, zf2, zfbuf, flags, st, t1⟩ : Event.Ctl K).earliest zfi := rfl
      rw [h2]
      rcases (⟨clean, true, haveRec, zf1, zf2, zfbuf, flags, st, t1⟩ : Event.Ctl K).earliest zfi with f | ⟨θ, im⟩
      · rfl
      simp only [bind_ok]
      have h3 : M.time t1 + (M.time t - M.time t1) * θ = M.time (t1 + (t - t1) * θ) := by
        unfold Change.time
        ring
      have h4 : θ • M.state x2 + (1 - θ) • M.state x1 = M.state (θ • x2 + (1 - θ) • x1) := by
        unfold Change.state
        rw [map_add, map_smul, map_smul]
        module
      rw [h3, h4]
      cases im with
      | none => rfl
      | some i =>
        simp only
        rcases at' zf2 i with f | z2
        · rfl
        simp only [bind_ok]
        rcases rawSet (List.replicate zf1.length (0 : Int)) i (Event.sgn z2) with f | tr
        · rfl
        simp only [bind_ok, hr.switch]
        obtain ⟨p, hp⟩ : ∃ p, r.switchPhaseState q tr (t1 + (t - t1) * θ) (θ • x2 + (1 - θ) • x1) = p := ⟨_, rfl⟩
        obtain ⟨zc, zl, zv, sw, tc⟩ := r
        simp only at hp
        simp only [hp]
        generalize t1 + (t - t1) * θ = t'
        unfold Event.Ctl.afterSwitch
        simp only [hr.values]
        generalize (if haveRec = true then zv p.1 t' p.2 else zfbuf) = buf
        have h6 : (⟨clean, true, haveRec, zf1, zf2, buf, flags, st, M.time t1⟩ : Event.Ctl K).updateOne θ i (Event.sgn z2) =
          (⟨clean, true, haveRec, zf1, zf2, buf, flags, st, t1⟩ : Event.Ctl K).updateOne θ i (Event.sgn z2) := rfl
        rw [h6]
        rcases loop 0 zf1.length ((⟨clean, true, haveRec, zf1, zf2, buf, flags, st, t1⟩ : Event.Ctl K).updateOne θ i (Event.sgn z2))
          (zf1, st) with f | ⟨a, b⟩ <;> rfl

/-! ### Conserved quantities -/

/-- The event controller keeps `φ` when the end of the step does. -/
def Keeps (φ : V →ₗ[K] W) (C : Option (EventCtl K V E)) : Prop :=
  ∀ c, C = some c → ∀ e x1 x2 t r, φ x2 = φ x1 → c.atStepEnd e x1 x2 t = .ok r → φ r.2.1 = φ x1

theorem ecEnd_keeps {φ : V →ₗ[K] W} {m : Method K V E} (hk : Keeps φ m.ec) {e : E} {x1 x2 : V} {t : K} {r : E × V × K × Trunc}
    (hx : φ x2 = φ x1) (h : ecEnd m e x1 x2 t = .ok r) : φ r.2.1 = φ x1 := by
  unfold ecEnd at h
  rcases hc : m.ec with _ | c
  · rw [hc] at h
    cases h
    exact hx
  · rw [hc] at h
    exact hk c hc e x1 x2 t r hx h

theorem compute_keeps {φ : V →ₗ[K] W} {f : K → V → V} (hf : ∀ t x, φ (f t x) = 0) {co : Coefficients K} {n : Nat} (hc : Fits co n)
    (o : Output V) (hk : o.k.length = co.c.length + 1) (hx : o.x2.length = n) (x : V) (t h : K) :
    ∃ u, compute o co f x t h = .ok u ∧ u.k.length = co.c.length + 1 ∧ u.x2.length = n ∧ ∀ i, i < n → φ (u.x2.getD i 0) = φ x := by
  obtain ⟨u, e1, l1, l2, st, out⟩ := compute_ok o co f x t h (by rw [hk, hx]; exact hc.sizes)
  refine ⟨u, e1, by rw [l1, hk], by rw [l2, hx], fun i hi => ?_⟩
  rw [hk] at st out
  have comb : ∀ (s : Nat) (a : Nat → K), s ≤ co.c.length + 1 → φ (x + h • ∑ j ∈ Finset.range s, a j • u.k.getD j 0) = φ x := by
    intro s a hs
    rw [map_add, map_smul, map_sum, Finset.sum_eq_zero, smul_zero, add_zero]
    intro j hj
    rw [map_smul, st j (by have := Finset.mem_range.1 hj; omega), hf, smul_zero]
  obtain ⟨p1, p2, -⟩ := out i (by omega)
  by_cases hl : (i : Int) = co.lastK
  · have h2 : 2 ≤ co.c.length + 1 := by
      by_contra hn
      have := hc.last (List.length_eq_zero_iff.1 (by omega))
      omega
    rw [p2 hl h2, comb _ _ (by omega)]
  · rw [p1 hl, comb _ _ le_rfl]

/-- Buffers empty or of the right sizes, and the value of `φ` -/
def Kept (φ : V →ₗ[K] W) (w : W) (co : Coefficients K) (n : Nat) (s : FixedSt K V E) : Prop :=
  φ s.x = w ∧ (s.out.k = [] ∨ (s.out.k.length = co.c.length + 1 ∧ s.out.x2.length = n))

omit [IsStrictOrderedRing K] [AddCommGroup V] [Module K V] in
theorem run_kept {S : Type} (sv : Solver K V S) (I : S → Prop) (P : Note K V → Prop)
    (hst : ∀ s, I s → (∀ n ∈ (sv.doStep s).1, P n) ∧ ∀ s', (sv.doStep s).2 = .ok s' → I s') (e : K) (fuel : Nat) (s : S) (hs : I s)
    (ns : List (Note K V)) (r : Res S) (h : runLoop sv e fuel s = some (ns, r)) : (∀ n ∈ ns, P n) ∧ ∀ s', r = .ok s' → I s' := by
  induction fuel generalizing s ns with
  | zero => cases h
  | succ fuel ih =>
    unfold runLoop at h
    obtain ⟨h1, h2⟩ := hst s hs
    rcases hd : sv.doStep s with ⟨n1, f | a⟩ <;> rw [hd] at h h1 h2
    · cases h
      exact ⟨h1, fun s' hs' => by cases hs'⟩
    · simp only at h h1 h2
      split at h
      · rcases h3 : runLoop sv e fuel a with _ | ⟨n2, r2⟩ <;> rw [h3] at h
        · cases h
        · cases h
          obtain ⟨k1, k2⟩ := ih a (h2 a rfl) n2 h3
          exact ⟨fun n hn => (List.mem_append.1 hn).elim (h1 n) (k1 n), k2⟩
      · cases h
        exact ⟨h1, fun s' hs' => by cases hs'; exact h2 _ rfl⟩

omit [IsStrictOrderedRing K] [AddCommGroup V] [Module K V] in
theorem solve_kept {S : Type} (sv : Solver K V S) (I : S → Prop) (P : Note K V → Prop)
    (hst : ∀ s, I s → (∀ n ∈ (sv.doStep s).1, P n) ∧ ∀ s', (sv.doStep s).2 = .ok s' → I s') (o : Outputs) (d : K) (fuel : Nat) (s : S)
    (hs : I s) (evs : List (Ev K V)) (r : Res S) (h : solveOde sv o d fuel s = some (evs, r)) :
    (∀ n, Ev.note n ∈ evs → P n) ∧ ∀ s', r = .ok s' → I s' := by
  have hno : ∀ (l : List Slot) n, Ev.note n ∉ l.map (Ev.started : Slot → Ev K V) := by simp
  have hnf : ∀ (l : List Slot) n, Ev.note n ∉ l.map (Ev.finished : Slot → Ev K V) := by simp
  unfold solveOde at h
  split at h
  · rcases hio : initOutput o with ⟨l, f | ⟨⟩⟩ <;> rw [hio] at h
    · cases h
      exact ⟨fun n hn => (hno _ _ hn).elim, fun s' hs' => by cases hs'⟩
    · simp only at h
      rcases h3 : runLoop sv (sv.time s + d) fuel s with _ | ⟨ns, r2⟩ <;> rw [h3] at h
      · cases h
      · obtain ⟨k1, k2⟩ := run_kept sv I P hst _ fuel s hs ns r2 h3
        rcases r2 with f | s2
        · cases h
          refine ⟨fun n hn => ?_, fun s' hs' => by cases hs'⟩
          rcases List.mem_append.1 hn with hn | hn
          · exact (hno _ _ hn).elim
          · simp only [List.mem_map, Ev.note.injEq, exists_eq_right] at hn
            exact k1 n hn
        · cases h
          refine ⟨fun n hn => ?_, k2⟩
          rcases List.mem_append.1 hn with hn | hn
          · rcases List.mem_append.1 hn with hn | hn
            · exact (hno _ _ hn).elim
            · simp only [List.mem_map, Ev.note.injEq, exists_eq_right] at hn
              exact k1 n hn
          · exact (hnf _ _ hn).elim
  · cases h
    exact ⟨fun n hn => (by cases hn), fun s' hs' => by cases hs'⟩

theorem step_kept {φ : V →ₗ[K] W} {w : W} {m : Method K V E} (hf : ∀ t x, φ (m.rhs t x) = 0) (hc : Fits m.co 1) (hk : Keeps φ m.ec)
    {s s' : FixedSt K V E} (hs : Kept φ w m.co 1 s) (h : s.doStep m = .ok s') : Kept φ w m.co 1 s' := by
  unfold FixedSt.doStep at h
  simp only at h
  have hi : ((FixedSt.initStep m { s with log := .pre s.h :: s.log }).x = s.x) ∧
      (FixedSt.initStep m { s with log := .pre s.h :: s.log }).out.k.length = m.co.c.length + 1 ∧
      (FixedSt.initStep m { s with log := .pre s.h :: s.log }).out.x2.length = 1 := by
    unfold FixedSt.initStep
    rcases hs.2 with k1 | ⟨k1, k2⟩
    · rw [if_pos (by simp [k1])]
      simp [Output.mk']
    · rw [if_neg (by rw [List.isEmpty_iff]; intro h; simp only at h; rw [h] at k1; simp at k1)]
      exact ⟨rfl, k1, k2⟩
  generalize FixedSt.initStep m { s with log := .pre s.h :: s.log } = a at h hi
  obtain ⟨hx, i1, i2⟩ := hi
  rcases h1 : ecStart m a.ec a.x a.t with f | e <;> rw [h1] at h
  · cases h
  simp only [bind_ok] at h
  rcases h2 : readH a.h with f | g <;> rw [h2] at h
  · cases h
  simp only [bind_ok] at h
  obtain ⟨u, c1, l1, l2, hu⟩ := compute_keeps hf hc a.out i1 i2 a.x a.t g
  rw [c1] at h
  simp only [bind_ok] at h
  rw [raw_first 0 (by omega)] at h
  simp only [bind_ok] at h
  rcases h3 : ecEnd m e a.x (u.x2.getD 0 0) (a.t + g) with f | r <;> rw [h3] at h
  · cases h
  simp only [bind_ok] at h
  unfold rawSet at h
  rw [if_pos (by omega)] at h
  simp only [bind_ok] at h
  cases h
  exact ⟨by rw [← hs.1, ← hx]; exact ecEnd_keeps hk (hu 0 (by omega)) h3, .inr ⟨l1, by simp [l2]⟩⟩

theorem attempt_kept {φ : V →ₗ[K] W} {w : W} {m : EmbMethod K V E} (hf : ∀ t x, φ (m.rhs t x) = 0) (hc : Fits m.co 2)
    (hk : Keeps φ m.ec) {s : FixedSt K V E} {A : Attempt (FixedSt K V E)} (hs : Kept φ w m.co 2 s) (h : s.attempt m = .ok A) :
    Kept φ w m.co 2 A.state := by
  obtain ⟨g, hi, lo, u, -, hu, h0, h1, hk1, hk2, -, hrej, e, tr, -, -, hacc, -⟩ := attempt_outcome h
  have hin : (s.initStep2 m).out.k.length = m.co.c.length + 1 ∧ (s.initStep2 m).out.x2.length = 2 := by
    unfold FixedSt.initStep2
    rcases hs.2 with k1 | ⟨k1, k2⟩
    · rw [if_pos (by simp [k1])]
      simp [Output.mk']
    · rw [if_neg (by rw [List.isEmpty_iff]; intro h; rw [h] at k1; simp at k1)]
      exact ⟨k1, k2⟩
  obtain ⟨u', c1, l1, l2, hx⟩ := compute_keeps hf hc _ hin.1 hin.2 s.x s.t g
  rw [hu] at c1
  cases c1
  have e0 : φ hi = φ s.x := by
    rw [← hx 0 (by omega), List.getD_eq_getElem?_getD, h0]
    rfl
  have e1 : φ lo = φ s.x := by
    rw [← hx 1 (by omega), List.getD_eq_getElem?_getD, h1]
    rfl
  refine ⟨?_, .inr ⟨by rw [hk1, l1], by rw [hk2, l2]⟩⟩
  rw [← hs.1]
  cases hv : (m.verdict g hi lo).acceptStep with
  | false => rw [(hrej hv).2]
  | true => exact ecEnd_keeps (r := (_, _, _, _)) hk (by split <;> assumption) (hacc hv)

/-- C142: a linear quantity that the right-hand side does not change has the same value in all reports of a run with constant step
size, and at its end. -/
theorem C142_conserved_fixed (φ : V →ₗ[K] W) (m : Method K V E) (hf : ∀ t x, φ (m.rhs t x) = 0) (hc : Fits m.co 1)
    (hk : Keeps φ m.ec) (o : Outputs) (t : K) (x : V) (h d : K) (e : E) (fuel : Nat) (evs : List (Ev K V))
    (r : Res (FixedSt K V E)) (hr : solveOde (erk m) o d fuel (begin t x h e) = some (evs, r)) :
    (∀ n, Ev.note n ∈ evs → φ n.state = φ x) ∧ ∀ s, r = .ok s → φ s.x = φ x := by
  have key : ∀ s, Kept φ (φ x) m.co 1 s → (∀ n ∈ ((erk m).doStep s).1, φ n.state = φ x) ∧
      ∀ s', ((erk m).doStep s).2 = .ok s' → Kept φ (φ x) m.co 1 s' := ?_
  · obtain ⟨k1, k2⟩ := solve_kept (erk m) (Kept φ (φ x) m.co 1) (fun n => φ n.state = φ x) key o d fuel _ ⟨rfl, .inl rfl⟩ evs r hr
    exact ⟨k1, fun s hs => (k2 s hs).1⟩
  · intro s hs
    simp only [erk]
    rcases h1 : s.doStep m with f | a
    · exact ⟨fun n hn => (by cases hn), fun s' hs' => by cases hs'⟩
    · have := step_kept hf hc hk hs h1
      refine ⟨fun n hn => ?_, fun s' hs' => by cases hs'; exact this⟩
      obtain ⟨k, tr, l, hl⟩ := erk_log m s a h1
      simp only [erkNotes, hl, List.mem_singleton] at hn
      rw [hn]
      exact this.1

/-- C142: and of a run with error control, whatever norm and whatever step size controller are used. -/
theorem C142_conserved_adaptive (φ : V →ₗ[K] W) (m : EmbMethod K V E) (hf : ∀ t x, φ (m.rhs t x) = 0) (hc : Fits m.co 2)
    (hk : Keeps φ m.ec) (o : Outputs) (t : K) (x : V) (h d : K) (e : E) (p fuel : Nat) (evs : List (Ev K V))
    (r : Res (FixedSt K V E)) (hr : solveOde (emb m p) o d fuel (begin t x h e) = some (evs, r)) :
    (∀ n, Ev.note n ∈ evs → φ n.state = φ x) ∧ ∀ s, r = .ok s → φ s.x = φ x := by
  have key : ∀ s, Kept φ (φ x) m.co 2 s → (∀ n ∈ ((emb m p).doStep s).1, φ n.state = φ x) ∧
      ∀ s', ((emb m p).doStep s).2 = .ok s' → Kept φ (φ x) m.co 2 s' := ?_
  · obtain ⟨k1, k2⟩ := solve_kept (emb m p) (Kept φ (φ x) m.co 2) (fun n => φ n.state = φ x) key o d fuel _ ⟨rfl, .inl rfl⟩ evs r hr
    exact ⟨k1, fun s hs => (k2 s hs).1⟩
  · intro s hs
    have hnote : ∀ a : FixedSt K V E, Kept φ (φ x) m.co 2 a → ∀ n ∈ noteOf a.t a.x a.log, φ n.state = φ x := by
      intro a ha n hn
      unfold noteOf at hn
      split at hn
      · rw [List.mem_singleton.1 hn]
        exact ha.1
      · cases hn
    show (∀ n ∈ (passes (·.attempt m) (fun s => noteOf s.t s.x s.log) p s).1, φ n.state = φ x) ∧ ∀ s',
      (passes (·.attempt m) (fun s => noteOf s.t s.x s.log) p s).2 = .ok s' → Kept φ (φ x) m.co 2 s'
    clear hr
    induction p generalizing s with
    | zero => exact ⟨fun n hn => (by cases hn), fun s' hs' => by cases hs'⟩
    | succ p ih =>
      unfold passes
      simp only
      rcases h1 : s.attempt m with f | A
      · exact ⟨fun n hn => (by cases hn), fun s' hs' => by cases hs'⟩
      · have := attempt_kept hf hc hk hs h1
        cases A with
        | accepted a => exact ⟨hnote a this, fun s' hs' => by cases hs'; exact this⟩
        | rejected a =>
          obtain ⟨k1, k2⟩ := ih a this
          exact ⟨fun n hn => (List.mem_append.1 hn).elim (hnote a this n) (k1 n), k2⟩
        | thrown msg a => exact ⟨fun n hn => (by cases hn), fun s' hs' => by cases hs'⟩

/-- C142: the linear event controller keeps a linear quantity that switches keep: the end of a truncated step is found by linear
interpolation. -/
theorem C142_conserved_events (φ : V →ₗ[K] W) (r : Event.EvRhs K V Q) (hs : ∀ q l t x, φ (r.switchPhaseState q l t x).2 = φ x)
    (ht : ∀ q t x, φ (r.truncateStep q t x).2.2 = φ x) : Keeps φ (some (Event.controller r)) := by
  rintro c hc ⟨e, q⟩ x1 x2 t res hx h
  cases hc
  have h' : e.atStepEnd r q x1 x2 t = .ok res := h
  unfold Event.Ctl.atStepEnd at h'
  split at h'
  · cases h'
    exact (ht q t x2).trans hx
  · rcases h1 : ({ e with zf2 := r.zeroFunctions q t x2 } : Event.Ctl K).crossed with f | zfi <;> simp only [h1] at h'
    · cases h'
    simp only [bind_ok] at h'
    split at h'
    · cases h'
      exact hx
    rcases h2 : ({ e with zf2 := r.zeroFunctions q t x2 } : Event.Ctl K).earliest zfi with f | ⟨θ, im⟩ <;> simp only [h2] at h'
    · cases h'
    simp only [bind_ok] at h'
    rcases im with _ | i
    · cases h'
    simp only at h'
    rcases h3 : at' (r.zeroFunctions q t x2) i with f | z2 <;> simp only [h3] at h'
    · cases h'
    simp only [bind_ok] at h'
    rcases h4 : rawSet (List.replicate e.zf1.length (0 : Int)) i (Event.sgn z2) with f | tr <;> simp only [h4] at h'
    · cases h'
    simp only [bind_ok] at h'
    have hp := hs q tr (e.t1 + (t - e.t1) * θ) (θ • x2 + (1 - θ) • x1)
    rw [map_add, map_smul, map_smul, hx, ← add_smul, add_sub_cancel, one_smul] at hp
    obtain ⟨zc, zl, zv, sw, tc⟩ := r
    simp only at hp h'
    generalize sw q tr (e.t1 + (t - e.t1) * θ) (θ • x2 + (1 - θ) • x1) = p at h' hp
    generalize Event.Ctl.afterSwitch (K := K) (V := V) (Q := Q) _ _ _ _ _ _ _ _ = a at h'
    rcases a with f | a <;> cases h'
    exact hp

/-! ### The methods of the library, and time that does not matter -/

theorem fits_cast {co : Coefficients ℚ} {n : Nat} (h : Fits co n) : Fits (co.cast K) n where
  sizes := by
    have := cast_sizes (R := K) co h.sizes
    rwa [show (co.cast K).c.length = co.c.length by simp [Coefficients.cast, Coefficients.map]]
  last hc := h.last (by simpa [Coefficients.cast, Coefficients.map] using hc)

/-- C142: the methods of the library meet the assumption on the coefficients. -/
theorem C142_library : Fits (euler.cast K) 1 ∧ Fits (rk4.cast K) 1 ∧ Fits (dopri45.cast K) 2 ∧ Fits (dopri56.cast K) 2 ∧
    Fits (dopri78.cast K) 2 := by
  refine ⟨fits_cast ⟨⟨?_, ?_, ?_, ?_⟩, ?_⟩, fits_cast ⟨⟨?_, ?_, ?_, ?_⟩, ?_⟩, fits_cast ⟨⟨?_, ?_, ?_, ?_⟩, ?_⟩,
    fits_cast ⟨⟨?_, ?_, ?_, ?_⟩, ?_⟩, fits_cast ⟨⟨?_, ?_, ?_, ?_⟩, ?_⟩⟩ <;> decide

/-- The origin of time moved by `τ` -/
def later (K V : Type) [Field K] [AddCommGroup V] [Module K V] (τ : K) : Change K V V := ⟨LinearMap.id, 0, 1, τ⟩

/-- C142: when the right-hand side does not depend on time, a run started later gives the same results, later; with error control. -/
theorem C142_autonomous (m : EmbMethod K V E) (hm : ∀ t t' x, m.rhs t x = m.rhs t' x) (he : m.ec = none) (hf : Fits m.co 2)
    (o : Outputs) (τ t : K) (x : V) (h d : K) (e : E) (p fuel : Nat) :
    (later K V τ).Same (solveOde (emb m p) o d fuel (begin t x h e)) (solveOde (emb m p) o d fuel (begin (t + τ) x h e)) := by
  have hm : (later K V τ).Method id m m :=
    { co := rfl
      rhs := fun t y => by
        simp only [later, Change.time, Change.state, LinearMap.id_apply, one_smul, add_zero]
        exact hm _ _ _
      ec := by rw [he]; trivial
      order := rfl, disable := rfl, force := rfl, mode := rfl
      after := (one_mul _).symm
      hMin := (one_mul _).symm
      norm := fun v => rfl
      control := fun h err k => by simp [later, Change.answer] }
  have := C142_adaptive (M := later K V τ) (by simp [later]) id m m hm hf o t x h d e p fuel
  simpa [later, Change.time, Change.state] using this

/-! ### Examples -/

/-- Position and velocity of `x'' = -4 x`, in metres and seconds; in centimetres and minutes the stiffness is `4 · 60²`. -/
example : (⟨(100 : ℚ) • LinearMap.prodMap LinearMap.id ((60 : ℚ) • LinearMap.id), 0, 1 / 60, 0⟩ :
    Change ℚ (ℚ × ℚ) (ℚ × ℚ)).Rhs (fun _ x => (x.2, -4 * x.1)) (fun _ x => (x.2, -(4 * 60 ^ 2) * x.1)) := by
  intro t x
  ext <;> simp [Change.state] <;> ring

/-- Two masses joined by a spring: their momentum is kept. -/
example (φ : (Fin 4 → ℚ) →ₗ[ℚ] ℚ) (hφ : ∀ x, φ x = x 2 + x 3) (t : ℚ) (x : Fin 4 → ℚ) :
    φ ((fun (_ : ℚ) (x : Fin 4 → ℚ) => ![x 2, x 3, x 1 - x 0, x 0 - x 1]) t x) = 0 := by
  simp [hφ]

/-- The first of two equations does not see the second: it may be solved alone. -/
example : (⟨LinearMap.fst ℚ ℚ ℚ, 0, 1, 0⟩ : Change ℚ (ℚ × ℚ) ℚ).Rhs (fun t x => (t - x.1, x.1 * x.2)) (fun t x => t - x) := by
  intro t x
  simp [Change.time, Change.state]

end

end Verif.Driver.Variables
