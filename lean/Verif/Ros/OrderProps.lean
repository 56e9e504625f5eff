import Verif.Ros.StepProps
import Verif.Ros.Order
import Mathlib.Topology.Instances.Matrix
import Mathlib.Analysis.Normed.Module.FiniteDimension

/-! # C41, C92, C93: orders of the Rosenbrock solvers -/

namespace Verif.Ros

open Verif.Res Verif.Alg Verif.Implicit Verif.Vec Verif.Sparse
open Asymptotics Filter Topology

set_option linter.unusedSectionVars false

/-- A vector as a function of the index -/
def fn (n : Nat) (l : List ℝ) : Fin n → ℝ := fun i => l.getD i 0

theorem fn_ofFn {n : Nat} (v : Fin n → ℝ) : fn n (List.ofFn v) = v := by
  funext i
  simp [fn, List.getD_eq_getElem?_getD]

theorem ofFn_fn {n : Nat} {l : List ℝ} (h : l.length = n) : List.ofFn (fn n l) = l := by
  subst h
  apply List.ext_getElem
  · simp
  · intro i h1 h2
    simp [fn, List.getD_eq_getElem?_getD, List.getElem?_eq_getElem h2]

/-- The right-hand side of the solver computes `f`. -/
def Computes (r : Rhs ℝ) (n2 n1 : Nat) (f : ℝ → (Fin (2 * n2 + n1) → ℝ) → Fin (2 * n2 + n1) → ℝ) : Prop :=
  r.n2 = n2 ∧ r.n1 = n1 ∧
    ∀ t x, x.length = 2 * n2 + n1 → r.rhs t x = .ok (List.ofFn (f t (fn _ x)))

/-- The Jacobian in use as an operator -/
noncomputable def Base.op (b : Base ℝ) (n : Nat) : (Fin n → ℝ) →L[ℝ] (Fin n → ℝ) :=
  LinearMap.toContinuousLinearMap (Matrix.toLin' (Matrix.of fun i j : Fin n => b.jac i j))

theorem op_apply {b : Base ℝ} {n : Nat} (hn : b.n = n) (x : List ℝ) (i : Fin n) :
    b.op n (fn n x) i = b.jmul x i := by
  subst hn
  unfold Base.op Base.jmul
  simp only [LinearMap.coe_toContinuousLinearMap', Matrix.toLin'_apply, Matrix.mulVec, dotProduct, Matrix.of_apply, fn]
  rw [Finset.sum_range]

/-- For small steps the leading minors are nonzero. -/
theorem regular_small (b : Base ℝ) (d : ℝ)
    (hfill : ∀ r c, r < c → (∃ r', r' ≤ r ∧ b.Pattern r' c) → ∃ c', c ≤ c' ∧ b.Pattern r c') :
    ∀ᶠ h in 𝓝 (0 : ℝ), b.Regular (h * d) := by
  have h1 : ∀ k ∈ Finset.range (b.n2 + b.n1 + 1),
      ∀ᶠ h in 𝓝 (0 : ℝ), (Matrix.of fun i j : Fin k => b.w (h * d) i j).det ≠ 0 := by
    intro k _
    have hc : Continuous fun h : ℝ => (Matrix.of fun i j : Fin k => b.w (h * d) i j).det := by
      refine Continuous.matrix_det ?_
      refine continuous_pi (fun i => continuous_pi (fun j => ?_))
      simp only [Matrix.of_apply]
      unfold Base.w
      fun_prop
    have h0 : (Matrix.of fun i j : Fin k => b.w ((0 : ℝ) * d) i j).det ≠ 0 := by
      have : (Matrix.of fun i j : Fin k => b.w ((0 : ℝ) * d) i j) = 1 := by
        ext i j
        simp [Base.w, Matrix.one_apply, Fin.ext_iff]
      rw [this, Matrix.det_one]
      exact one_ne_zero
    exact hc.continuousAt.eventually_ne h0
  have h2 := (Finset.eventually_all (Finset.range (b.n2 + b.n1 + 1))).2 h1
  filter_upwards [h2] with h hh
  exact ⟨fun k hk => hh k (Finset.mem_range.2 (by omega)), hfill⟩

variable {E : Type}

/-- A family from existence for almost all indices -/
theorem choose_eventually {A : Type*} {l : Filter ℝ} {P : ℝ → A → Prop} (a : A) (h : ∀ᶠ x in l, ∃ a, P x a) :
    ∃ g : ℝ → A, ∀ᶠ x in l, P x (g x) := by
  have : ∀ x, ∃ b, (∃ a, P x a) → P x b := by
    intro x
    by_cases hx : ∃ a, P x a
    · obtain ⟨b, hb⟩ := hx
      exact ⟨b, fun _ => hb⟩
    · exact ⟨a, fun h => absurd h hx⟩
  choose g hg using this
  exact ⟨g, h.mono (fun x hx => hg x hx)⟩

theorem computes_total {r : Rhs ℝ} {n2 n1 : Nat} {f} (h : Computes r n2 n1 f) : Total r := by
  intro t x hx
  have hv : r.varCount = 2 * n2 + n1 := by unfold Rhs.varCount; rw [h.1, h.2.1]
  exact ⟨_, h.2.2 t x (by omega), by simp [hv]⟩

/-- An accepted attempt without an event controller: what it leaves in the solver -/
theorem accepted_state {M : Method ℝ E} (hec : M.ec = none) {s s' : St ℝ E} {g g' : Stages ℝ}
    (hg : s.stages M = .ok g) (hg' : s.errorStages M g = .ok g') (h : s.attempt M = .ok (.accepted s')) :
    s'.base = g'.base ∧ s'.k1 = g'.k1 ∧ s'.f0 = g'.nextRhs ∧ s'.ec = s.ec := by
  unfold St.attempt Method.start Method.finish at h
  rw [hec] at h
  simp only [bind_ok] at h
  rw [hg, bind_ok, hg', bind_ok] at h
  generalize (if M.disableErrorCheck = true then (⟨s.h, true, false⟩ : RK.CtlResult ℝ)
    else M.control s.h g'.err 2) = res at h
  obtain ⟨p, hp, h⟩ := bind_inv h
  split at h
  · cases h
  · split at h
    · rename_i hacc
      rw [if_pos hacc] at hp
      obtain ⟨f0, hf, hp⟩ := bind_inv hp
      cases hp
      cases h
      simp only [RK.Trunc.none, Bool.false_eq_true, if_false] at hf
      cases hf
      refine ⟨?_, ?_, ?_, ?_⟩ <;> dsimp only <;> split <;> rfl
    · cases h

/-- An accepted attempt without an event controller -/
theorem accepted_inv {M : Method ℝ E} (hec : M.ec = none) {s s' : St ℝ E} {g g' : Stages ℝ}
    (hg : s.stages M = .ok g) (hg' : s.errorStages M g = .ok g') (h : s.attempt M = .ok (.accepted s')) :
    s'.t = s.t + s.h ∧ s'.x = g'.next ∧ ∃ c, s'.log = .post s.h true c RK.Trunc.none g'.err :: s.log := by
  unfold St.attempt Method.start Method.finish at h
  rw [hec] at h
  simp only [bind_ok] at h
  rw [hg, bind_ok, hg', bind_ok] at h
  generalize (if M.disableErrorCheck = true then (⟨s.h, true, false⟩ : RK.CtlResult ℝ)
    else M.control s.h g'.err 2) = res at h
  obtain ⟨p, hp, h⟩ := bind_inv h
  split at h
  · cases h
  · split at h
    · rename_i hacc
      rw [if_pos hacc] at hp
      obtain ⟨f0, -, hp⟩ := bind_inv hp
      cases hp
      cases h
      refine ⟨?_, ?_, _, by rw [hacc]; split <;> rfl⟩ <;> dsimp only <;> split <;> rfl
    · cases h

/-- Without the error check, and without an event controller, an attempt is accepted. -/
theorem accepted_of_disabled {M : Method ℝ E} (hec : M.ec = none) (hdis : M.disableErrorCheck = true) {s : St ℝ E}
    {g : Stages ℝ} (hg : s.stages M = .ok g) : ∃ s', s.attempt M = .ok (.accepted s') := by
  unfold St.attempt Method.start Method.finish St.errorStages
  rw [hec, hdis]
  simp only [bind_ok, if_true]
  rw [hg]
  simp only [bind_ok, Bool.false_eq_true, false_and, if_false, RK.Trunc.none]
  exact ⟨_, rfl⟩

/-- A solver at the beginning of a step: either it has just been given its initial state, and `b0` holds the Jacobian
that will be computed, or it has made steps before, and `b0` holds the Jacobian computed once, at another state. -/
structure Ready (M : Method ℝ E) (n2 n1 : Nat) (f : ℝ → (Fin (2 * n2 + n1) → ℝ) → Fin (2 * n2 + n1) → ℝ)
    (s : St ℝ E) (b0 : Base ℝ) : Prop where
  size : 0 < n2 + n1
  rhs : Computes (M.rhs s.ec) n2 n1 f
  dx : M.dx ≠ 0
  d : M.d ≠ 0
  x : s.x.length = 2 * n2 + n1
  jac : (s.k1 = [] ∧ ∃ f0, (M.rhs s.ec).rhs s.t s.x = .ok f0 ∧
      ({ s.base with n := 2 * n2 + n1, n2 := n2, n1 := n1, buf := Vec.resize s.base.buf (n2 + n1) } :
        Base ℝ).buildJacobian ((M.rhs s.ec).rhs s.t) M.dx s.x f0 = .ok b0) ∨
    (s.k1 ≠ [] ∧ s.base = b0 ∧ b0.Ok ∧ b0.n2 = n2 ∧ b0.n1 = n1)
  /-- The elements of the Jacobian are at positions that satisfy the fill condition of the factorizer. -/
  fill : ∀ r c, r < c → (∃ r', r' ≤ r ∧ b0.Pattern r' c) → ∃ c', c ≤ c' ∧ b0.Pattern r c'

/-- The solver with the step size `h` at the beginning of a step -/
def St.at (s : St ℝ E) (h : ℝ) : St ℝ E := { s with h := h, log := .pre (some h) :: s.log }

/-- The first pass of `doStep` from `s` with the step size `h`: `s1` is the solver after `initStep`, `g` are the
stages. -/
structure PassEqs (M : Method ℝ E) (n : Nat) (f : ℝ → (Fin n → ℝ) → Fin n → ℝ)
    (J : (Fin n → ℝ) →L[ℝ] (Fin n → ℝ)) (s : St ℝ E) (h : ℝ) (s1 : St ℝ E) (g : Stages ℝ) : Prop where
  init : (s.at h).initStep2 M = .ok s1
  step : s1.h = h
  time : s1.t = s.t
  state : s1.x = s.x
  log : s1.log = .pre (some h) :: s.log
  stages : s1.stages M = .ok g
  eq1 : fn n g.k1 - (h * M.d) • J (fn n g.k1) = f s.t (fn n s.x)
  eq2 : fn n g.k2 - (h * M.d) • J (fn n g.k2) =
    f (s.t + 2 / 3 * h) (fn n s.x + (2 / 3 * h) • fn n g.k1) - (4 / 3 * h * M.d) • J (fn n g.k1)
  next : fn n g.next = fn n s.x + h • ((1 / 4 : ℝ) • fn n g.k1 + (3 / 4 : ℝ) • fn n g.k2)

/-- The stages of the error estimate of the same pass -/
def EstEqs (M : Method ℝ E) (n : Nat) (f : ℝ → (Fin n → ℝ) → Fin n → ℝ)
    (J : (Fin n → ℝ) →L[ℝ] (Fin n → ℝ)) (s : St ℝ E) (h : ℝ) (s1 : St ℝ E) (g : Stages ℝ)
    (k3 k4 v : Fin n → ℝ) : Prop :=
  M.disableErrorCheck = false →
    (∃ b, s1.errorStages M g = .ok { g with base := b, err := M.norm (List.ofFn v) }) ∧
    k3 - (h * M.d) • J k3 = f (s.t + h) (fn n g.next) ∧
    k4 - (h * M.d) • J k4 = f (s.t + 5 / 3 * h) (fn n g.next + (2 / 3 * h) • k3)
      + (h * M.d) • ((2 / 3 : ℝ) • J (fn n g.k1) + (6 : ℝ) • J (fn n g.k2)) ∧
    v = (h / 8) • ((5 : ℝ) • (k3 - fn n g.k2) + fn n g.k1 - k4)

/-- `initStep` of SW2(4) with all step sizes -/
theorem ready_init {M : Method ℝ E} {n2 n1 : Nat} {f} {s : St ℝ E} {b0 : Base ℝ} (hs : Ready M n2 n1 f s b0)
    (hf0 : s.k1 ≠ [] → s.f0 = List.ofFn (f s.t (fn _ s.x))) (h : ℝ) :
    b0.n = 2 * n2 + n1 ∧ ∃ s1, (s.at h).initStep2 M = .ok s1 ∧ Live n2 n1 s1 ∧ s1.h = h ∧ s1.t = s.t ∧ s1.x = s.x ∧
      s1.ec = s.ec ∧ s1.log = .pre (some h) :: s.log ∧ b0.SameJ s1.base ∧ s1.f0 = List.ofFn (f s.t (fn _ s.x)) ∧
      (h * M.d ≠ 0 → s1.base.cur = some (h * M.d)) := by
  have hu := computes_total hs.rhs
  obtain ⟨r2, r1, hrhs⟩ := hs.rhs
  have hin : Live n2 n1 (s.at h) ∨ ((s.at h).k1 = [] ∧ (s.at h).x.length = 2 * n2 + n1) := by
    rcases hs.jac with ⟨k, -⟩ | ⟨k, hb, ok, p2, p1⟩
    · exact Or.inr ⟨k, hs.x⟩
    · exact Or.inl ⟨by rw [← hb] at ok; exact ok, by rw [← hb] at p2; exact p2, by rw [← hb] at p1; exact p1, hs.x,
        by show s.f0.length = _; rw [hf0 k]; simp⟩
  obtain ⟨s1, e1, e2, e3, e4, e5, e6, e7, e8, e9⟩ := initStep2_ok (s := s.at h) ⟨r2, r1, hu⟩ hs.dx hin
  have elog : s1.log = .pre (some h) :: s.log := by
    have h' := e1
    unfold St.initStep2 at h'
    obtain ⟨_, -, h'⟩ := bind_inv h'
    obtain ⟨_, -, h'⟩ := bind_inv h'
    cases h'
    rfl
  have hc : h * M.d ≠ 0 → s1.base.cur = some (h * M.d) := fun h' => by
    have := e9 h'
    rw [e3] at this
    exact this
  rcases hs.jac with ⟨k, f0, j1, j2⟩ | ⟨k, hb, ok, p2, p1⟩
  · obtain ⟨k1, b1, k2, i1, i2, i3, k3⟩ := e8 k
    have h1 : (M.rhs s.ec).rhs s.t s.x = .ok s1.f0 := k1
    have h2 : s1.f0 = f0 := by
      rw [j1] at h1
      injection h1 with h1
      exact h1.symm
    have hb1 : b1 = b0 := by
      have h1 : ({ s.base with n := 2 * n2 + n1, n2 := n2, n1 := n1, buf := Vec.resize s.base.buf (n2 + n1) } :
        Base ℝ).buildJacobian ((M.rhs s.ec).rhs s.t) M.dx s.x s1.f0 = .ok b1 := k2
      rw [h2, j2] at h1
      injection h1 with h1
      exact h1.symm
    rw [hb1] at k3 i1 i2 i3
    refine ⟨by rw [i1.j.n, i2, i3], s1, e1, e2, e3, e4, e5, e6, elog, k3, ?_, hc⟩
    rw [hrhs _ _ hs.x] at h1
    injection h1 with h1
    exact h1.symm
  · obtain ⟨k1, k2⟩ := e7 k
    rw [← hb] at ok p2 p1
    rw [← hb]
    exact ⟨by rw [ok.j.n, p2, p1], s1, e1, e2, e3, e4, e5, e6, elog, k1, k2.trans (hf0 k), hc⟩

/-- What the solver holds after the stages of a pass -/
structure PassState (M : Method ℝ E) (n2 n1 : Nat) (f : ℝ → (Fin (2 * n2 + n1) → ℝ) → Fin (2 * n2 + n1) → ℝ)
    (b0 : Base ℝ) (s : St ℝ E) (h : ℝ) (s1 : St ℝ E) (g : Stages ℝ) : Prop where
  ec : s1.ec = s.ec
  len : g.next.length = 2 * n2 + n1
  len1 : g.k1.length = 2 * n2 + n1
  rhs : g.nextRhs = List.ofFn (f (s.t + h) (fn _ g.next))
  base : ∃ g', s1.errorStages M g = .ok g' ∧ g'.base.Ok ∧ b0.SameJ g'.base ∧ g'.next = g.next ∧ g'.k1 = g.k1 ∧
    g'.nextRhs = g.nextRhs

/-- The stages of a step with a step size for which the matrix can be factorized -/
theorem regular_stages {M : Method ℝ E} {n2 n1 : Nat} {f} {s : St ℝ E} {b0 : Base ℝ} (hs : Ready M n2 n1 f s b0)
    (hf0 : s.k1 ≠ [] → s.f0 = List.ofFn (f s.t (fn _ s.x))) {h : ℝ} (hne : h ≠ 0) (hr : b0.Regular (h * M.d)) :
    ∃ s1 g k3 k4 v,
      PassEqs M (2 * n2 + n1) f (b0.op _) s h s1 g ∧ EstEqs M (2 * n2 + n1) f (b0.op _) s h s1 g k3 k4 v ∧
      PassState M n2 n1 f b0 s h s1 g := by
  have hu := computes_total hs.rhs
  obtain ⟨r2, r1, hrhs⟩ := hs.rhs
  have hhd : h * M.d ≠ 0 := mul_ne_zero hne hs.d
  obtain ⟨hb0n, s1, e1, e2, e3', e4', e5', e6', elog, k3, hfs, e8⟩ := ready_init hs hf0 h
  have hn1 : s1.base.n = 2 * n2 + n1 := by rw [k3.1, hb0n]
  have hc := e8 hhd
  have hv : (M.rhs s1.ec).varCount = 2 * n2 + n1 := by unfold Rhs.varCount; rw [e6', r2, r1]
  have htot : Total (M.rhs s1.ec) := by rw [e6']; exact hu
  have hm' : 0 < s1.base.n2 + s1.base.n1 := by rw [e2.pos, e2.fst]; exact hs.size
  have ha : s1.h * M.d = h * M.d ∨ s1.base.n2 = 0 := Or.inl (by rw [e3'])
  obtain ⟨g, g1, g2, g3, g4, g5⟩ := stages_ok e2.ok hm' hc (k3.regular hr) ha (by rw [hn1, hv])
    (by rw [e2.x, hn1]) (by rw [e2.f0, hn1]) htot
  have hj : ∀ (x : List ℝ) (i : Fin (2 * n2 + n1)), b0.op _ (fn _ x) i = s1.base.jmul x i := by
    intro x i
    rw [op_apply hb0n, k3.jmul]
  have hval : ∀ t x, x.length = 2 * n2 + n1 → (M.rhs s1.ec).rhs t x = .ok (List.ofFn (f t (fn _ x))) := by
    rw [e6']; exact hrhs
  have hsf0 : fn (2 * n2 + n1) s1.f0 = f s.t (fn _ s.x) := by rw [hfs, fn_ofFn]
  have hnext : fn (2 * n2 + n1) g.next = fn _ s.x + h • ((1 / 4 : ℝ) • fn _ g.k1 + (3 / 4 : ℝ) • fn _ g.k2) := by
    funext i
    have := g5.next i (by rw [hn1]; exact i.2)
    rw [e3', e5'] at this
    exact this
  have hpass : PassEqs M (2 * n2 + n1) f (b0.op _) s h s1 g := by
    refine ⟨e1, e3', e4', e5', elog, g1, ?_, ?_, hnext⟩
    · funext i
      have := g5.k1 i (by rw [hn1]; exact i.2)
      rw [← hsf0]
      simp only [Pi.sub_apply, Pi.smul_apply, smul_eq_mul, hj]
      exact this
    · obtain ⟨w, ff, w1, w2, w3, -, w5⟩ := g5.k2
      rw [e3', e4'] at w3
      rw [hval _ _ (by rw [w1, hn1])] at w3
      cases w3
      have hw : fn (2 * n2 + n1) w = fn _ s.x + (2 / 3 * h) • fn _ g.k1 := by
        funext i
        have := w2 i (by rw [hn1]; exact i.2)
        rw [e3', e5'] at this
        simpa [fn] using this
      funext i
      have h5 := w5 i (by rw [hn1]; exact i.2)
      rw [e3', hw] at h5
      simp only [Pi.sub_apply, Pi.smul_apply, smul_eq_mul, hj]
      have h6 : (List.ofFn (f (s.t + 2 / 3 * h) (fn _ s.x + (2 / 3 * h) • fn _ g.k1))).getD (i : Nat) 0 =
        f (s.t + 2 / 3 * h) (fn _ s.x + (2 / 3 * h) • fn _ g.k1) i := congrFun (fn_ofFn _) i
      rw [h6] at h5
      exact h5
  have hrn : g.nextRhs = List.ofFn (f (s.t + h) (fn _ g.next)) := by
    have hnr := g5.nextRhs
    rw [e3', e4', hval _ _ (by rw [g5.lenNext, hn1])] at hnr
    injection hnr with hnr
    exact hnr.symm
  have hl1 : g.next.length = 2 * n2 + n1 := by rw [g5.lenNext, hn1]
  have hl2 : g.k1.length = 2 * n2 + n1 := by rw [g5.len1, hn1]
  cases hdis : M.disableErrorCheck with
  | true =>
    refine ⟨s1, g, 0, 0, 0, hpass, (fun h' => by rw [hdis] at h'; cases h'), e6', hl1, hl2, hrn, g, ?_, g2, k3.trans g3, rfl,
      rfl, rfl⟩
    unfold St.errorStages
    rw [if_pos hdis]
  | false =>
    obtain ⟨b, k3', k4, v, q1, qb, qj, -, q2⟩ := errorStages_ok hdis g2 g3 hm' g4 (k3.regular hr) ha (by rw [hn1, hv]) htot g5
    refine ⟨s1, g, fn _ k3', fn _ k4, fn _ v, hpass, fun _ => ⟨⟨b, ?_⟩, ?_, ?_, ?_⟩,
      e6', hl1, hl2, hrn, _, q1, qb, k3.trans qj, rfl, rfl, rfl⟩
    · rw [ofFn_fn (by rw [q2.lenErr, hn1])]
      exact q1
    · have hnr := g5.nextRhs
      rw [e3', e4', hval _ _ (by rw [g5.lenNext, hn1])] at hnr
      funext i
      have := q2.eq3 i (by rw [hn1]; exact i.2)
      simp only [Pi.sub_apply, Pi.smul_apply, smul_eq_mul, hj]
      have h6 : g.nextRhs.getD (i : Nat) 0 = f (s.t + h) (fn _ g.next) i := by
        have h7 : List.ofFn (f (s.t + h) (fn _ g.next)) = g.nextRhs := by injection hnr
        rw [← h7]
        exact congrFun (fn_ofFn _) i
      rw [h6] at this
      exact this
    · obtain ⟨w, ff, w1, w2, w3, -, w5⟩ := q2.eq4
      rw [e3', e4'] at w3
      rw [hval _ _ (by rw [w1, hn1])] at w3
      cases w3
      have hw : fn (2 * n2 + n1) w = fn _ g.next + (2 / 3 * h) • fn _ k3' := by
        funext i
        have := w2 i (by rw [hn1]; exact i.2)
        rw [e3'] at this
        simpa [fn] using this
      funext i
      have h5 := w5 i (by rw [hn1]; exact i.2)
      rw [e3', hw] at h5
      simp only [Pi.sub_apply, Pi.add_apply, Pi.smul_apply, smul_eq_mul, hj]
      have h6 : (List.ofFn (f (s.t + 5 / 3 * h) (fn _ g.next + (2 / 3 * h) • fn _ k3'))).getD (i : Nat) 0 =
        f (s.t + 5 / 3 * h) (fn _ g.next + (2 / 3 * h) • fn _ k3') i := congrFun (fn_ofFn _) i
      rw [h6] at h5
      exact h5
    · funext i
      have := q2.err i (by rw [hn1]; exact i.2)
      rw [e3'] at this
      simpa [fn] using this

/-- The stages of a step with small step sizes -/
theorem ready_stages {M : Method ℝ E} {n2 n1 : Nat} {f} {s : St ℝ E} {b0 : Base ℝ} (hs : Ready M n2 n1 f s b0)
    (hf0 : s.k1 ≠ [] → s.f0 = List.ofFn (f s.t (fn _ s.x))) :
    ∀ᶠ h in 𝓝[≠] (0 : ℝ), ∃ s1 g k3 k4 v,
      PassEqs M (2 * n2 + n1) f (b0.op _) s h s1 g ∧ EstEqs M (2 * n2 + n1) f (b0.op _) s h s1 g k3 k4 v := by
  have hreg := regular_small b0 M.d hs.fill
  filter_upwards [hreg.filter_mono nhdsWithin_le_nhds, self_mem_nhdsWithin] with h hr hne
  obtain ⟨s1, g, k3, k4, v, a1, a2, -⟩ := regular_stages hs hf0 hne hr
  exact ⟨s1, g, k3, k4, v, a1, a2⟩

/-- One pass of `doStep` -/
theorem doStep2_one {M : Method ℝ E} {s s1 : St ℝ E} {h : ℝ} (hi : (s.at h).initStep2 M = .ok s1) (s' : St ℝ E) :
    ({ s with h := h } : St ℝ E).doStep2 M 1 = some (.ok (.accepted s')) ↔ s1.attempt M = .ok (.accepted s') := by
  unfold St.doStep2 St.passes
  have hi' : ({ ({ s with h := h } : St ℝ E) with log := .pre (some h) :: s.log } : St ℝ E).initStep2 M = .ok s1 := hi
  dsimp only
  rw [if_pos rfl, hi']
  dsimp only
  cases ha : s1.attempt M with
  | error e => simp
  | ok a => cases a <;> simp [St.passes]

/-- C41 and C93 together -/
theorem ready_order {M : Method ℝ E} {n2 n1 : Nat} {f} {s : St ℝ E} {b0 : Base ℝ} (hs : Ready M n2 n1 f s b0)
    (hf0 : s.k1 ≠ [] → s.f0 = List.ofFn (f s.t (fn _ s.x))) (hec : M.ec = none)
    (hf : ContDiffAt ℝ 2 (fun p : ℝ × (Fin (2 * n2 + n1) → ℝ) => f p.1 p.2) (s.t, fn _ s.x)) :
    ∃ X V : ℝ → Fin (2 * n2 + n1) → ℝ,
      (∀ᶠ h in 𝓝[≠] (0 : ℝ),
        (M.disableErrorCheck = true →
          ∃ s', ({ s with h := h } : St ℝ E).doStep2 M 1 = some (.ok (.accepted s'))) ∧
        ∀ s', ({ s with h := h } : St ℝ E).doStep2 M 1 = some (.ok (.accepted s')) →
          s'.t = s.t + h ∧ fn _ s'.x = X h ∧
          (M.disableErrorCheck = false → ∃ c,
            s'.log = .post h true c RK.Trunc.none (M.norm (List.ofFn (V h))) :: .pre (some h) :: s.log)) ∧
      (∀ y : ℝ → Fin (2 * n2 + n1) → ℝ, y s.t = fn _ s.x → (∀ᶠ t in 𝓝 s.t, HasDerivAt y (f t (y t)) t) →
        (fun h => X h - y (s.t + h)) =O[𝓝[≠] 0] (fun h : ℝ => h ^ 3)) ∧
      (V =O[𝓝[≠] 0] (fun h : ℝ => h ^ 3)) := by
  have hJ := ready_stages hs hf0
  generalize b0.op (2 * n2 + n1) = J at hJ
  have hch : ∀ h : ℝ, ∃ (s1 : St ℝ E) (g : Stages ℝ) (k3 k4 v : Fin (2 * n2 + n1) → ℝ), (∃ s1 g k3 k4 v,
      PassEqs M (2 * n2 + n1) f J s h s1 g ∧ EstEqs M (2 * n2 + n1) f J s h s1 g k3 k4 v) →
      PassEqs M (2 * n2 + n1) f J s h s1 g ∧ EstEqs M (2 * n2 + n1) f J s h s1 g k3 k4 v := by
    intro h
    by_cases hP : ∃ s1 g k3 k4 v,
      PassEqs M (2 * n2 + n1) f J s h s1 g ∧ EstEqs M (2 * n2 + n1) f J s h s1 g k3 k4 v
    · obtain ⟨s1, g, k3, k4, v, a⟩ := hP
      exact ⟨s1, g, k3, k4, v, fun _ => a⟩
    · exact ⟨s, ⟨s.base, [], [], [], [], 0⟩, 0, 0, 0, fun h' => absurd h' hP⟩
  choose s1 g k3 k4 v hq using hch
  have hev := hJ.mono (fun h hh => hq h hh)
  have hl : 𝓝[≠] (0 : ℝ) ≤ 𝓝 0 := nhdsWithin_le_nhds
  have hsw : SW (𝓝[≠] 0) f s.t (fn _ s.x) J M.d (fun h => fn _ (g h).k1) (fun h => fn _ (g h).k2) :=
    ⟨hev.mono (fun h hh => hh.1.eq1), hev.mono (fun h hh => hh.1.eq2)⟩
  refine ⟨fun h => fn _ (g h).next, fun h => if M.disableErrorCheck then 0 else v h, ?_, ?_, ?_⟩
  · filter_upwards [hev] with h ⟨p, q⟩
    refine ⟨fun hdis => ?_, fun s' hs' => ?_⟩
    · obtain ⟨s', e⟩ := accepted_of_disabled hec hdis p.stages
      exact ⟨s', (doStep2_one p.init s').2 e⟩
    · have ha := (doStep2_one p.init s').1 hs'
      cases hd : M.disableErrorCheck with
      | true =>
        have : (s1 h).errorStages M (g h) = .ok (g h) := by
          unfold St.errorStages
          rw [if_pos hd]
        obtain ⟨r1, r2, -⟩ := accepted_inv hec p.stages this ha
        rw [p.step, p.time] at r1
        exact ⟨r1, by rw [r2], fun h' => by cases h'⟩
      | false =>
        obtain ⟨⟨b, c1⟩, -⟩ := q hd
        obtain ⟨r1, r2, c, r3⟩ := accepted_inv hec p.stages c1 ha
        rw [p.step, p.time] at r1
        rw [p.step, p.log] at r3
        exact ⟨r1, by rw [r2], fun _ => ⟨c, r3⟩⟩
  · intro y h0 hy
    refine (sw_order hl hf h0 hy hsw).congr' ?_ EventuallyEq.rfl
    filter_upwards [hev] with h hh
    rw [hh.1.next]
  · cases hd : M.disableErrorCheck with
    | true =>
      simp only [if_true]
      exact isBigO_zero _ _
    | false =>
      simp only [Bool.false_eq_true, if_false]
      have h3 : ∀ᶠ h in 𝓝[≠] (0 : ℝ), k3 h - (h * M.d) • J (k3 h) =
          f (s.t + h) (fn _ s.x + h • ((1 / 4 : ℝ) • fn _ (g h).k1 + (3 / 4 : ℝ) • fn _ (g h).k2)) := by
        filter_upwards [hev] with h ⟨p, q⟩
        rw [← p.next]
        exact (q hd).2.1
      have h4 : ∀ᶠ h in 𝓝[≠] (0 : ℝ), k4 h - (h * M.d) • J (k4 h) =
          f (s.t + 5 / 3 * h) (fn _ s.x + h • ((1 / 4 : ℝ) • fn _ (g h).k1 + (3 / 4 : ℝ) • fn _ (g h).k2)
            + (2 / 3 * h) • k3 h)
            + (h * M.d) • ((2 / 3 : ℝ) • J (fn _ (g h).k1) + (6 : ℝ) • J (fn _ (g h).k2)) := by
        filter_upwards [hev] with h ⟨p, q⟩
        rw [← p.next]
        exact (q hd).2.2.1
      refine (sw_estimate hl hf hsw h3 h4).congr' ?_ EventuallyEq.rfl
      filter_upwards [hev] with h ⟨p, q⟩
      rw [(q hd).2.2.2]

/-- C41: the local error of a step of SW2(4) is of third order in the step size, whatever Jacobian is in use: in the
first step after `setInitialState`, and in all later steps, in which the Jacobian is that of another state. -/
theorem C41_order {M : Method ℝ E} {n2 n1 : Nat} {f} {s : St ℝ E} {b0 : Base ℝ} (hs : Ready M n2 n1 f s b0)
    (hf0 : s.k1 ≠ [] → s.f0 = List.ofFn (f s.t (fn _ s.x))) (hec : M.ec = none)
    (hf : ContDiffAt ℝ 2 (fun p : ℝ × (Fin (2 * n2 + n1) → ℝ) => f p.1 p.2) (s.t, fn _ s.x))
    {y : ℝ → Fin (2 * n2 + n1) → ℝ} (h0 : y s.t = fn _ s.x) (hy : ∀ᶠ t in 𝓝 s.t, HasDerivAt y (f t (y t)) t) :
    ∃ X : ℝ → Fin (2 * n2 + n1) → ℝ,
      (∀ᶠ h in 𝓝[≠] (0 : ℝ),
        (M.disableErrorCheck = true →
          ∃ s', ({ s with h := h } : St ℝ E).doStep2 M 1 = some (.ok (.accepted s'))) ∧
        ∀ s', ({ s with h := h } : St ℝ E).doStep2 M 1 = some (.ok (.accepted s')) →
          s'.t = s.t + h ∧ fn _ s'.x = X h) ∧
      (fun h => X h - y (s.t + h)) =O[𝓝[≠] 0] (fun h : ℝ => h ^ 3) := by
  obtain ⟨X, V, h1, h2, -⟩ := ready_order hs hf0 hec hf
  refine ⟨X, h1.mono (fun h hh => ⟨hh.1, fun s' hs' => ?_⟩), h2 y h0 hy⟩
  obtain ⟨a, b, -⟩ := hh.2 s' hs'
  exact ⟨a, b⟩

/-- C93: the error that SW2(4) reports to the observers, and gives to the step size controller, is the norm of a
vector of third order in the step size, like the local error. -/
theorem C93_estimate {M : Method ℝ E} {n2 n1 : Nat} {f} {s : St ℝ E} {b0 : Base ℝ} (hs : Ready M n2 n1 f s b0)
    (hf0 : s.k1 ≠ [] → s.f0 = List.ofFn (f s.t (fn _ s.x))) (hec : M.ec = none)
    (hdis : M.disableErrorCheck = false)
    (hf : ContDiffAt ℝ 2 (fun p : ℝ × (Fin (2 * n2 + n1) → ℝ) => f p.1 p.2) (s.t, fn _ s.x)) :
    ∃ V : ℝ → Fin (2 * n2 + n1) → ℝ,
      (∀ᶠ h in 𝓝[≠] (0 : ℝ), ∀ s', ({ s with h := h } : St ℝ E).doStep2 M 1 = some (.ok (.accepted s')) → ∃ c,
        s'.log = .post h true c RK.Trunc.none (M.norm (List.ofFn (V h))) :: .pre (some h) :: s.log) ∧
      V =O[𝓝[≠] 0] (fun h : ℝ => h ^ 3) := by
  obtain ⟨X, V, h1, -, h2⟩ := ready_order hs hf0 hec hf
  exact ⟨V, h1.mono (fun h hh s' hs' => (hh.2 s' hs').2.2 hdis), h2⟩

/-- `h² c` is not of third order. -/
theorem not_third {F : Type*} [NormedAddCommGroup F] [NormedSpace ℝ F] {c : F} (hc : c ≠ 0) :
    ¬ (fun h : ℝ => (h ^ 2) • c) =O[𝓝[≠] 0] (fun h : ℝ => h ^ 3) := by
  intro h
  obtain ⟨C, hC⟩ := h.bound
  have h1 : ∀ᶠ h in 𝓝[≠] (0 : ℝ), ‖c‖ ≤ C * |h| := by
    filter_upwards [hC, self_mem_nhdsWithin] with h hh hne
    have hpos : 0 < |h| ^ 2 := by have : 0 < |h| := abs_pos.2 hne; positivity
    rw [norm_smul, norm_pow, norm_pow, Real.norm_eq_abs] at hh
    have : |h| ^ 2 * ‖c‖ ≤ |h| ^ 2 * (C * |h|) := by nlinarith
    exact le_of_mul_le_mul_left this hpos
  have h2 : Tendsto (fun h : ℝ => C * |h|) (𝓝[≠] 0) (𝓝 0) := by
    have : Tendsto (fun h : ℝ => C * |h|) (𝓝 0) (𝓝 (C * |(0 : ℝ)|)) := by
      apply Continuous.tendsto
      fun_prop
    simp only [abs_zero, mul_zero] at this
    exact this.mono_left nhdsWithin_le_nhds
  exact absurd (ge_of_tendsto h2 h1) (not_le.2 (norm_pos_iff.2 hc))

/-! ### C40: the order after a rejected attempt -/

/-- The equations of the stages in terms of operators -/
theorem stage_fn {M : Method ℝ E} {n2 n1 : Nat} {f} {s : St ℝ E} {b0 : Base ℝ} {hd : ℝ} {g : Stages ℝ}
    (hc : Computes (M.rhs s.ec) n2 n1 f) (hn : b0.n = 2 * n2 + n1) (hj : b0.SameJ s.base)
    (hf0 : s.f0 = List.ofFn (f s.t (fn _ s.x))) (hg : StageEqs M s hd g) {h : ℝ} (hh : s.h = h) {t : ℝ} (ht : s.t = t)
    {x : List ℝ} (hx : s.x = x) :
    fn _ g.k1 - hd • b0.op (2 * n2 + n1) (fn _ g.k1) = f t (fn _ x) ∧
    fn _ g.k2 - hd • b0.op (2 * n2 + n1) (fn _ g.k2) =
      f (t + 2 / 3 * h) (fn _ x + (2 / 3 * h) • fn _ g.k1) - (4 / 3 * h * M.d) • b0.op (2 * n2 + n1) (fn _ g.k1) ∧
    fn (2 * n2 + n1) g.next = fn _ x + h • ((1 / 4 : ℝ) • fn _ g.k1 + (3 / 4 : ℝ) • fn _ g.k2) := by
  subst hh ht hx
  have hn1 : s.base.n = 2 * n2 + n1 := by rw [hj.1, hn]
  have hj : ∀ (x : List ℝ) (i : Fin (2 * n2 + n1)), b0.op _ (fn _ x) i = s.base.jmul x i := by
    intro x i
    rw [op_apply hn, hj.jmul]
  refine ⟨?_, ?_, ?_⟩
  · funext i
    have := hg.k1 i (by rw [hn1]; exact i.2)
    have h6 : s.f0.getD (i : Nat) 0 = f s.t (fn _ s.x) i := by rw [hf0]; exact congrFun (fn_ofFn _) i
    rw [h6] at this
    simp only [Pi.sub_apply, Pi.smul_apply, smul_eq_mul, hj]
    exact this
  · obtain ⟨w, ff, w1, w2, w3, -, w5⟩ := hg.k2
    rw [hc.2.2 _ _ (by rw [w1, hn1])] at w3
    cases w3
    have hw : fn (2 * n2 + n1) w = fn _ s.x + (2 / 3 * s.h) • fn _ g.k1 := by
      funext i
      have := w2 i (by rw [hn1]; exact i.2)
      simpa [fn] using this
    funext i
    have h5 := w5 i (by rw [hn1]; exact i.2)
    rw [hw] at h5
    simp only [Pi.sub_apply, Pi.smul_apply, smul_eq_mul, hj]
    have h6 : (List.ofFn (f (s.t + 2 / 3 * s.h) (fn _ s.x + (2 / 3 * s.h) • fn _ g.k1))).getD (i : Nat) 0 =
      f (s.t + 2 / 3 * s.h) (fn _ s.x + (2 / 3 * s.h) • fn _ g.k1) i := congrFun (fn_ofFn _) i
    rw [h6] at h5
    exact h5
  · funext i
    have := hg.next i (by rw [hn1]; exact i.2)
    exact this

theorem errorStages_next {M : Method ℝ E} {s : St ℝ E} {g g' : Stages ℝ} (h : s.errorStages M g = .ok g') :
    g'.next = g.next := by
  unfold St.errorStages at h
  split at h
  · cases h; rfl
  · obtain ⟨k3, h1, h⟩ := bind_inv h
    iterate 11 obtain ⟨_, -, h⟩ := bind_inv h
    cases h
    rfl

/-- What an accepted attempt has computed, without an event controller -/
theorem accepted_inv' {M : Method ℝ E} (hec : M.ec = none) {s s' : St ℝ E} {g : Stages ℝ}
    (hg : s.stages M = .ok g) (h : s.attempt M = .ok (.accepted s')) : s'.t = s.t + s.h ∧ s'.x = g.next := by
  have h' := h
  unfold St.attempt Method.start at h'
  rw [hec] at h'
  simp only [bind_ok] at h'
  rw [hg, bind_ok] at h'
  obtain ⟨g', hg', -⟩ := bind_inv h'
  obtain ⟨a, b, -⟩ := accepted_inv hec hg hg' h
  exact ⟨a, by rw [b, errorStages_next hg']⟩

/-- What a rejected attempt leaves in the base, without an event controller -/
theorem rejected_base {M : Method ℝ E} (hec : M.ec = none) {s s' : St ℝ E} {g g' : Stages ℝ}
    (hg : s.stages M = .ok g) (hg' : s.errorStages M g = .ok g') (h : s.attempt M = .ok (.rejected s')) :
    s'.base = g'.base ∧ s'.ec = s.ec := by
  unfold St.attempt Method.start Method.finish at h
  rw [hec] at h
  simp only [bind_ok] at h
  rw [hg, bind_ok, hg', bind_ok] at h
  generalize (if M.disableErrorCheck = true then (⟨s.h, true, false⟩ : RK.CtlResult ℝ)
    else M.control s.h g'.err 2) = res at h
  obtain ⟨p, hp, h⟩ := bind_inv h
  split at h
  · cases h
  · split at h
    · cases h
    · rename_i hacc
      rw [if_neg hacc] at hp
      cases hp
      cases h
      constructor <;> dsimp only <;> split <;> rfl

/-- Two attempts, of which the first, with the step `rho*h`, was rejected -/
theorem two_attempts {M : Method ℝ E} {n1 : Nat} {f} {s s' : St ℝ E} {b0 : Base ℝ} (hs : Ready M 0 n1 f s b0)
    (hf0 : s.k1 ≠ [] → s.f0 = List.ofFn (f s.t (fn _ s.x))) (hec : M.ec = none) {rho h : ℝ} (hrho : rho ≠ 0)
    (h1 : rho ≠ 1) (hh : h ≠ 0) (hr : b0.Regular (rho * h * M.d))
    (hd : ({ s with h := rho * h } : St ℝ E).doStep2 M 2 = some (.ok (.accepted s'))) (ht : s'.t = s.t + h) :
    ∃ k1 k2 : Fin (2 * 0 + n1) → ℝ, k1 - (rho * h * M.d) • b0.op (2 * 0 + n1) k1 = f s.t (fn _ s.x) ∧
      k2 - (rho * h * M.d) • b0.op (2 * 0 + n1) k2 =
        f (s.t + 2 / 3 * h) (fn _ s.x + (2 / 3 * h) • k1) - (4 / 3 * h * M.d) • b0.op (2 * 0 + n1) k1 ∧
      fn (2 * 0 + n1) s'.x = fn _ s.x + h • ((1 / 4 : ℝ) • k1 + (3 / 4 : ℝ) • k2) := by
  have hu := computes_total hs.rhs
  have hrhs := hs.rhs
  obtain ⟨hbn, s1, e1, e2, e3, e4, e5, e6, elog, k3, hfs, e8⟩ := ready_init hs hf0 (rho * h)
  have hn1 : s1.base.n = 2 * 0 + n1 := by rw [k3.1, hbn]
  have hc := e8 (mul_ne_zero (mul_ne_zero hrho hh) hs.d)
  have hv : (M.rhs s1.ec).varCount = 2 * 0 + n1 := by unfold Rhs.varCount; rw [e6, hrhs.1, hrhs.2.1]
  have htot : Total (M.rhs s1.ec) := by rw [e6]; exact hu
  have hm' : 0 < s1.base.n2 + s1.base.n1 := by rw [e2.pos, e2.fst]; exact hs.size
  obtain ⟨g, g1, g2, g3, g4, g5⟩ := stages_ok e2.ok hm' hc (k3.regular hr) (Or.inr e2.pos) (by rw [hn1, hv])
    (by rw [e2.x, hn1]) (by rw [e2.f0, hn1]) htot
  unfold St.doStep2 St.passes at hd
  have e1' : ({ ({ s with h := rho * h } : St ℝ E) with log := .pre (some (rho * h)) :: s.log } : St ℝ E).initStep2 M =
    .ok s1 := e1
  dsimp only at hd
  rw [if_pos rfl, e1'] at hd
  dsimp only at hd
  cases ha : s1.attempt M with
  | error e => rw [ha] at hd; simp at hd
  | ok a =>
    rw [ha] at hd
    cases a with
    | accepted s2 =>
      simp only [Option.some.injEq, Except.ok.injEq, RK.Attempt.accepted.injEq] at hd
      obtain ⟨a1, -⟩ := accepted_inv' hec g1 ha
      rw [hd, ht, e3, e4] at a1
      exact absurd (mul_right_cancel₀ hh ((add_left_cancel a1).symm.trans (one_mul h).symm)) h1
    | thrown m s2 => simp at hd
    | rejected s2 =>
      dsimp only at hd
      obtain ⟨q1, q2, q3, q4, q5, -⟩ := rejected_inv ha
      obtain ⟨b, w3, w4, v, p1, p2, p3, p4, -⟩ := errorStages_ok q5 g2 g3 hm' g4 (k3.regular hr) (Or.inr e2.pos)
        (by rw [hn1, hv]) htot g5
      obtain ⟨t1, t2⟩ := rejected_base hec g1 p1 ha
      dsimp only at t1
      have hJ : b0.SameJ s2.base := by rw [t1]; exact k3.trans p3
      have hn2 : s2.base.n = 2 * 0 + n1 := by rw [hJ.1, hbn]
      have hpos : s2.base.n2 = 0 := by rw [t1, p3.2.1, e2.pos]
      have hfst : s2.base.n1 = n1 := by rw [t1, p3.2.2.1, e2.fst]
      have hec2 : s2.ec = s.ec := by rw [t2, e6]
      have hf2 : s2.f0 = List.ofFn (f s.t (fn _ s.x)) := by rw [q4, hfs]
      have ht2 : s2.t = s.t := by rw [q2, e4]
      have hx2 : s2.x = s.x := by rw [q3, e5]
      obtain ⟨g', g1', -, -, -, g5'⟩ := stages_ok (M := M) (s := { s2 with log := .pre (some s2.h) :: s2.log })
        (hd := rho * h * M.d)
        (by show s2.base.Ok; rw [t1]; exact p2) (by show 0 < s2.base.n2 + s2.base.n1; rw [hpos, hfst]; exact hs.size)
        (by show s2.base.cur = _; rw [q1, hc]) (hJ.regular hr) (Or.inr hpos)
        (by show s2.base.n = (M.rhs s2.ec).varCount; rw [hn2, hec2, ← e6, hv])
        (by show s2.x.length = s2.base.n; rw [hx2, hn2]; exact hs.x)
        (by show s2.f0.length = s2.base.n; rw [hf2, hn2]; simp)
        (by show Total (M.rhs s2.ec); rw [hec2]; exact hu)
      unfold St.passes at hd
      dsimp only at hd
      rw [if_neg (by decide)] at hd
      dsimp only at hd
      cases hb : St.attempt M { s2 with log := .pre (some s2.h) :: s2.log } with
      | error e => rw [hb] at hd; simp at hd
      | ok a =>
        rw [hb] at hd
        cases a with
        | thrown m s3 => simp at hd
        | rejected s3 => simp [St.passes] at hd
        | accepted s3 =>
          simp only [Option.some.injEq, Except.ok.injEq, RK.Attempt.accepted.injEq] at hd
          obtain ⟨a1, a2⟩ := accepted_inv' hec g1' hb
          rw [hd, ht] at a1
          have hh2 : s2.h = h := by
            have a1' : s.t + h = s2.t + s2.h := a1
            rw [ht2] at a1'
            exact (add_left_cancel a1').symm
          obtain ⟨x1, x2, x3⟩ := stage_fn (s := { s2 with log := .pre (some s2.h) :: s2.log }) (by
            show Computes (M.rhs s2.ec) 0 n1 f
            rw [hec2]; exact hrhs) hbn hJ (by show s2.f0 = _; rw [hf2, ← ht2, ← hx2]) g5' hh2 ht2 hx2
          refine ⟨_, _, x1, x2, ?_⟩
          rw [← x3, ← a2, hd]

/-- The step sizes `h` for which the first attempt, with `rho*h`, is rejected, and the second one, with `h`, is
accepted -/
def retried (M : Method ℝ E) (s : St ℝ E) (rho : ℝ) : Set ℝ :=
  {h | ∃ s', ({ s with h := rho * h } : St ℝ E).doStep2 M 2 = some (.ok (.accepted s')) ∧ s'.t = s.t + h}

/-- C40 is false, and the order is lost: when the first attempt, with the step `rho*h`, is rejected and the second one,
with the step `h`, is accepted, the local error is `h²(rho - 1) d J f + O(h³)`, while it is `O(h³)` if the step `h` is
taken at once (`C41_order`). -/
theorem C40_order {M : Method ℝ E} {n1 : Nat} {f} {s : St ℝ E} {b0 : Base ℝ} (hs : Ready M 0 n1 f s b0)
    (hf0 : s.k1 ≠ [] → s.f0 = List.ofFn (f s.t (fn _ s.x))) (hec : M.ec = none)
    (hf : ContDiffAt ℝ 2 (fun p : ℝ × (Fin (2 * 0 + n1) → ℝ) => f p.1 p.2) (s.t, fn _ s.x))
    {y : ℝ → Fin (2 * 0 + n1) → ℝ} (h0 : y s.t = fn _ s.x) (hy : ∀ᶠ t in 𝓝 s.t, HasDerivAt y (f t (y t)) t)
    {rho : ℝ} (hrho : rho ≠ 0) (hrho1 : rho ≠ 1) :
    ∃ X : ℝ → Fin (2 * 0 + n1) → ℝ,
      (∀ᶠ h in 𝓝[≠] 0 ⊓ 𝓟 (retried M s rho),
        ∃ s', ({ s with h := rho * h } : St ℝ E).doStep2 M 2 = some (.ok (.accepted s')) ∧
          s'.t = s.t + h ∧ fn _ s'.x = X h) ∧
      (fun h => X h - y (s.t + h) - (h ^ 2 * ((rho - 1) * M.d)) • b0.op _ (f s.t (fn _ s.x)))
        =O[𝓝[≠] 0 ⊓ 𝓟 (retried M s rho)] (fun h : ℝ => h ^ 3) := by
  set l := 𝓝[≠] 0 ⊓ 𝓟 (retried M s rho) with hl
  have hl0 : l ≤ 𝓝 0 := inf_le_left.trans nhdsWithin_le_nhds
  have hreg : ∀ᶠ h in l, b0.Regular (rho * h * M.d) := by
    have h1 : Tendsto (fun h : ℝ => rho * h) (𝓝 0) (𝓝 0) := by
      have := (continuous_const_mul rho).tendsto (0 : ℝ)
      rwa [mul_zero] at this
    exact (h1.eventually (regular_small b0 M.d hs.fill)).filter_mono hl0
  have hne : ∀ᶠ h in l, h ≠ 0 := by
    have h1 : ∀ᶠ h in 𝓝[≠] (0 : ℝ), h ≠ 0 := self_mem_nhdsWithin
    exact h1.filter_mono inf_le_left
  have hacc : ∀ᶠ h in l, ∃ s', ({ s with h := rho * h } : St ℝ E).doStep2 M 2 = some (.ok (.accepted s')) ∧
        s'.t = s.t + h := mem_inf_of_right (mem_principal_self _)
  have hev : ∀ᶠ h in l, ∃ (s' : St ℝ E) (k1 k2 : Fin (2 * 0 + n1) → ℝ),
      ({ s with h := rho * h } : St ℝ E).doStep2 M 2 = some (.ok (.accepted s')) ∧ s'.t = s.t + h ∧
      k1 - (rho * h * M.d) • b0.op (2 * 0 + n1) k1 = f s.t (fn _ s.x) ∧
      k2 - (rho * h * M.d) • b0.op (2 * 0 + n1) k2 =
        f (s.t + 2 / 3 * h) (fn _ s.x + (2 / 3 * h) • k1) - (4 / 3 * h * M.d) • b0.op (2 * 0 + n1) k1 ∧
      fn (2 * 0 + n1) s'.x = fn _ s.x + h • ((1 / 4 : ℝ) • k1 + (3 / 4 : ℝ) • k2) := by
    filter_upwards [hreg, hne, hacc] with h a1 a2 a3
    obtain ⟨s', b1, b2⟩ := a3
    obtain ⟨k1, k2, c⟩ := two_attempts hs hf0 hec hrho hrho1 a2 a1 b1 b2
    exact ⟨s', k1, k2, b1, b2, c⟩
  obtain ⟨s', hev⟩ := choose_eventually s hev
  obtain ⟨k1, hev⟩ := choose_eventually 0 hev
  obtain ⟨k2, hev⟩ := choose_eventually 0 hev
  refine ⟨fun h => fn _ s.x + h • ((1 / 4 : ℝ) • k1 h + (3 / 4 : ℝ) • k2 h), ?_, ?_⟩
  · filter_upwards [hev] with h hh
    exact ⟨s' h, hh.1, hh.2.1, hh.2.2.2.2⟩
  · have r1 : ∀ h : ℝ, rho * h * M.d = h * (rho * M.d) := fun h => by ring
    refine sw_stale hl0 hf h0 hy (hev.mono (fun h hh => ?_)) (hev.mono (fun h hh => ?_))
    · rw [← r1]; exact hh.2.2.1
    · rw [← r1]; exact hh.2.2.2.1

/-! ### W1 -/

/-- `initStep` of W1 -/
theorem initStep1_ok {M : Method ℝ E} {n2 n1 : Nat} {f} {s : St ℝ E} {b0 : Base ℝ} (hs : Ready M n2 n1 f s b0) (h : ℝ) :
    b0.n = 2 * n2 + n1 ∧ b0.n2 = n2 ∧ b0.n1 = n1 ∧
    ∃ s1, (s.at h).initStep1 M = .ok s1 ∧ s1.base.Ok ∧ s1.h = h ∧ s1.t = s.t ∧ s1.x = s.x ∧
      s1.ec = s.ec ∧ s1.log = .pre (some h) :: s.log ∧ b0.SameJ s1.base ∧ s1.f0 = List.ofFn (f s.t (fn _ s.x)) ∧
      (h * M.d ≠ 0 → s1.base.cur = some (h * M.d)) := by
  have ut := computes_total hs.rhs
  obtain ⟨u2, u1, hrhs⟩ := hs.rhs
  have hv : (M.rhs s.ec).varCount = 2 * n2 + n1 := by unfold Rhs.varCount; rw [u2, u1]
  have hf := hrhs s.t s.x hs.x
  have hf' : (M.rhs (s.at h).ec).rhs (s.at h).t (s.at h).x = .ok (List.ofFn (f s.t (fn _ s.x))) := hf
  rcases hs.jac with ⟨k, f0, j1, j2⟩ | ⟨k, hb, ok, p2, p1⟩
  · rw [hf] at j1
    injection j1 with j1
    rw [← j1] at j2
    obtain ⟨fs, hfs⟩ := shifts_total ut (dx := M.dx) (t := s.t) (x0 := s.x) (hs.x.trans hv.symm)
    obtain ⟨b1, b', gb, go, g3, g4, g5, g6, g7, g8, g9⟩ := initStep_hard (b := s.base) (h * M.d) hs.dx
      (hs.x.trans hv.symm) (f0 := List.ofFn (f s.t (fn _ s.x))) (by simp [hv]) hfs
    rw [hv, u2, u1, j2] at gb
    injection gb with gb
    rw [← gb] at go g3 g4 g5 g8
    refine ⟨g3.trans hv, g4.trans u2, g5.trans u1, { s.at h with
      f0 := List.ofFn (f s.t (fn _ s.x)), base := b', k1 := List.replicate (M.rhs s.ec).varCount 0 }, ?_, g7, rfl, rfl,
      rfl, rfl, rfl, g8, rfl, g9⟩
    unfold St.initStep1
    rw [hf', bind_ok]
    have hk : (s.at h).k1 = [] := k
    rw [hk]
    simp only [List.isEmpty_nil, if_true]
    have g6' : (s.at h).base.initStep (M.rhs (s.at h).ec) M.dx true (s.at h).t (s.at h).x
      (List.ofFn (f s.t (fn _ s.x))) ((s.at h).h * M.d) = .ok b' := g6
    rw [g6', bind_ok]
    rfl
  · have hne : (s.at h).k1.isEmpty = false := by
      cases hk' : s.k1 with
      | nil => exact absurd hk' k
      | cons a l => show s.k1.isEmpty = false; rw [hk']; rfl
    obtain ⟨b', g1, g2, g3, g4⟩ := updateW_ok ok (h * M.d)
    refine ⟨by rw [ok.j.n, p2, p1], p2, p1, { s.at h with
      f0 := List.ofFn (f s.t (fn _ s.x)), base := b' }, ?_, g2, rfl, rfl, rfl, rfl, rfl, g3, rfl,
      fun h' => g4 (Or.inl h')⟩
    unfold St.initStep1
    rw [hf', bind_ok, hne]
    simp only [Bool.false_eq_true, if_false]
    unfold Base.initStep
    have g1' : (s.at h).base.updateW ((s.at h).h * M.d) = .ok b' := by rw [← g1, ← hb]; rfl
    rw [if_neg (by decide), bind_ok, g1', bind_ok]

/-- A solver after a step is ready for the next one, with the same Jacobian. -/
theorem Ready.next {M : Method ℝ E} {n2 n1 : Nat} {f} {s s' : St ℝ E} {b0 : Base ℝ} (hs : Ready M n2 n1 f s b0)
    (hsz : b0.n2 = n2 ∧ b0.n1 = n1) (hj : b0.SameJ s'.base) (hok : s'.base.Ok) (hx : s'.x.length = 2 * n2 + n1)
    (hk : s'.k1 ≠ []) (he : s'.ec = s.ec) : Ready M n2 n1 f s' s'.base :=
  ⟨hs.size, by rw [he]; exact hs.rhs, hs.dx, hs.d, hx,
    Or.inr ⟨hk, rfl, hok, by rw [hj.2.1, hsz.1], by rw [hj.2.2.1, hsz.2]⟩, fun r c hrc ⟨r', a1, a2⟩ => by
      obtain ⟨c', b1, b2⟩ := hs.fill r c hrc ⟨r', a1, (hj.pattern _ _).2 a2⟩
      exact ⟨c', b1, (hj.pattern _ _).1 b2⟩⟩

/-- One step of W1, with what it leaves in the solver -/
theorem step1_next {M : Method ℝ E} {n2 n1 : Nat} {f} {s : St ℝ E} {b0 : Base ℝ} (hs : Ready M n2 n1 f s b0)
    (hec : M.ec = none) {h : ℝ} (hne : h ≠ 0) (hr : b0.Regular (h * M.d)) :
    ∃ s' k, ({ s with h := h } : St ℝ E).doStep1 M = .ok s' ∧ s'.t = s.t + h ∧ s'.h = h ∧
      k - (h * M.d) • b0.op (2 * n2 + n1) k = f s.t (fn _ s.x) ∧ fn _ s'.x = fn _ s.x + h • k ∧
      Ready M n2 n1 f s' s'.base ∧ b0.SameJ s'.base := by
  obtain ⟨hbn, hb2, hb1, s1, e1, e2, e3, e4, e5, e6, elog, e7, e8, e9⟩ := initStep1_ok hs h
  have hn : s1.base.n = 2 * n2 + n1 := by rw [e7.1, hbn]
  have hc := e9 (mul_ne_zero hne hs.d)
  have hm : 0 < s1.base.n2 + s1.base.n1 := by rw [e7.2.1, e7.2.2.1, hb2, hb1]; exact hs.size
  obtain ⟨b', k, q1, qb, qj, -, q2, q3⟩ := solve_ok e2 hm hc (e7.regular hr) (x := s1.f0) (by rw [hn, e8]; simp)
  obtain ⟨z, p1, p2, p3⟩ := plus_ok (x := s1.x) (v := k) (c := h) (by rw [e5, hs.x, q2, hn])
  have hstep : ∃ s', ({ s with h := h } : St ℝ E).doStep1 M = .ok s' ∧ s'.t = s.t + h ∧ s'.h = h ∧ s'.x = z ∧
      s'.base = b' ∧ s'.k1 = k ∧ s'.ec = s.ec := by
    unfold St.doStep1 Method.start Method.finish
    have e1' : ({ ({ s with h := h } : St ℝ E) with log := .pre (some h) :: s.log } : St ℝ E).initStep1 M = .ok s1 := e1
    rw [hec]
    dsimp only
    rw [e1', bind_ok, bind_ok, e3, q1, bind_ok, p1, bind_ok, bind_ok, e4]
    exact ⟨_, rfl, rfl, rfl, rfl, rfl, rfl, e6⟩
  obtain ⟨s', t1, t2, t3, t4, t5, t6, t7⟩ := hstep
  have hJ : b0.SameJ s'.base := by rw [t5]; exact e7.trans qj
  refine ⟨s', fn _ k, t1, t2, t3, ?_, ?_, hs.next ⟨hb2, hb1⟩ hJ (by rw [t5]; exact qb)
    (by rw [t4, p2, e5, hs.x]) (fun h' => ?_) t7, hJ⟩
  pick_goal 3
  · rw [t6] at h'
    rw [h', hn] at q2
    have := hs.size
    simp at q2
    omega
  · funext i
    have := q3 i (by rw [hn]; exact i.2)
    have hj : b0.op (2 * n2 + n1) (fn _ k) i = s1.base.jmul k i := by rw [op_apply hbn, e7.jmul]
    have hz : s1.f0.getD (i : Nat) 0 = f s.t (fn _ s.x) i := by
      rw [e8]
      exact congrFun (fn_ofFn _) i
    simp only [Pi.sub_apply, Pi.smul_apply, smul_eq_mul, hj]
    rw [← hz]
    exact this
  · funext i
    have := p3 i (by rw [e5, hs.x]; exact i.2)
    rw [e5] at this
    rw [t4]
    simp only [fn, Pi.add_apply, Pi.smul_apply, smul_eq_mul]
    rw [this, mul_comm h]

/-- One step of W1: with a step size small enough, `doStep` succeeds, and makes the step `h*k`, where
`(I - h*d*J) k = f( t, x )`. -/
theorem C92_step {M : Method ℝ E} {n2 n1 : Nat} {f} {s : St ℝ E} {b0 : Base ℝ} (hs : Ready M n2 n1 f s b0)
    (hec : M.ec = none) {h : ℝ} (hne : h ≠ 0) (hr : b0.Regular (h * M.d)) :
    ∃ s' k, ({ s with h := h } : St ℝ E).doStep1 M = .ok s' ∧ s'.t = s.t + h ∧ s'.h = h ∧
      k - (h * M.d) • b0.op (2 * n2 + n1) k = f s.t (fn _ s.x) ∧ fn _ s'.x = fn _ s.x + h • k := by
  obtain ⟨s', k, a1, a2, a3, a4, a5, -⟩ := step1_next hs hec hne hr
  exact ⟨s', k, a1, a2, a3, a4, a5⟩

/-- C92: the local error of W1 is `h²(d J f - ½ (f_t + f_x f)) + O(h³)`, whatever Jacobian `J` is in use. -/
theorem C92_leading {M : Method ℝ E} {n2 n1 : Nat} {f} {s : St ℝ E} {b0 : Base ℝ} (hs : Ready M n2 n1 f s b0)
    (hec : M.ec = none)
    (hf : ContDiffAt ℝ 2 (fun p : ℝ × (Fin (2 * n2 + n1) → ℝ) => f p.1 p.2) (s.t, fn _ s.x))
    {y : ℝ → Fin (2 * n2 + n1) → ℝ} (h0 : y s.t = fn _ s.x) (hy : ∀ᶠ t in 𝓝 s.t, HasDerivAt y (f t (y t)) t) :
    ∃ X : ℝ → Fin (2 * n2 + n1) → ℝ,
      (∀ᶠ h in 𝓝[≠] (0 : ℝ), ∃ s', ({ s with h := h } : St ℝ E).doStep1 M = .ok s' ∧ s'.t = s.t + h ∧
        fn _ s'.x = X h) ∧
      (fun h => X h - y (s.t + h) - (h ^ 2) • (M.d • b0.op _ (f s.t (fn _ s.x))
        - (1 / 2 : ℝ) • fderiv ℝ (fun p : ℝ × (Fin (2 * n2 + n1) → ℝ) => f p.1 p.2) (s.t, fn _ s.x)
          (1, f s.t (fn _ s.x)))) =O[𝓝[≠] 0] (fun h : ℝ => h ^ 3) := by
  have hev : ∀ᶠ h in 𝓝[≠] (0 : ℝ), ∃ s' k, ({ s with h := h } : St ℝ E).doStep1 M = .ok s' ∧ s'.t = s.t + h ∧ s'.h = h ∧
      k - (h * M.d) • b0.op (2 * n2 + n1) k = f s.t (fn _ s.x) ∧ fn _ s'.x = fn _ s.x + h • k := by
    filter_upwards [(regular_small b0 M.d hs.fill).filter_mono nhdsWithin_le_nhds, self_mem_nhdsWithin] with h hr hne
    exact C92_step hs hec hne hr
  have hch : ∀ h : ℝ, ∃ (s' : St ℝ E) (k : Fin (2 * n2 + n1) → ℝ),
      (∃ s' k, ({ s with h := h } : St ℝ E).doStep1 M = .ok s' ∧ s'.t = s.t + h ∧ s'.h = h ∧
        k - (h * M.d) • b0.op (2 * n2 + n1) k = f s.t (fn _ s.x) ∧ fn _ s'.x = fn _ s.x + h • k) →
      (({ s with h := h } : St ℝ E).doStep1 M = .ok s' ∧ s'.t = s.t + h ∧ s'.h = h ∧
        k - (h * M.d) • b0.op (2 * n2 + n1) k = f s.t (fn _ s.x) ∧ fn _ s'.x = fn _ s.x + h • k) := by
    intro h
    by_cases hP : ∃ s' k, ({ s with h := h } : St ℝ E).doStep1 M = .ok s' ∧ s'.t = s.t + h ∧ s'.h = h ∧
        k - (h * M.d) • b0.op (2 * n2 + n1) k = f s.t (fn _ s.x) ∧ fn _ s'.x = fn _ s.x + h • k
    · obtain ⟨s', k, a⟩ := hP
      exact ⟨s', k, fun _ => a⟩
    · exact ⟨s, 0, fun h' => absurd h' hP⟩
  choose s' k hq using hch
  have hev' := hev.mono (fun h hh => hq h hh)
  refine ⟨fun h => fn _ s.x + h • k h, ?_, ?_⟩
  · filter_upwards [hev'] with h hh
    exact ⟨s' h, hh.1, hh.2.1, hh.2.2.2.2⟩
  · exact w1_order nhdsWithin_le_nhds hf h0 hy (b0.op _) M.d (hev'.mono (fun h hh => hh.2.2.2.1))

/-- C92: W1 is of order 1 at least, with any Jacobian and any `d`. -/
theorem C92_order {M : Method ℝ E} {n2 n1 : Nat} {f} {s : St ℝ E} {b0 : Base ℝ} (hs : Ready M n2 n1 f s b0)
    (hec : M.ec = none)
    (hf : ContDiffAt ℝ 2 (fun p : ℝ × (Fin (2 * n2 + n1) → ℝ) => f p.1 p.2) (s.t, fn _ s.x))
    {y : ℝ → Fin (2 * n2 + n1) → ℝ} (h0 : y s.t = fn _ s.x) (hy : ∀ᶠ t in 𝓝 s.t, HasDerivAt y (f t (y t)) t) :
    ∃ X : ℝ → Fin (2 * n2 + n1) → ℝ,
      (∀ᶠ h in 𝓝[≠] (0 : ℝ), ∃ s', ({ s with h := h } : St ℝ E).doStep1 M = .ok s' ∧ s'.t = s.t + h ∧
        fn _ s'.x = X h) ∧
      (fun h => X h - y (s.t + h)) =O[𝓝[≠] 0] (fun h : ℝ => h ^ 2) := by
  obtain ⟨X, h1, h2⟩ := C92_leading hs hec hf h0 hy
  refine ⟨X, h1, ?_⟩
  have hl : 𝓝[≠] (0 : ℝ) ≤ 𝓝 0 := nhdsWithin_le_nhds
  have h3 := h2.trans (pow_le hl (by omega : 2 ≤ 3))
  have h4 : (fun h : ℝ => (h ^ 2) • (M.d • b0.op (2 * n2 + n1) (f s.t (fn _ s.x))
      - (1 / 2 : ℝ) • fderiv ℝ (fun p : ℝ × (Fin (2 * n2 + n1) → ℝ) => f p.1 p.2) (s.t, fn _ s.x)
        (1, f s.t (fn _ s.x)))) =O[𝓝[≠] 0] (fun h : ℝ => h ^ 2) := by
    have := (isBigO_refl (fun h : ℝ => h ^ 2) (𝓝[≠] 0)).smul (isBigO_const_const
      (M.d • b0.op (2 * n2 + n1) (f s.t (fn _ s.x))
      - (1 / 2 : ℝ) • fderiv ℝ (fun p : ℝ × (Fin (2 * n2 + n1) → ℝ) => f p.1 p.2) (s.t, fn _ s.x)
        (1, f s.t (fn _ s.x))) (one_ne_zero (α := ℝ)) (𝓝[≠] (0 : ℝ)))
    simpa using this
  refine (h3.add h4).congr_left (fun h => ?_)
  simp

/-- C92: with `d = 1/2` W1 is of order 2 if the Jacobian in use is right in the direction of the field, as it is for an
autonomous system with a Jacobian that finite differences give without error. -/
theorem C92_second {M : Method ℝ E} {n2 n1 : Nat} {f} {s : St ℝ E} {b0 : Base ℝ} (hs : Ready M n2 n1 f s b0)
    (hec : M.ec = none)
    (hf : ContDiffAt ℝ 2 (fun p : ℝ × (Fin (2 * n2 + n1) → ℝ) => f p.1 p.2) (s.t, fn _ s.x))
    {y : ℝ → Fin (2 * n2 + n1) → ℝ} (h0 : y s.t = fn _ s.x) (hy : ∀ᶠ t in 𝓝 s.t, HasDerivAt y (f t (y t)) t)
    (hd : M.d = 1 / 2)
    (hJ : fderiv ℝ (fun p : ℝ × (Fin (2 * n2 + n1) → ℝ) => f p.1 p.2) (s.t, fn _ s.x) (1, f s.t (fn _ s.x)) =
      b0.op _ (f s.t (fn _ s.x))) :
    ∃ X : ℝ → Fin (2 * n2 + n1) → ℝ,
      (∀ᶠ h in 𝓝[≠] (0 : ℝ), ∃ s', ({ s with h := h } : St ℝ E).doStep1 M = .ok s' ∧ s'.t = s.t + h ∧
        fn _ s'.x = X h) ∧
      (fun h => X h - y (s.t + h)) =O[𝓝[≠] 0] (fun h : ℝ => h ^ 3) := by
  obtain ⟨X, h1, h2⟩ := C92_leading hs hec hf h0 hy
  refine ⟨X, h1, h2.congr_left (fun h => ?_)⟩
  rw [hd, hJ, sub_self, smul_zero, sub_zero]

/-- Otherwise it is not. -/
theorem C92_sharp {M : Method ℝ E} {n2 n1 : Nat} {f} {s : St ℝ E} {b0 : Base ℝ} (hs : Ready M n2 n1 f s b0)
    (hec : M.ec = none)
    (hf : ContDiffAt ℝ 2 (fun p : ℝ × (Fin (2 * n2 + n1) → ℝ) => f p.1 p.2) (s.t, fn _ s.x))
    {y : ℝ → Fin (2 * n2 + n1) → ℝ} (h0 : y s.t = fn _ s.x) (hy : ∀ᶠ t in 𝓝 s.t, HasDerivAt y (f t (y t)) t)
    (hne : M.d • b0.op _ (f s.t (fn _ s.x)) ≠ (1 / 2 : ℝ) •
      fderiv ℝ (fun p : ℝ × (Fin (2 * n2 + n1) → ℝ) => f p.1 p.2) (s.t, fn _ s.x) (1, f s.t (fn _ s.x)))
    {X : ℝ → Fin (2 * n2 + n1) → ℝ}
    (hX : ∀ᶠ h in 𝓝[≠] (0 : ℝ), ∃ s', ({ s with h := h } : St ℝ E).doStep1 M = .ok s' ∧ fn _ s'.x = X h) :
    ¬ (fun h => X h - y (s.t + h)) =O[𝓝[≠] 0] (fun h : ℝ => h ^ 3) := by
  intro hO
  obtain ⟨X', h1, h2⟩ := C92_leading hs hec hf h0 hy
  have hXX : X =ᶠ[𝓝[≠] 0] X' := by
    filter_upwards [h1, hX] with h hA hB
    obtain ⟨s1, a1, -, a2⟩ := hA
    obtain ⟨s2, b1, b2⟩ := hB
    rw [a1] at b1
    injection b1 with b1
    rw [← a2, ← b2, b1]
  have h3 : (fun h => X h - y (s.t + h) - (h ^ 2) • (M.d • b0.op _ (f s.t (fn _ s.x))
        - (1 / 2 : ℝ) • fderiv ℝ (fun p : ℝ × (Fin (2 * n2 + n1) → ℝ) => f p.1 p.2) (s.t, fn _ s.x)
          (1, f s.t (fn _ s.x)))) =O[𝓝[≠] 0] (fun h : ℝ => h ^ 3) := by
    refine h2.congr' ?_ EventuallyEq.rfl
    filter_upwards [hXX] with h hh
    rw [hh]
  have h4 := hO.sub h3
  have h5 : (fun h : ℝ => (h ^ 2) • (M.d • b0.op (2 * n2 + n1) (f s.t (fn _ s.x))
      - (1 / 2 : ℝ) • fderiv ℝ (fun p : ℝ × (Fin (2 * n2 + n1) → ℝ) => f p.1 p.2) (s.t, fn _ s.x)
        (1, f s.t (fn _ s.x)))) =O[𝓝[≠] 0] (fun h : ℝ => h ^ 3) := h4.congr_left (fun h => by simp)
  exact not_third (sub_ne_zero.2 hne) h5

end Verif.Ros
