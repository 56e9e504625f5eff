import Verif.RK.Attempt
import Verif.RK.Control
import Verif.RK.FixedProps
import Mathlib.Analysis.SpecificLimits.Basic
import Mathlib.Analysis.Normed.Module.Basic

/-! # The adaptive (embedded Runge-Kutta) solver -/

set_option linter.unusedSectionVars false
set_option linter.unusedSimpArgs false

namespace Verif.RK

open Verif.Res
open scoped BigOperators

/-- Heun's method and the Euler method. -/
def heunPair : Tableau ℚ :=
  ⟨2, fun _ _ => 1, fun ix i => if ix = 0 then 1/2 else if i = 0 then 1 else 0,
    fun i => if i = 0 then 0 else 1⟩

section
variable {K V E : Type} [Field K] [LinearOrder K] [AddCommGroup V] [Module K V]

/-- What an attempt does, whatever the event controller, the norm and the controller are. -/
theorem attempt_inv {m : EmbMethod K V E} {s : FixedSt K V E} {A : Attempt (FixedSt K V E)}
    (hA : s.attempt m = .ok A) :
    ∃ h hi lo o', s.stepInUse = some h ∧
      compute (s.initStep2 m).out m.co m.rhs s.x s.t h = .ok o' ∧
      o'.x2[0]? = some hi ∧ o'.x2[1]? = some lo ∧ A.state.out.k = o'.k ∧
      A.state.out.x2.length = o'.x2.length ∧ A.state.hInit = s.hInit ∧
      ((m.verdict h hi lo).acceptStep = false → A.state.t = s.t ∧ A.state.x = s.x) ∧
      ∃ e tr, RK.ecStart m.toMethod s.ec s.x s.t = .ok e ∧
      ((m.verdict h hi lo).acceptStep = false → A.state.ec = e) ∧
      ((m.verdict h hi lo).acceptStep = true →
        RK.ecEnd m.toMethod e s.x (if m.lowMode then lo else hi) (s.t + h)
          = .ok (A.state.ec, A.state.x, A.state.t, tr)) ∧
      (A.state.h = some ((m.verdict h hi lo).step h) ∨ (tr.truncated = true ∧
        0 < m.hAfterSwitch ∧ m.hAfterSwitch < (m.verdict h hi lo).step h ∧
        A.state.h = some m.hAfterSwitch)) ∧
      ((m.verdict h hi lo).acceptStep = false → tr = Trunc.none) ∧
      (match A with
      | .rejected _ => (m.verdict h hi lo).acceptStep = false
      | .accepted _ => (m.verdict h hi lo).acceptStep = true
      | .thrown _ s' => s'.h = some (m.verdict h hi lo).newStepSize) ∧
      (match A with
      | .thrown msg s' => (m.verdict h hi lo).changeStepSize = true ∧
          (m.verdict h hi lo).newStepSize ≤ m.hMin ∧ s'.log = .pre s.h :: s.log ∧
          msg = "Step size has decreased to the minimum or below"
      | _ => ((m.verdict h hi lo).changeStepSize = true →
            m.hMin < (m.verdict h hi lo).newStepSize) ∧
          A.state.log = .post h (m.verdict h hi lo).acceptStep (m.verdict h hi lo).changeStepSize
            tr (if !m.disableErrorCheck || m.forceErrorCalc then m.norm (hi - lo) else 0)
            :: .pre s.h :: s.log) := by
  obtain ⟨h, hi, lo, o', a1, a2, a3, a4, a5, a6, a7, a8, e, tr, a9, a10, a11, a12, a13, a14, a15⟩ :=
    attempt_outcome hA
  refine ⟨h, hi, lo, o', a1, a2, a3, a4, a5, a6, a7, a8, e, tr, a9, a10, a11, a12, a13, ?_⟩
  cases A with
  | accepted s' => exact ⟨a14, fun hc => not_le.1 (a15.1 hc), a15.2⟩
  | rejected s' => exact ⟨a14, fun hc => not_le.1 (a15.1 hc), a15.2⟩
  | thrown msg s' => exact ⟨a14, a15⟩

/-- The solver uses the tableau `T` with two outputs; an output taken from the last stage argument
has the weights of the last stage. -/
structure Uses (m : EmbMethod K V E) (T : Tableau K) : Prop where
  pos : 1 ≤ T.s
  c0 : T.c 0 = 0
  co : ∃ lastK, m.co = T.pack 2 lastK ∧ ∀ ix : Nat, ix < 2 → (ix : Int) = lastK →
    2 ≤ T.s ∧ (∀ j, j < T.s - 1 → T.a (T.s - 1) j = T.b ix j) ∧ T.b ix (T.s - 1) = 0

/-- Buffers are unallocated, or allocated and the step size set. -/
def Ready (T : Tableau K) (s : FixedSt K V E) : Prop :=
  s.out.k = [] ∨ (s.out.k.length = T.s ∧ s.out.x2.length = 2 ∧ s.h ≠ none)

theorem Uses.kernel {m : EmbMethod K V E} {T : Tableau K} (hu : Uses m T) (x : V) (t h : K)
    (o : Output V) (hk : o.k.length = T.s) (hx : o.x2.length = 2) :
    ∃ o', compute o m.co m.rhs x t h = .ok o' ∧ o'.k.length = T.s ∧ o'.x2.length = 2 ∧
      o'.x2[0]? = some (T.output m.rhs t h x 0) ∧ o'.x2[1]? = some (T.output m.rhs t h x 1) := by
  obtain ⟨lastK, hco, hl⟩ := hu.co
  obtain ⟨o', h1, h2, h3, _, h5⟩ := compute_tableau o T m.co m.rhs x t h
    (by rw [hco, hx]; exact pack_sizes T _ _ hu.pos) hk
    (fun i j hi hj => by rw [hco]; exact pack_A T _ _ hi hj)
    (fun ix i hix hi => by rw [hco]; exact pack_B T _ _ (by omega) hi)
    (fun i hi => by rw [hco]; exact pack_C T _ _ hu.c0 hi)
  have hlk : m.co.lastK = lastK := by rw [hco]; rfl
  have key : ∀ ix, ix < 2 → o'.x2[ix]? = some (T.output m.rhs t h x ix) := by
    intro ix hix
    by_cases he : (ix : Int) = lastK
    · obtain ⟨g1, g2, g3⟩ := hl ix hix he
      rw [(h5 ix (by omega)).2.1 (by rw [hlk]; exact he) g1, Tableau.output]
      obtain ⟨n, hn⟩ : ∃ n, T.s = n + 1 := ⟨T.s - 1, by omega⟩
      rw [hn, Finset.sum_range_succ, Nat.add_sub_cancel]
      rw [hn, Nat.add_sub_cancel] at g3 g2
      rw [g3, zero_smul, add_zero]
      congr 3
      apply Finset.sum_congr rfl
      intro j hj
      rw [Finset.mem_range] at hj
      rw [g2 j hj]
    · exact (h5 ix (by omega)).1 (by rw [hlk]; exact he)
  exact ⟨o', h1, h2, by omega, key 0 (by omega), key 1 (by omega)⟩

theorem Uses.init {m : EmbMethod K V E} {T : Tableau K} (hu : Uses m T) {s : FixedSt K V E}
    (hr : Ready T s) : (s.initStep2 m).out.k.length = T.s ∧ (s.initStep2 m).out.x2.length = 2 ∧
      s.stepInUse ≠ none := by
  obtain ⟨lastK, hco, hl⟩ := hu.co
  have hc1 : (T.pack 2 lastK).c.length + 1 = T.s := by
    have := hu.pos
    simp [Tableau.pack]; omega
  unfold FixedSt.initStep2 FixedSt.stepInUse
  rcases hr with hr | ⟨h1, h2, h3⟩
  · rw [if_pos (by simp [hr]), if_pos (by simp [hr])]
    refine ⟨?_, by simp [Output.mk'], by simp⟩
    simp only [Output.mk', List.length_replicate, hco, hc1]
  · have hne : ¬ s.out.k.isEmpty = true := by
      rw [List.isEmpty_iff]
      intro h
      rw [h] at h1
      have := hu.pos
      simp at h1
      omega
    rw [if_neg hne, if_neg hne]
    exact ⟨h1, h2, h3⟩

/-- Verdict on an attempt from `(t, x)` with step `h`. -/
def EmbMethod.judge (m : EmbMethod K V E) (T : Tableau K) (t : K) (x : V) (h : K) : CtlResult K :=
  m.verdict h (T.output m.rhs t h x 0) (T.output m.rhs t h x 1)

/-- `h'` is tried after the attempt with `h` is rejected. -/
def EmbMethod.Next (m : EmbMethod K V E) (T : Tableau K) (t : K) (x : V) (h h' : K) : Prop :=
  (m.judge T t x h).acceptStep = false ∧ h' = (m.judge T t x h).step h ∧
    ((m.judge T t x h).changeStepSize = true → m.hMin < h')

/-- C30. One attempt, for any event controller and any step size controller: a rejected attempt
leaves time and state unchanged; an accepted one commits what the event controller makes of the
selected output of the method at time `t + h`. -/
theorem C30_attempt (m : EmbMethod K V E) (T : Tableau K) (hu : Uses m T) (s : FixedSt K V E)
    (hr : Ready T s) (A : Attempt (FixedSt K V E)) (hA : s.attempt m = .ok A) :
    ∃ h, s.stepInUse = some h ∧ Ready T A.state ∧
      (∀ s', A = .rejected s' → s'.t = s.t ∧ s'.x = s.x ∧ s'.out.k ≠ [] ∧
        RK.ecStart m.toMethod s.ec s.x s.t = .ok s'.ec ∧
        ∃ h', s'.h = some h' ∧ m.Next T s.t s.x h h') ∧
      (∀ s', A = .accepted s' → (m.judge T s.t s.x h).acceptStep = true ∧
        ∃ e tr, RK.ecStart m.toMethod s.ec s.x s.t = .ok e ∧ RK.ecEnd m.toMethod e s.x
          (T.output m.rhs s.t h s.x (if m.lowMode then 1 else 0)) (s.t + h)
            = .ok (s'.ec, s'.x, s'.t, tr) ∧
          s'.log = .post h true (m.judge T s.t s.x h).changeStepSize tr
            (if !m.disableErrorCheck || m.forceErrorCalc then
              m.norm (T.output m.rhs s.t h s.x 0 - T.output m.rhs s.t h s.x 1) else 0)
            :: .pre s.h :: s.log ∧
          (s'.h = some ((m.judge T s.t s.x h).step h) ∨ (tr.truncated = true ∧
            0 < m.hAfterSwitch ∧ m.hAfterSwitch < (m.judge T s.t s.x h).step h ∧
            s'.h = some m.hAfterSwitch))) ∧
      (∀ msg s', A = .thrown msg s' → (m.judge T s.t s.x h).changeStepSize = true ∧
        (m.judge T s.t s.x h).newStepSize ≤ m.hMin ∧
        ((m.judge T s.t s.x h).acceptStep = false → s'.t = s.t ∧ s'.x = s.x)) := by
  obtain ⟨h, hi, lo, o', a1, a2, a3, a4, a5, a6, a7, a8, e, tr, a14, a15, a9, a10, a11, a12, a13⟩ :=
    attempt_inv hA
  obtain ⟨b1, b2, _⟩ := hu.init hr
  obtain ⟨o'', c1, c2, c3, c4, c5⟩ := hu.kernel s.x s.t h _ b1 b2
  rw [c1] at a2
  cases a2
  rw [c4] at a3
  rw [c5] at a4
  cases a3
  cases a4
  have hpos := hu.pos
  have hout : (if m.lowMode = true then T.output m.rhs s.t h s.x 1 else T.output m.rhs s.t h s.x 0)
      = T.output m.rhs s.t h s.x (if m.lowMode then 1 else 0) := by
    split <;> rfl
  change _ at a8
  refine ⟨h, a1, .inr ⟨by rw [a5]; exact c2, by rw [a6]; exact c3, ?_⟩, ?_, ?_, ?_⟩
  · rcases a10 with a10 | a10
    · rw [a10]; simp
    · rw [a10.2.2.2]; simp
  · rintro s' rfl
    simp only at a12 a13
    have a10' : s'.h = some ((m.verdict h (T.output m.rhs s.t h s.x 0)
        (T.output m.rhs s.t h s.x 1)).step h) := by
      rcases a10 with a10 | a10
      · exact a10
      · rw [a11 a12] at a10
        exact absurd a10.1 (by simp [Trunc.none])
    refine ⟨(a8 a12).1, (a8 a12).2, ?_, ?_, _, a10', a12, rfl, ?_⟩
    · intro hk
      have := congrArg List.length a5
      simp only [Attempt.state] at this
      rw [hk, c2] at this
      simp at this
      omega
    · have := a15 a12
      simp only [Attempt.state] at this
      rw [this]; exact a14
    · intro hch
      have := a13.1 hch
      simp only [CtlResult.step, EmbMethod.judge] at hch ⊢
      rw [if_pos hch]
      exact this
  · rintro s' rfl
    simp only at a12 a13
    have he := a9 a12
    rw [hout] at he
    refine ⟨a12, e, tr, a14, he, ?_, a10⟩
    have := a13.2
    rw [a12] at this
    exact this
  · rintro msg s' rfl
    simp only at a12 a13
    exact ⟨a13.1, a13.2.1, a8⟩

/-- C30. A whole `doStep`, for any event controller and any step size controller: it ends with a
step size `h` reached from the one in use by rejected attempts only. If it returns, the attempt
with `h` was accepted and time and state are what the event controller makes of the output of the
method from the time and state before the call. If it throws, the new step is not above the
minimum, and unless the last attempt was accepted, time and state are those before the call. -/
theorem C30_doStep (m : EmbMethod K V E) (T : Tableau K) (hu : Uses m T) (fuel : Nat)
    (s : FixedSt K V E) (hr : Ready T s) (A : Attempt (FixedSt K V E))
    (hA : s.doStepEmb m fuel = some (.ok A)) :
    ∃ h₀ h, s.stepInUse = some h₀ ∧ Relation.ReflTransGen (m.Next T s.t s.x) h₀ h ∧
      Ready T A.state ∧ (∀ s', A ≠ .rejected s') ∧
      (∀ s', A = .accepted s' → (m.judge T s.t s.x h).acceptStep = true ∧
        ∃ e tr, Relation.TransGen (fun e e' => RK.ecStart m.toMethod e s.x s.t = .ok e') s.ec e ∧
          RK.ecEnd m.toMethod e s.x
          (T.output m.rhs s.t h s.x (if m.lowMode then 1 else 0)) (s.t + h)
            = .ok (s'.ec, s'.x, s'.t, tr) ∧
          (s'.h = some ((m.judge T s.t s.x h).step h) ∨ (tr.truncated = true ∧
            0 < m.hAfterSwitch ∧ m.hAfterSwitch < (m.judge T s.t s.x h).step h ∧
            s'.h = some m.hAfterSwitch))) ∧
      (∀ msg s', A = .thrown msg s' → (m.judge T s.t s.x h).changeStepSize = true ∧
        (m.judge T s.t s.x h).newStepSize ≤ m.hMin ∧
        ((m.judge T s.t s.x h).acceptStep = false → s'.t = s.t ∧ s'.x = s.x)) := by
  induction fuel generalizing s with
  | zero => cases hA
  | succ fuel ih =>
    unfold FixedSt.doStepEmb at hA
    cases ha : s.attempt m with
    | error e => rw [ha] at hA; simp at hA
    | ok B =>
      rw [ha] at hA
      obtain ⟨h, b1, b2, b3, b4, b5⟩ := C30_attempt m T hu s hr B ha
      cases B with
      | accepted s' =>
        simp only [Option.some.injEq, Except.ok.injEq] at hA
        subst hA
        refine ⟨h, h, b1, .refl, b2, by simp, fun s'' hs => ?_, by simp⟩
        obtain ⟨c1, e, tr, c0, c2, _, c3⟩ := b4 s'' hs
        exact ⟨c1, e, tr, .single c0, c2, c3⟩
      | thrown msg s' =>
        simp only [Option.some.injEq, Except.ok.injEq] at hA
        subst hA
        exact ⟨h, h, b1, .refl, b2, by simp, by simp, b5⟩
      | rejected s' =>
        obtain ⟨c1, c2, c3, c6, h', c4, c5⟩ := b3 s' rfl
        have hA' : s'.doStepEmb m fuel = some (.ok A) := hA
        obtain ⟨h₁, hn, d1, d2, d3, d4, d5, d6⟩ := ih s' b2 hA'
        have : h₁ = h' := by
          unfold FixedSt.stepInUse at d1
          rw [if_neg (by simpa [List.isEmpty_iff] using c3), c4] at d1
          exact (Option.some.inj d1).symm
        subst this
        rw [c1, c2] at d2 d5 d6
        refine ⟨h, hn, b1, .head c5 d2, d3, d4, fun s'' hs => ?_, d6⟩
        obtain ⟨f1, e, tr, f2, f3, f4⟩ := d5 s'' hs
        exact ⟨f1, e, tr, .head c6 f2, f3, f4⟩

/-- C30. Without events an attempt never fails. -/
theorem C30_total (m : EmbMethod K V E) (T : Tableau K) (hu : Uses m T) (I : E → Prop)
    (hq : Quiet m.ec I) (s : FixedSt K V E) (hI : I s.ec) (hr : Ready T s) : ∃ A, s.attempt m = .ok A := by
  unfold FixedSt.attempt
  obtain ⟨si, hsi⟩ : ∃ si, FixedSt.initStep2 m { s with log := .pre s.h :: s.log } = si := ⟨_, rfl⟩
  have hi : si.h = s.stepInUse ∧ si.out = (s.initStep2 m).out ∧ si.ec = s.ec := by
    unfold FixedSt.initStep2 at hsi ⊢
    unfold FixedSt.stepInUse
    simp only at hsi
    split at hsi <;> subst hsi <;> simp_all
  obtain ⟨i4, i5, i6⟩ := hi
  obtain ⟨b1, b2, b3⟩ := hu.init hr
  obtain ⟨h, hh⟩ := Option.ne_none_iff_exists'.1 b3
  rw [hh] at i4
  obtain ⟨e, he, hIe⟩ := hq.ecStart (m := m.toMethod) si.ec (by rw [i6]; exact hI) si.x si.t
  obtain ⟨o', k1, k2, k3, k4, k5⟩ := hu.kernel si.x si.t h si.out (by rw [i5]; exact b1)
    (by rw [i5]; exact b2)
  simp only [hsi, he, bind_ok, i4, readH, k1, raw_of_getElem? k4, raw_of_getElem? k5]
  have hx2 : ∀ (b : Bool) (z : V), (if b = true then ({ o' with buf := z } : Output V) else o').x2
      = o'.x2 := by
    intro b z; cases b <;> rfl
  generalize (if m.disableErrorCheck = true then (⟨h, true, false⟩ : CtlResult K)
      else m.control h (if (!m.disableErrorCheck || m.forceErrorCalc) = true then
        m.norm (T.output m.rhs si.t h si.x 0 - T.output m.rhs si.t h si.x 1) else 0)
        m.lowOrder) = r
  obtain ⟨hn, ac, ch⟩ := r
  have hmode : m.modeIndex < 2 := by unfold EmbMethod.modeIndex; split <;> omega
  cases ac with
  | false =>
    cases ch with
    | false => exact ⟨_, rfl⟩
    | true =>
      by_cases hle : hn ≤ m.hMin
      · simp [hle]
      · simp [hle]
  | true =>
    have hidx : m.modeIndex < o'.x2.length := by omega
    simp only [if_true, hx2, raw, List.getElem?_eq_getElem hidx, bind_ok]
    obtain ⟨e', he', _⟩ := hq.ecEnd (m := m.toMethod) e hIe si.x (o'.x2[m.modeIndex]) (si.t + h)
    rw [he']
    simp only [bind_ok, rawSet, if_pos hidx]
    cases ch with
    | false => exact ⟨_, rfl⟩
    | true =>
      by_cases hle : hn ≤ m.hMin
      · simp [hle]
      · simp [hle]

/-- C30. Without events a returning `doStep` advances time by `h` and the state by one step of
size `h` of the selected output, where the attempt with `h` is the first accepted one. -/
theorem C30_quiet (m : EmbMethod K V E) (T : Tableau K) (hu : Uses m T) (I : E → Prop)
    (hq : Quiet m.ec I) (fuel : Nat) (s s' : FixedSt K V E) (hI : I s.ec) (hr : Ready T s)
    (hA : s.doStepEmb m fuel = some (.ok (.accepted s'))) :
    ∃ h₀ h, s.stepInUse = some h₀ ∧ Relation.ReflTransGen (m.Next T s.t s.x) h₀ h ∧
      (m.judge T s.t s.x h).acceptStep = true ∧ s'.t = s.t + h ∧
      s'.x = T.output m.rhs s.t h s.x (if m.lowMode then 1 else 0) ∧
      s'.h = some ((m.judge T s.t s.x h).step h) ∧ I s'.ec := by
  obtain ⟨h₀, h, a1, a2, _, _, a5, _⟩ := C30_doStep m T hu fuel s hr _ hA
  obtain ⟨b1, e, tr, b0, b2, b3⟩ := a5 s' rfl
  have hIe : I e := by
    clear b2
    induction b0 with
    | single h =>
      obtain ⟨e', k1, k2⟩ := hq.ecStart (m := m.toMethod) s.ec hI s.x s.t
      rw [k1] at h; cases h; exact k2
    | tail _ h ih =>
      obtain ⟨e', k1, k2⟩ := hq.ecStart (m := m.toMethod) _ ih s.x s.t
      rw [k1] at h; cases h; exact k2
  obtain ⟨e'', he, hIe'⟩ := hq.ecEnd (m := m.toMethod) e hIe s.x
    (T.output m.rhs s.t h s.x (if m.lowMode then 1 else 0)) (s.t + h)
  rw [he] at b2
  simp only [Except.ok.injEq, Prod.mk.injEq] at b2
  obtain ⟨c0, c1, c2, c3⟩ := b2
  refine ⟨h₀, h, a1, a2, b1, c2.symm, c1.symm, ?_, by rw [← c0]; exact hIe'⟩
  rcases b3 with b3 | b3
  · exact b3
  · rw [← c3] at b3; exact absurd b3.1 (by simp [Trunc.none])

end

section
variable {V E : Type} [AddCommGroup V] [Module ℝ V]

/-- The simple controller with sensible parameters. -/
structure SimpleControl (m : EmbMethod ℝ V E) (c : CtlParams ℝ) : Prop where
  control : m.control = fun h err order => c.control (· ^ ·) h err order
  norm : ∀ v, 0 ≤ m.norm v
  tol : 0 < c.tolerance
  ins : 0 < c.insurance
  ins1 : c.insurance ≤ 1
  dec : c.decMax < 1

/-- A rejected attempt shrinks the step by a fixed factor. -/
theorem SimpleControl.shrinks {m : EmbMethod ℝ V E} {c : CtlParams ℝ} (hc : SimpleControl m c)
    {T : Tableau ℝ} {t h h' : ℝ} {x : V} (hh : 0 < h) (hn : m.Next T t x h h') :
    0 < h' ∧ h' ≤ h * max (c.insurance * (1 - geomEps)) c.decMax ∧ m.hMin < h' := by
  obtain ⟨h1, h2, h3⟩ := hn
  unfold EmbMethod.judge EmbMethod.verdict at h1 h2 h3
  cases hd : m.disableErrorCheck with
  | true => simp [hd] at h1
  | false =>
    simp only [hd, Bool.false_eq_true, if_false] at h1 h2 h3
    rw [hc.control] at h1 h2 h3
    have := C29_rejection c h _ m.lowOrder hc.tol (hc.norm _) hh hc.ins h1
    obtain ⟨b1, b2, b3, _⟩ := this
    unfold CtlResult.step at h2
    rw [if_pos b1] at h2
    subst h2
    exact ⟨b2, b3, h3 b1⟩

theorem factor_lt_one {m : EmbMethod ℝ V E} {c : CtlParams ℝ} (hc : SimpleControl m c) :
    0 < max (c.insurance * (1 - geomEps)) c.decMax ∧
    max (c.insurance * (1 - geomEps)) c.decMax < 1 := by
  have h1 := geomEps_pos (K := ℝ)
  have h2 := geomEps_lt (K := ℝ)
  have h3 := hc.ins
  have h4 := hc.ins1
  constructor
  · exact lt_of_lt_of_le (mul_pos h3 (by linarith)) (le_max_left _ _)
  · exact max_lt (by nlinarith) hc.dec

/-- C30. With the simple controller and a positive minimal step every `doStep` ends, by returning,
by the exception, or by a fault of the event controller; the number of attempts is bounded in
terms of the initial step. -/
theorem C30_terminates (m : EmbMethod ℝ V E) (T : Tableau ℝ) (hu : Uses m T) (c : CtlParams ℝ)
    (hc : SimpleControl m c) (s : FixedSt ℝ V E) (hr : Ready T s) (h₀ : ℝ)
    (hs : s.stepInUse = some h₀) (hpos : 0 < h₀) (N : Nat)
    (hN : h₀ * (max (c.insurance * (1 - geomEps)) c.decMax) ^ N ≤ m.hMin) :
    s.doStepEmb m (N + 1) ≠ none := by
  obtain ⟨hρ0, hρ1⟩ := factor_lt_one hc
  induction N generalizing s h₀ with
  | zero =>
    unfold FixedSt.doStepEmb
    cases ha : s.attempt m with
    | error e => simp
    | ok B =>
      cases B with
      | accepted _ => simp
      | thrown _ _ => simp
      | rejected s' =>
        exfalso
        obtain ⟨h, b1, b2, b3, b4, b5⟩ := C30_attempt m T hu s hr _ ha
        rw [hs] at b1
        cases b1
        obtain ⟨_, _, _, _, h', _, hn⟩ := b3 s' rfl
        obtain ⟨d1, d2, d3⟩ := hc.shrinks hpos hn
        simp only [pow_zero, mul_one] at hN
        have : h₀ * max (c.insurance * (1 - geomEps)) c.decMax < h₀ := by nlinarith
        linarith
  | succ N ih =>
    unfold FixedSt.doStepEmb
    cases ha : s.attempt m with
    | error e => simp
    | ok B =>
      cases B with
      | accepted _ => simp
      | thrown _ _ => simp
      | rejected s' =>
        obtain ⟨h, b1, b2, b3, b4, b5⟩ := C30_attempt m T hu s hr _ ha
        rw [hs] at b1
        cases b1
        obtain ⟨_, _, hk, _, h', c4, hn⟩ := b3 s' rfl
        obtain ⟨d1, d2, d3⟩ := hc.shrinks hpos hn
        refine ih s' b2 h' ?_ d1 ?_
        · unfold FixedSt.stepInUse
          rw [if_neg (by simpa [List.isEmpty_iff] using hk), c4]
        · refine le_trans ?_ hN
          rw [pow_succ', ← mul_assoc]
          exact mul_le_mul_of_nonneg_right d2 (by positivity)

/-- C30. The bound of `C30_terminates` exists whenever the minimal step is positive. -/
theorem C30_terminates_hMin (m : EmbMethod ℝ V E) (T : Tableau ℝ) (hu : Uses m T)
    (c : CtlParams ℝ) (hc : SimpleControl m c) (s : FixedSt ℝ V E) (hr : Ready T s) (h₀ : ℝ)
    (hs : s.stepInUse = some h₀) (hpos : 0 < h₀) (hmin : 0 < m.hMin) :
    ∃ fuel, s.doStepEmb m fuel ≠ none := by
  obtain ⟨hρ0, hρ1⟩ := factor_lt_one hc
  obtain ⟨N, hN⟩ := exists_pow_lt_of_lt_one (div_pos hmin hpos) hρ1
  refine ⟨N + 1, C30_terminates m T hu c hc s hr h₀ hs hpos N ?_⟩
  rw [lt_div_iff₀ hpos] at hN
  linarith

/-- C31, what holds: with the simple controller, factors at least 1 on acceptance, and a step size
above the minimum, an exception leaves time and state as before the call. -/
theorem C31_partial (m : EmbMethod ℝ V E) (T : Tableau ℝ) (hu : Uses m T) (c : CtlParams ℝ)
    (hc : SimpleControl m c) (hinc : 1 ≤ c.incMin) (hmax : 0 < c.incMax → c.incMin ≤ c.incMax)
    (s s' : FixedSt ℝ V E) (hr : Ready T s) (h₀ : ℝ) (hs : s.stepInUse = some h₀) (hpos : 0 < h₀)
    (habove : m.hMin < h₀) (fuel : Nat) (msg : String)
    (hA : s.doStepEmb m fuel = some (.ok (.thrown msg s'))) :
    s'.t = s.t ∧ s'.x = s.x := by
  obtain ⟨h₁, h, a1, a2, _, _, a5, a6⟩ := C30_doStep m T hu fuel s hr _ hA
  rw [hs] at a1
  cases a1
  obtain ⟨b1, b2, b3⟩ := a6 msg s' rfl
  have hh : 0 < h ∧ m.hMin < h := by
    clear b1 b2 b3 a5 a6
    induction a2 with
    | refl => exact ⟨hpos, habove⟩
    | tail _ hn ih =>
      obtain ⟨d1, d2, d3⟩ := hc.shrinks ih.1 hn
      exact ⟨d1, d3⟩
  apply b3
  cases hacc : (m.judge T s.t s.x h).acceptStep with
  | false => rfl
  | true =>
    exfalso
    unfold EmbMethod.judge EmbMethod.verdict at b1 b2 hacc
    cases hd : m.disableErrorCheck with
    | true => simp [hd] at b1
    | false =>
      simp only [hd, Bool.false_eq_true, if_false] at b1 b2 hacc
      rw [hc.control] at b1 b2 hacc
      have := (C29_growth c h _ m.lowOrder hh.1 hacc).2 b1
      have h3 := this.2.2 (by linarith) hmax
      nlinarith [hh.1, hh.2]

end

section
variable {V E : Type} [NormedAddCommGroup V] [NormedSpace ℝ V]

/-- C30. When the right-hand side is bounded, every `doStep` ends even without a minimal step:
the error is at most proportional to the step. -/
theorem C30_terminates_bounded (m : EmbMethod ℝ V E) (T : Tableau ℝ) (hu : Uses m T)
    (c : CtlParams ℝ) (hc : SimpleControl m c) (L M : ℝ) (hL : ∀ v, m.norm v ≤ L * ‖v‖)
    (hM : ∀ t x, ‖m.rhs t x‖ ≤ M) (s : FixedSt ℝ V E) (hr : Ready T s) (h₀ : ℝ)
    (hs : s.stepInUse = some h₀) (hpos : 0 < h₀) : ∃ fuel, s.doStepEmb m fuel ≠ none := by
  obtain ⟨hρ0, hρ1⟩ := factor_lt_one hc
  set ρ := max (c.insurance * (1 - geomEps)) c.decMax with hρ
  -- the error of an attempt with step `h` is at most `C h`
  set C : ℝ := |L| * (∑ i ∈ Finset.range T.s, |T.b 0 i - T.b 1 i| * |M|) with hC
  have herr : ∀ (t h : ℝ) (x : V), 0 < h →
      m.norm (T.output m.rhs t h x 0 - T.output m.rhs t h x 1) ≤ C * h := by
    intro t h x hh
    refine (hL _).trans ?_
    have e : T.output m.rhs t h x 0 - T.output m.rhs t h x 1
        = h • ∑ i ∈ Finset.range T.s, (T.b 0 i - T.b 1 i) • T.stage m.rhs t h x i := by
      unfold Tableau.output
      rw [add_sub_add_left_eq_sub, ← smul_sub, ← Finset.sum_sub_distrib]
      simp only [sub_smul]
    have e2 : ‖T.output m.rhs t h x 0 - T.output m.rhs t h x 1‖
        ≤ h * ∑ i ∈ Finset.range T.s, |T.b 0 i - T.b 1 i| * |M| := by
      rw [e, norm_smul, Real.norm_eq_abs, abs_of_pos hh]
      refine mul_le_mul_of_nonneg_left ((norm_sum_le _ _).trans ?_) hh.le
      refine Finset.sum_le_sum (fun i _ => ?_)
      rw [norm_smul, Real.norm_eq_abs]
      refine mul_le_mul_of_nonneg_left ?_ (abs_nonneg _)
      rw [Tableau.stage_eq]
      exact (hM _ _).trans (le_abs_self M)
    calc L * ‖T.output m.rhs t h x 0 - T.output m.rhs t h x 1‖
        ≤ |L| * ‖T.output m.rhs t h x 0 - T.output m.rhs t h x 1‖ :=
          mul_le_mul_of_nonneg_right (le_abs_self L) (norm_nonneg _)
      _ ≤ |L| * (h * ∑ i ∈ Finset.range T.s, |T.b 0 i - T.b 1 i| * |M|) :=
          mul_le_mul_of_nonneg_left e2 (abs_nonneg _)
      _ = C * h := by rw [hC]; ring
  have hC0 : 0 ≤ C := by
    rw [hC]
    exact mul_nonneg (abs_nonneg _) (Finset.sum_nonneg
      (fun i _ => mul_nonneg (abs_nonneg _) (abs_nonneg _)))
  -- an attempt with `C h ≤ tol` is not rejected
  have hacc : ∀ (t h h' : ℝ) (x : V), 0 < h → C * h ≤ c.tolerance → ¬ m.Next T t x h h' := by
    rintro t h h' x hh hle ⟨h1, _⟩
    unfold EmbMethod.judge EmbMethod.verdict at h1
    cases hd : m.disableErrorCheck with
    | true => simp [hd] at h1
    | false =>
      simp only [hd, Bool.false_eq_true, if_false] at h1
      rw [hc.control] at h1
      have := (C29_acceptance c h _ m.lowOrder hc.tol (hc.norm _)).1 ((herr t h x hh).trans hle)
      simp only at h1
      rw [this] at h1
      cases h1
  obtain ⟨N, hN⟩ := exists_pow_lt_of_lt_one
    (div_pos hc.tol (mul_pos (show 0 < C + 1 by linarith) hpos)) hρ1
  have hN' : C * (h₀ * ρ ^ N) ≤ c.tolerance := by
    rw [lt_div_iff₀ (mul_pos (by linarith) hpos)] at hN
    have : 0 < h₀ * ρ ^ N := by positivity
    nlinarith
  refine ⟨N + 1, ?_⟩
  clear hN
  induction N generalizing s h₀ with
  | zero =>
    unfold FixedSt.doStepEmb
    cases ha : s.attempt m with
    | error e => simp
    | ok B =>
      cases B with
      | accepted _ => simp
      | thrown _ _ => simp
      | rejected s' =>
        exfalso
        obtain ⟨h, b1, b2, b3, b4, b5⟩ := C30_attempt m T hu s hr _ ha
        rw [hs] at b1
        cases b1
        obtain ⟨_, _, _, _, h', _, hn⟩ := b3 s' rfl
        rw [pow_zero, mul_one] at hN'
        exact hacc _ _ _ _ hpos hN' hn
  | succ N ih =>
    unfold FixedSt.doStepEmb
    cases ha : s.attempt m with
    | error e => simp
    | ok B =>
      cases B with
      | accepted _ => simp
      | thrown _ _ => simp
      | rejected s' =>
        obtain ⟨h, b1, b2, b3, b4, b5⟩ := C30_attempt m T hu s hr _ ha
        rw [hs] at b1
        cases b1
        obtain ⟨_, _, hk, _, h', c4, hn⟩ := b3 s' rfl
        obtain ⟨d1, d2, d3⟩ := hc.shrinks hpos hn
        refine ih s' b2 h' ?_ d1 ?_
        · unfold FixedSt.stepInUse
          rw [if_neg (by simpa [List.isEmpty_iff] using hk), c4]
        · refine le_trans (mul_le_mul_of_nonneg_left ?_ hC0) hN'
          rw [pow_succ', ← mul_assoc]
          exact mul_le_mul_of_nonneg_right d2 (by positivity)

end

/-- Heun-Euler pair on `x' = t`, error weights 1, no event controller, minimal step 9/10,
parameters: tolerance 11/20, insurance 8/10, no minimal increase factor. The power function is the
identity, which is right for the exponent `1/(0+1)` in use (`lowOrder = 0`). -/
def throwing : EmbMethod ℚ ℚ Unit where
  co := heunPair.pack 2 (-1)
  rhs := fun t _ => t
  ec := none
  highOrder := 1
  lowOrder := 0
  disableErrorCheck := false
  forceErrorCalc := false
  hAfterSwitch := 0
  lowMode := true
  hMin := 9/10
  norm := fun v => |v|
  control := fun h err order =>
    (⟨11/20, 8/10, 0, 2, 1/10, 0⟩ : CtlParams ℚ).control (fun x _ => x) h err order

/-- C31 is false: the attempt with step 1 > 9/10 is accepted (error 1/2 within the tolerance
11/20), time and state advance, and then the exception is thrown because the new step 22/25 is
below the minimum; the observers do not learn about the step. -/
theorem C31_false : ∃ A s', (⟨0, 0, none, Output.mkEmpty, 1, (), []⟩ :
      FixedSt ℚ ℚ Unit).doStepEmb throwing 1 = some (.ok A) ∧
    A = .thrown "Step size has decreased to the minimum or below" s' ∧ s'.t = 1 ∧ s'.x = 0 ∧
    s'.log = [.pre none] := by
  have h : (match (⟨0, 0, none, Output.mkEmpty, 1, (), []⟩ :
      FixedSt ℚ ℚ Unit).doStepEmb throwing 1 with
    | some (.ok (.thrown msg s')) =>
      decide (msg = "Step size has decreased to the minimum or below" ∧ s'.t = 1 ∧ s'.x = 0 ∧
        s'.log = [.pre none])
    | _ => false) = true := by decide +kernel
  revert h
  cases (⟨0, 0, none, Output.mkEmpty, 1, (), []⟩ : FixedSt ℚ ℚ Unit).doStepEmb throwing 1 with
  | none => intro h; cases h
  | some r =>
    cases r with
    | error e => intro h; cases h
    | ok A =>
      cases A with
      | accepted _ => intro h; cases h
      | rejected _ => intro h; cases h
      | thrown msg s' =>
        intro h
        obtain ⟨h1, h2, h3, h4⟩ := of_decide_eq_true h
        exact ⟨_, s', rfl, by rw [h1], h2, h3, h4⟩

/-- The same problem with tolerance 1/20 and minimal step 1/100. -/
def rejecting : EmbMethod ℚ ℚ Unit := { throwing with
  hMin := 1/100
  control := fun h err order =>
    (⟨1/20, 8/10, 13/10, 2, 1/10, 0⟩ : CtlParams ℚ).control (fun x _ => x) h err order }

/-- The hypotheses of the theorems are met. -/
example : Uses rejecting heunPair ∧ Quiet rejecting.ec (fun _ => True) ∧
    Ready heunPair (⟨0, 0, none, Output.mkEmpty, 1, (), []⟩ : FixedSt ℚ ℚ Unit) :=
  ⟨⟨by decide, rfl, -1, rfl, fun ix _ h => by omega⟩, ⟨(fun _ h => by cases h), (fun _ h => by cases h), (fun _ h => by cases h)⟩,
    .inl rfl⟩

/-- The step 1 is rejected, 1/10 is accepted, and the next step is 1/5. -/
example : (match (⟨0, 0, none, Output.mkEmpty, 1, (), []⟩ :
      FixedSt ℚ ℚ Unit).doStepEmb rejecting 2 with
    | some (.ok (.accepted s')) =>
      decide (s'.t = 1/10 ∧ s'.x = 0 ∧ s'.h = some (1/5) ∧
        s'.log = [.post (1/10) true true Trunc.none (1/200), .pre (some (1/10)),
          .post 1 false true Trunc.none (1/2), .pre none])
    | _ => false) = true := by decide +kernel

end Verif.RK
