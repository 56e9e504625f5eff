import Verif.Ros.OrderExamples
import Verif.RK.Converge
import Mathlib.Analysis.Calculus.ContDiff.Operations

/-! # C105: convergence of the Rosenbrock solvers -/

namespace Verif.Ros

open Verif.Res Verif.Alg Verif.Implicit
open Asymptotics Filter Topology Set

set_option linter.unusedSectionVars false

section
variable {F : Type} [NormedAddCommGroup F] [NormedSpace ℝ F] [CompleteSpace F]

/-- The inverse of `I - h*d*J` -/
noncomputable def inv1 (J : F →L[ℝ] F) (d h : ℝ) : F →L[ℝ] F := Ring.inverse (1 - (h * d) • J)

theorem unit_small (J : F →L[ℝ] F) (d : ℝ) : ∀ᶠ h in 𝓝 (0 : ℝ), IsUnit (1 - (h * d) • J) := by
  have hc : ContinuousAt (fun h : ℝ => (1 : F →L[ℝ] F) - (h * d) • J) 0 := by fun_prop
  have h1 : {x : F →L[ℝ] F | IsUnit x} ∈ 𝓝 ((1 : F →L[ℝ] F) - ((0 : ℝ) * d) • J) :=
    Units.isOpen.mem_nhds (by simp)
  exact hc h1

theorem inv1_spec {J : F →L[ℝ] F} {d h : ℝ} (hu : IsUnit (1 - (h * d) • J)) (k v : F) :
    k - (h * d) • J k = v ↔ k = inv1 J d h v := by
  have e1 : (inv1 J d h) * (1 - (h * d) • J) = 1 := Ring.inverse_mul_cancel _ hu
  have e2 : (1 - (h * d) • J) * (inv1 J d h) = 1 := Ring.mul_inverse_cancel _ hu
  constructor
  · intro e
    have : inv1 J d h (k - (h * d) • J k) = k := congrArg (fun A : F →L[ℝ] F => A k) e1
    rw [← e, this]
  · intro e
    have : inv1 J d h v - (h * d) • J (inv1 J d h v) = v := congrArg (fun A : F →L[ℝ] F => A v) e2
    rw [e, this]

theorem inv1_smooth (J : F →L[ℝ] F) (d : ℝ) (n : Nat) : ContDiffAt ℝ n (fun h => inv1 J d h) 0 := by
  have h1 : ContDiffAt ℝ n (fun h : ℝ => (1 : F →L[ℝ] F) - (h * d) • J) 0 :=
    contDiffAt_const.sub ((contDiffAt_id.mul contDiffAt_const).smul contDiffAt_const)
  have h2 : ContDiffAt ℝ n (Ring.inverse : (F →L[ℝ] F) → F →L[ℝ] F) ((1 : F →L[ℝ] F) - ((0 : ℝ) * d) • J) := by
    have := contDiffAt_ringInverse ℝ (n := (n : WithTop ℕ∞)) (1 : (F →L[ℝ] F)ˣ)
    simpa using this
  exact ContDiffAt.comp (g := Ring.inverse) 0 h2 h1

/-- The increment of W1 -/
noncomputable def incr1 (J : F →L[ℝ] F) (d : ℝ) (f : ℝ → F → F) (t : ℝ) (x : F) (h : ℝ) : F :=
  inv1 J d h (f t x)

/-- The increment of SW2(4) -/
noncomputable def incr2 (J : F →L[ℝ] F) (d : ℝ) (f : ℝ → F → F) (t : ℝ) (x : F) (h : ℝ) : F :=
  (1 / 4 : ℝ) • incr1 J d f t x h + (3 / 4 : ℝ) • inv1 J d h
    (f (t + 2 / 3 * h) (x + (2 / 3 * h) • incr1 J d f t x h) - (4 / 3 * h * d) • J (incr1 J d f t x h))

theorem incr1_smooth (J : F →L[ℝ] F) (d : ℝ) {f : ℝ → F → F} {t : ℝ} {x : F} {n : Nat}
    (hf : ContDiffAt ℝ n (fun z : ℝ × F => f z.1 z.2) (t, x)) :
    ContDiffAt ℝ n (fun z : ℝ × F × ℝ => incr1 J d f z.1 z.2.1 z.2.2) (t, x, 0) := by
  have p1 : ContDiffAt ℝ n (fun z : ℝ × F × ℝ => z.1) (t, x, 0) := contDiffAt_fst
  have p2 : ContDiffAt ℝ n (fun z : ℝ × F × ℝ => z.2.1) (t, x, 0) := contDiffAt_snd.fst
  have p3 : ContDiffAt ℝ n (fun z : ℝ × F × ℝ => z.2.2) (t, x, 0) := contDiffAt_snd.snd
  have q1 : ContDiffAt ℝ n (fun z : ℝ × F × ℝ => inv1 J d z.2.2) (t, x, 0) :=
    ContDiffAt.comp (g := fun h => inv1 J d h) _ (inv1_smooth J d n) p3
  have q2 : ContDiffAt ℝ n (fun z : ℝ × F × ℝ => f z.1 z.2.1) (t, x, 0) :=
    ContDiffAt.comp (g := fun z : ℝ × F => f z.1 z.2) (f := fun z : ℝ × F × ℝ => (z.1, z.2.1)) (t, x, 0) hf (p1.prodMk p2)
  exact q1.clm_apply q2

theorem incr2_smooth (J : F →L[ℝ] F) (d : ℝ) {f : ℝ → F → F} {t : ℝ} {x : F} {n : Nat}
    (hf : ContDiffAt ℝ n (fun z : ℝ × F => f z.1 z.2) (t, x)) :
    ContDiffAt ℝ n (fun z : ℝ × F × ℝ => incr2 J d f z.1 z.2.1 z.2.2) (t, x, 0) := by
  have p1 : ContDiffAt ℝ n (fun z : ℝ × F × ℝ => z.1) (t, x, 0) := contDiffAt_fst
  have p2 : ContDiffAt ℝ n (fun z : ℝ × F × ℝ => z.2.1) (t, x, 0) := contDiffAt_snd.fst
  have p3 : ContDiffAt ℝ n (fun z : ℝ × F × ℝ => z.2.2) (t, x, 0) := contDiffAt_snd.snd
  have q1 : ContDiffAt ℝ n (fun z : ℝ × F × ℝ => inv1 J d z.2.2) (t, x, 0) :=
    ContDiffAt.comp (g := fun h => inv1 J d h) _ (inv1_smooth J d n) p3
  have k1 := incr1_smooth J d hf
  have q2 : ContDiffAt ℝ n (fun z : ℝ × F × ℝ =>
      f (z.1 + 2 / 3 * z.2.2) (z.2.1 + (2 / 3 * z.2.2) • incr1 J d f z.1 z.2.1 z.2.2)) (t, x, 0) := by
    refine ContDiffAt.comp (g := fun z : ℝ × F => f z.1 z.2) (f := fun z : ℝ × F × ℝ =>
      (z.1 + 2 / 3 * z.2.2, z.2.1 + (2 / 3 * z.2.2) • incr1 J d f z.1 z.2.1 z.2.2)) _ (by simpa using hf) ?_
    exact (p1.add (contDiffAt_const.mul p3)).prodMk (p2.add ((contDiffAt_const.mul p3).smul k1))
  have q3 : ContDiffAt ℝ n (fun z : ℝ × F × ℝ => (4 / 3 * z.2.2 * d) • J (incr1 J d f z.1 z.2.1 z.2.2)) (t, x, 0) :=
    ((contDiffAt_const.mul p3).mul contDiffAt_const).smul (contDiffAt_const.clm_apply k1)
  exact (contDiffAt_const.smul k1).add (contDiffAt_const.smul (q1.clm_apply (q2.sub q3)))

/-- Steps of W1 along a grid -/
theorem grid1 (J : F →L[ℝ] F) (d : ℝ) (f : ℝ → F → F) (t₀ b : ℝ) (y : ℝ → F)
    (hf : ∀ t ∈ Icc t₀ b, ContDiffAt ℝ 2 (fun z : ℝ × F => f z.1 z.2) (t, y t))
    (hy : ∀ t ∈ Icc t₀ b, ∀ᶠ s in 𝓝 t, HasDerivAt y (f s (y s)) s) :
    ∃ C, 0 ≤ C ∧ ∃ h₀ > 0, ∀ H, 0 ≤ H → H ≤ h₀ → ∀ (N : Nat) (x : Nat → F) (τ h : Nat → ℝ), x 0 = y t₀ →
      τ 0 = t₀ → (∀ k < N, 0 ≤ h k ∧ h k ≤ H ∧ τ (k + 1) = τ k + h k ∧
        x (k + 1) = x k + h k • incr1 J d f (τ k) (x k) (h k)) → (∀ k ≤ N, τ k ≤ b) →
      ∀ k ≤ N, ‖x k - y (τ k)‖ ≤ C * H ^ 1 := by
  refine RK.one_step_converges 1 (le_refl 1) (incr1 J d f) y t₀ b (fun t ht => incr1_smooth J d (hf t ht))
    (fun t ht => RK.solution_contDiffAt (n := 2) (hf t ht) (hy t ht)) (fun t ht => ?_)
  have hl : 𝓝[>] (0 : ℝ) ≤ 𝓝 0 := nhdsWithin_le_nhds
  have h2 := w1_order hl (hf t ht) rfl (hy t ht) J d (k1 := incr1 J d f t (y t)) (by
    filter_upwards [hl (unit_small J d)] with h hu
    exact (inv1_spec hu _ _).2 rfl)
  have h3 := h2.trans (pow_le hl (by omega : 2 ≤ 3))
  have h4 : (fun h : ℝ => (h ^ 2) • (d • J (f t (y t))
      - (1 / 2 : ℝ) • fderiv ℝ (fun p : ℝ × F => f p.1 p.2) (t, y t) (1, f t (y t)))) =O[𝓝[>] 0]
        (fun h : ℝ => h ^ 2) := by
    have := (isBigO_refl (fun h : ℝ => h ^ 2) (𝓝[>] 0)).smul (isBigO_const_const
      (d • J (f t (y t))
      - (1 / 2 : ℝ) • fderiv ℝ (fun p : ℝ × F => f p.1 p.2) (t, y t) (1, f t (y t)))
        (one_ne_zero (α := ℝ)) (𝓝[>] (0 : ℝ)))
    simpa using this
  refine (h3.add h4).congr_left (fun h => ?_)
  simp

/-- Steps of SW2(4) along a grid -/
theorem grid2 (J : F →L[ℝ] F) (d : ℝ) (f : ℝ → F → F) (t₀ b : ℝ) (y : ℝ → F)
    (hf : ∀ t ∈ Icc t₀ b, ContDiffAt ℝ 3 (fun z : ℝ × F => f z.1 z.2) (t, y t))
    (hy : ∀ t ∈ Icc t₀ b, ∀ᶠ s in 𝓝 t, HasDerivAt y (f s (y s)) s) :
    ∃ C, 0 ≤ C ∧ ∃ h₀ > 0, ∀ H, 0 ≤ H → H ≤ h₀ → ∀ (N : Nat) (x : Nat → F) (τ h : Nat → ℝ), x 0 = y t₀ →
      τ 0 = t₀ → (∀ k < N, 0 ≤ h k ∧ h k ≤ H ∧ τ (k + 1) = τ k + h k ∧
        x (k + 1) = x k + h k • incr2 J d f (τ k) (x k) (h k)) → (∀ k ≤ N, τ k ≤ b) →
      ∀ k ≤ N, ‖x k - y (τ k)‖ ≤ C * H ^ 2 := by
  refine RK.one_step_converges 2 (by omega) (incr2 J d f) y t₀ b (fun t ht => incr2_smooth J d (hf t ht))
    (fun t ht => RK.solution_contDiffAt (n := 3) (hf t ht) (hy t ht)) (fun t ht => ?_)
  have hl : 𝓝[>] (0 : ℝ) ≤ 𝓝 0 := nhdsWithin_le_nhds
  refine sw_order hl ((hf t ht).of_le (by norm_num)) rfl (hy t ht) (J := J) (d := d)
    (k1 := incr1 J d f t (y t)) (k2 := fun h => inv1 J d h
      (f (t + 2 / 3 * h) (y t + (2 / 3 * h) • incr1 J d f t (y t) h) - (4 / 3 * h * d) • J (incr1 J d f t (y t) h)))
    ⟨?_, ?_⟩
  · filter_upwards [hl (unit_small J d)] with h hu
    exact (inv1_spec hu _ _).2 rfl
  · filter_upwards [hl (unit_small J d)] with h hu
    exact (inv1_spec hu _ _).2 rfl

end

variable {E : Type}

/-- `n` calls of `doStep` of W1 -/
noncomputable def St.steps1 (M : Method ℝ E) : Nat → St ℝ E → Res (St ℝ E)
  | 0, s => .ok s
  | n + 1, s => do
    let s ← s.steps1 M n
    s.doStep1 M

/-- `n` calls of `doStep` of SW2(4), each accepted in the first pass -/
noncomputable def St.steps2 (M : Method ℝ E) : Nat → St ℝ E → Option (St ℝ E)
  | 0, s => some s
  | n + 1, s =>
    match s.steps2 M n with
    | none => none
    | some s =>
      match s.doStep2 M 1 with
      | some (.ok (.accepted s')) => some s'
      | _ => none

theorem SameJ_op {b b' : Base ℝ} (h : b.SameJ b') (n : Nat) : b'.op n = b.op n := by
  unfold Base.op
  simp only [h.jac]

theorem Ready.withStep {M : Method ℝ E} {n2 n1 : Nat} {f} {s : St ℝ E} {b0 : Base ℝ} (hs : Ready M n2 n1 f s b0) (h : ℝ) :
    Ready M n2 n1 f { s with h := h } b0 := ⟨hs.size, hs.rhs, hs.dx, hs.d, hs.x, hs.jac, hs.fill⟩

/-- C105: W1 converges with order 1: there are `C` and `h₀` such that for all step sizes `h ≤ h₀`, all calls of
`doStep` on the interval succeed, and the state shown after `n` of them differs from the exact solution at the time
shown by at most `C h`. This holds with the Jacobian that the solver computes once, in the first step, and with any
value of the parameter `d` except zero. -/
theorem C105_w1 {M : Method ℝ E} {n2 n1 : Nat} {f} {s : St ℝ E} {b0 : Base ℝ} (hs : Ready M n2 n1 f s b0)
    (hec : M.ec = none) (b : ℝ) (y : ℝ → Fin (2 * n2 + n1) → ℝ) (h0 : y s.t = fn _ s.x)
    (hf : ∀ t ∈ Icc s.t b, ContDiffAt ℝ 2 (fun z : ℝ × (Fin (2 * n2 + n1) → ℝ) => f z.1 z.2) (t, y t))
    (hy : ∀ t ∈ Icc s.t b, ∀ᶠ r in 𝓝 t, HasDerivAt y (f r (y r)) r) :
    ∃ C, ∃ h₀ > 0, ∀ h, 0 < h → h ≤ h₀ → ∀ n : Nat, s.t + n * h ≤ b →
      ∃ s', (s.setInitialStepSize h).steps1 M n = .ok s' ∧ s'.t = s.t + n * h ∧ ‖fn _ s'.x - y s'.t‖ ≤ C * h := by
  obtain ⟨C, hC, h₁, hh₁, key⟩ := grid1 (b0.op (2 * n2 + n1)) M.d f s.t b y hf hy
  have hsm : ∀ᶠ h in 𝓝 (0 : ℝ), b0.Regular (h * M.d) ∧ IsUnit (1 - (h * M.d) • b0.op (2 * n2 + n1)) :=
    (regular_small b0 M.d hs.fill).and (unit_small _ M.d)
  obtain ⟨ε, hε, hball⟩ := Metric.eventually_nhds_iff.1 hsm
  refine ⟨C, min h₁ (ε / 2), by positivity, fun h hpos hle n hn => ?_⟩
  obtain ⟨hreg, hunit⟩ := hball (y := h) (by
    rw [Real.dist_eq, sub_zero, abs_of_pos hpos]
    have := hle.trans (min_le_right _ _)
    linarith)
  have hrun : ∀ k : Nat, ∃ s' b1, (s.setInitialStepSize h).steps1 M k = .ok s' ∧ s'.t = s.t + k * h ∧ s'.h = h ∧
      Ready M n2 n1 f s' b1 ∧ b0.SameJ b1 ∧
      ∀ s'', (s.setInitialStepSize h).steps1 M (k + 1) = .ok s'' →
        fn _ s''.x = fn _ s'.x + h • incr1 (b0.op (2 * n2 + n1)) M.d f (s.t + k * h) (fn _ s'.x) h := by
    have last : ∀ (k : Nat) (s' : St ℝ E) (b1 : Base ℝ), (s.setInitialStepSize h).steps1 M k = .ok s' →
        s'.t = s.t + k * h → s'.h = h → Ready M n2 n1 f s' b1 → b0.SameJ b1 →
        ∃ s'', (s.setInitialStepSize h).steps1 M (k + 1) = .ok s'' ∧ s''.t = s.t + (k + 1 : Nat) * h ∧ s''.h = h ∧
          Ready M n2 n1 f s'' s''.base ∧ b0.SameJ s''.base ∧
          fn _ s''.x = fn _ s'.x + h • incr1 (b0.op (2 * n2 + n1)) M.d f (s.t + k * h) (fn _ s'.x) h := by
      intro k s' b1 a1 a2 a3 a4 a5
      obtain ⟨s'', kk, c1, c2, c3, c4, c5, c6, c7⟩ := step1_next a4 hec hpos.ne' (a5.regular hreg)
      rw [SameJ_op a5] at c4
      refine ⟨s'', ?_, ?_, c3, c6, a5.trans c7, ?_⟩
      · show ((s.setInitialStepSize h).steps1 M k >>= fun s => s.doStep1 M) = _
        rw [a1, bind_ok]
        have : ({ s' with h := h } : St ℝ E) = s' := by rw [← a3]
        rw [this] at c1
        exact c1
      · rw [c2, a2]
        push_cast
        ring
      · rw [c5, (inv1_spec hunit _ _).1 c4, a2]
        rfl
    intro k
    have base : ∃ s' b1, (s.setInitialStepSize h).steps1 M k = .ok s' ∧ s'.t = s.t + k * h ∧ s'.h = h ∧
        Ready M n2 n1 f s' b1 ∧ b0.SameJ b1 := by
      induction k with
      | zero => exact ⟨_, b0, rfl, by simp [St.setInitialStepSize], rfl, hs.withStep h, rfl, rfl, rfl, rfl, rfl⟩
      | succ k ih =>
        obtain ⟨s', b1, a1, a2, a3, a4, a5⟩ := ih
        obtain ⟨s'', c1, c2, c3, c4, c5, -⟩ := last k s' b1 a1 a2 a3 a4 a5
        exact ⟨s'', _, c1, c2, c3, c4, c5⟩
    obtain ⟨s', b1, a1, a2, a3, a4, a5⟩ := base
    refine ⟨s', b1, a1, a2, a3, a4, a5, fun s'' h' => ?_⟩
    obtain ⟨s3, c1, -, -, -, -, c6⟩ := last k s' b1 a1 a2 a3 a4 a5
    rw [c1] at h'
    injection h' with h'
    rw [← h', c6]
  choose st bs a1 a2 a3 a4 a5 a6 using hrun
  refine ⟨st n, a1 n, a2 n, ?_⟩
  have hx0 : fn _ (st 0).x = y s.t := by
    have := a1 0
    injection this with this
    rw [← this, h0]
    rfl
  have := key h hpos.le (hle.trans (min_le_left _ _)) n (fun k => fn _ (st k).x) (fun k => s.t + k * h) (fun _ => h) hx0
    (by simp) (fun k _ => ⟨hpos.le, le_refl h, by push_cast; ring, a6 k _ (a1 (k + 1))⟩)
    (fun k hk => by
      have : (k : ℝ) * h ≤ n * h := mul_le_mul_of_nonneg_right (by exact_mod_cast hk) hpos.le
      linarith) n (le_refl n)
  rw [a2 n]
  simpa using this

/-- One accepted pass of SW2(4), with what it leaves in the solver -/
theorem step2_next {M : Method ℝ E} {n2 n1 : Nat} {f} {s s' : St ℝ E} {b0 : Base ℝ} (hs : Ready M n2 n1 f s b0)
    (hf0 : s.k1 ≠ [] → s.f0 = List.ofFn (f s.t (fn _ s.x))) (hec : M.ec = none) (hne : s.h ≠ 0)
    (hr : b0.Regular (s.h * M.d)) (hu : IsUnit (1 - (s.h * M.d) • b0.op (2 * n2 + n1)))
    (hacc : s.doStep2 M 1 = some (.ok (.accepted s'))) :
    s'.t = s.t + s.h ∧ fn _ s'.x = fn _ s.x + s.h • incr2 (b0.op (2 * n2 + n1)) M.d f s.t (fn _ s.x) s.h ∧
      Ready M n2 n1 f s' s'.base ∧ b0.SameJ s'.base ∧ s'.k1 ≠ [] ∧ s'.f0 = List.ofFn (f s'.t (fn _ s'.x)) := by
  obtain ⟨s1, g, k3, k4, v, p, -, q⟩ := regular_stages hs hf0 hne hr
  have ha := (doStep2_one p.init s').1 hacc
  obtain ⟨g', g1, g2, g3, g4, g5, g6⟩ := q.base
  obtain ⟨r1, r2, -⟩ := accepted_inv hec p.stages g1 ha
  obtain ⟨t1, t2, t3, t4⟩ := accepted_state hec p.stages g1 ha
  have hk1 : s'.k1 ≠ [] := by
    intro h'
    have := q.len1
    rw [t2, g5] at h'
    rw [h'] at this
    have hz := hs.size
    simp at this
    omega
  obtain ⟨-, w2, w1, -⟩ := initStep1_ok hs s.h
  have hJ : b0.SameJ s'.base := by rw [t1]; exact g3
  have hx : s'.x = g.next := by rw [r2, g4]
  have ht : s'.t = s.t + s.h := by rw [r1, p.step, p.time]
  refine ⟨ht, ?_, hs.next ⟨w2, w1⟩ hJ (by rw [t1]; exact g2) (by rw [hx]; exact q.len) hk1 (t4.trans q.ec), hJ, hk1, ?_⟩
  · have e1 : fn _ g.k1 = incr1 (b0.op (2 * n2 + n1)) M.d f s.t (fn _ s.x) s.h := (inv1_spec hu _ _).1 p.eq1
    have e2 := (inv1_spec hu _ _).1 p.eq2
    rw [hx, p.next, e2, e1]
    rfl
  · rw [t3, g6, q.rhs, ht, hx]

/-- A run of SW2(4): the first state is a solver that is ready, with its step size, and each step is accepted in
the first pass. -/
theorem run2 {M : Method ℝ E} {n2 n1 : Nat} {f} {s : St ℝ E} {b0 : Base ℝ} (hs : Ready M n2 n1 f s b0)
    (hf0 : s.k1 ≠ [] → s.f0 = List.ofFn (f s.t (fn _ s.x))) (hec : M.ec = none) {ε : ℝ}
    (hball : ∀ h : ℝ, 0 < h → h < ε → b0.Regular (h * M.d) ∧ IsUnit (1 - (h * M.d) • b0.op (2 * n2 + n1)))
    {N : Nat} {st : Nat → St ℝ E} (h0 : ∃ h, st 0 = s.setInitialStepSize h)
    (hst : ∀ k < N, 0 < (st k).h ∧ (st k).h < ε ∧ (st k).doStep2 M 1 = some (.ok (.accepted (st (k + 1))))) :
    ∀ k ≤ N, (∃ b1, Ready M n2 n1 f (st k) b1 ∧ b0.SameJ b1 ∧
        ((st k).k1 ≠ [] → (st k).f0 = List.ofFn (f (st k).t (fn _ (st k).x)))) ∧
      (k < N → (st (k + 1)).t = (st k).t + (st k).h ∧ fn _ (st (k + 1)).x = fn _ (st k).x +
        (st k).h • incr2 (b0.op (2 * n2 + n1)) M.d f (st k).t (fn _ (st k).x) (st k).h) := by
  have last : ∀ k < N, (∃ b1, Ready M n2 n1 f (st k) b1 ∧ b0.SameJ b1 ∧
        ((st k).k1 ≠ [] → (st k).f0 = List.ofFn (f (st k).t (fn _ (st k).x)))) →
      ((st (k + 1)).t = (st k).t + (st k).h ∧ fn _ (st (k + 1)).x = fn _ (st k).x +
        (st k).h • incr2 (b0.op (2 * n2 + n1)) M.d f (st k).t (fn _ (st k).x) (st k).h) ∧
      ∃ b1, Ready M n2 n1 f (st (k + 1)) b1 ∧ b0.SameJ b1 ∧
        ((st (k + 1)).k1 ≠ [] → (st (k + 1)).f0 = List.ofFn (f (st (k + 1)).t (fn _ (st (k + 1)).x))) := by
    rintro k hk ⟨b1, r1, r2, r3⟩
    obtain ⟨c1, c2, c3⟩ := hst k hk
    obtain ⟨u1, u2⟩ := hball _ c1 c2
    obtain ⟨e1, e2, e3, e4, -, e6⟩ := step2_next r1 r3 hec c1.ne' (r2.regular u1) (by rw [SameJ_op r2]; exact u2) c3
    rw [SameJ_op r2] at e2
    exact ⟨⟨e1, e2⟩, _, e3, r2.trans e4, fun _ => e6⟩
  have base : ∀ k ≤ N, ∃ b1, Ready M n2 n1 f (st k) b1 ∧ b0.SameJ b1 ∧
        ((st k).k1 ≠ [] → (st k).f0 = List.ofFn (f (st k).t (fn _ (st k).x))) := by
    intro k
    induction k with
    | zero =>
      intro _
      obtain ⟨h, h0⟩ := h0
      rw [h0]
      exact ⟨b0, hs.withStep h, ⟨rfl, rfl, rfl, rfl, rfl⟩, hf0⟩
    | succ k ih =>
      intro hk
      exact (last k (by omega) (ih (by omega))).2
  exact fun k hk => ⟨base k hk, fun hlt => (last k hlt (base k hk)).1⟩

/-- C105: SW2(4) converges with order 2 in the largest step made, for every sequence of steps that are accepted in
the first pass, whatever the step size controller and the error norm do. The constants depend only on the problem and
on the solver as it was before the first step. -/
theorem C105_sw2 {M : Method ℝ E} {n2 n1 : Nat} {f} {s : St ℝ E} {b0 : Base ℝ} (hs : Ready M n2 n1 f s b0)
    (hf0 : s.k1 ≠ [] → s.f0 = List.ofFn (f s.t (fn _ s.x)))
    (hec : M.ec = none) (b : ℝ) (y : ℝ → Fin (2 * n2 + n1) → ℝ) (h0 : y s.t = fn _ s.x)
    (hf : ∀ t ∈ Icc s.t b, ContDiffAt ℝ 3 (fun z : ℝ × (Fin (2 * n2 + n1) → ℝ) => f z.1 z.2) (t, y t))
    (hy : ∀ t ∈ Icc s.t b, ∀ᶠ r in 𝓝 t, HasDerivAt y (f r (y r)) r) :
    ∃ C, ∃ h₀ > 0, ∀ H, 0 ≤ H → H ≤ h₀ → ∀ (N : Nat) (st : Nat → St ℝ E), (∃ h, st 0 = s.setInitialStepSize h) →
      (∀ k < N, 0 < (st k).h ∧ (st k).h ≤ H ∧ (st k).doStep2 M 1 = some (.ok (.accepted (st (k + 1))))) →
      (∀ k ≤ N, (st k).t ≤ b) → ∀ k ≤ N, ‖fn _ (st k).x - y (st k).t‖ ≤ C * H ^ 2 := by
  obtain ⟨C, hC, h₁, hh₁, key⟩ := grid2 (b0.op (2 * n2 + n1)) M.d f s.t b y hf hy
  have hsm : ∀ᶠ h in 𝓝 (0 : ℝ), b0.Regular (h * M.d) ∧ IsUnit (1 - (h * M.d) • b0.op (2 * n2 + n1)) :=
    (regular_small b0 M.d hs.fill).and (unit_small _ M.d)
  obtain ⟨ε, hε, hball⟩ := Metric.eventually_nhds_iff.1 hsm
  refine ⟨C, min h₁ (ε / 2), by positivity, fun H hH hle N st hst0 hst hb => ?_⟩
  have hr := run2 hs hf0 hec (ε := ε) (fun h hpos hlt => hball (by
    rw [Real.dist_eq, sub_zero, abs_of_pos hpos]; exact hlt)) hst0 (fun k hk => by
      obtain ⟨a1, a2, a3⟩ := hst k hk
      have := (a2.trans hle).trans (min_le_right _ _)
      exact ⟨a1, by linarith, a3⟩)
  obtain ⟨h, hst0⟩ := hst0
  exact key H hH (hle.trans (min_le_left _ _)) N (fun k => fn _ (st k).x) (fun k => (st k).t) (fun k => (st k).h)
    (by simp only [hst0]; exact h0.symm) (by simp only [hst0]; rfl)
    (fun k hk => ⟨(hst k hk).1.le, (hst k hk).2.1, (hr k hk.le).2 hk⟩) hb

theorem accepted_step {M : Method ℝ E} (hec : M.ec = none) (hdis : M.disableErrorCheck = true) {s s' : St ℝ E}
    {g : Stages ℝ} (hg : s.stages M = .ok g) (h : s.attempt M = .ok (.accepted s')) : s'.h = s.h := by
  unfold St.attempt Method.start Method.finish St.errorStages at h
  rw [hec, hdis] at h
  simp only [bind_ok, if_true] at h
  rw [hg] at h
  simp only [bind_ok, Bool.false_eq_true, false_and, if_false, RK.Trunc.none] at h
  cases h
  rfl

/-- C105: with the error check disabled, all calls of `doStep` of SW2(4) with a small enough step size succeed, and
the error is at most `C h²`. -/
theorem C105_sw2_unchecked {M : Method ℝ E} {n2 n1 : Nat} {f} {s : St ℝ E} {b0 : Base ℝ} (hs : Ready M n2 n1 f s b0)
    (hf0 : s.k1 ≠ [] → s.f0 = List.ofFn (f s.t (fn _ s.x)))
    (hec : M.ec = none) (hdis : M.disableErrorCheck = true) (b : ℝ) (y : ℝ → Fin (2 * n2 + n1) → ℝ) (h0 : y s.t = fn _ s.x)
    (hf : ∀ t ∈ Icc s.t b, ContDiffAt ℝ 3 (fun z : ℝ × (Fin (2 * n2 + n1) → ℝ) => f z.1 z.2) (t, y t))
    (hy : ∀ t ∈ Icc s.t b, ∀ᶠ r in 𝓝 t, HasDerivAt y (f r (y r)) r) :
    ∃ C, ∃ h₀ > 0, ∀ h, 0 < h → h ≤ h₀ → ∀ n : Nat, s.t + n * h ≤ b →
      ∃ s', (s.setInitialStepSize h).steps2 M n = some s' ∧ s'.t = s.t + n * h ∧ ‖fn _ s'.x - y s'.t‖ ≤ C * h ^ 2 := by
  obtain ⟨C, h₁, hh₁, key⟩ := C105_sw2 hs hf0 hec b y h0 hf hy
  have hsm : ∀ᶠ h in 𝓝 (0 : ℝ), b0.Regular (h * M.d) ∧ IsUnit (1 - (h * M.d) • b0.op (2 * n2 + n1)) :=
    (regular_small b0 M.d hs.fill).and (unit_small _ M.d)
  obtain ⟨ε, hε, hball⟩ := Metric.eventually_nhds_iff.1 hsm
  refine ⟨C, min h₁ (ε / 2), by positivity, fun h hpos hle n hn => ?_⟩
  obtain ⟨hreg, hunit⟩ := hball (y := h) (by
    rw [Real.dist_eq, sub_zero, abs_of_pos hpos]
    have := hle.trans (min_le_right _ _)
    linarith)
  have hrun : ∀ k : Nat, ∃ s' b1, (s.setInitialStepSize h).steps2 M k = some s' ∧ s'.t = s.t + k * h ∧ s'.h = h ∧
      Ready M n2 n1 f s' b1 ∧ b0.SameJ b1 ∧ (s'.k1 ≠ [] → s'.f0 = List.ofFn (f s'.t (fn _ s'.x))) ∧
      ∃ s'', s'.doStep2 M 1 = some (.ok (.accepted s'')) ∧ s''.h = h := by
    have last : ∀ (s' : St ℝ E) (b1 : Base ℝ), s'.h = h → Ready M n2 n1 f s' b1 → b0.SameJ b1 →
        (s'.k1 ≠ [] → s'.f0 = List.ofFn (f s'.t (fn _ s'.x))) →
        ∃ s'', s'.doStep2 M 1 = some (.ok (.accepted s'')) ∧ s''.h = h := by
      intro s' b1 a3 a4 a5 a6
      have hh : ({ s' with h := h } : St ℝ E) = s' := by rw [← a3]
      obtain ⟨s1, g, k3, k4, v, p, -, -⟩ := regular_stages a4 a6 hpos.ne' (a5.regular hreg)
      obtain ⟨s'', e⟩ := accepted_of_disabled hec hdis p.stages
      have e' := (doStep2_one p.init s'').2 e
      rw [hh] at e'
      exact ⟨s'', e', (accepted_step hec hdis p.stages e).trans p.step⟩
    intro k
    induction k with
    | zero =>
      have r := hs.withStep h
      exact ⟨_, b0, rfl, by simp [St.setInitialStepSize], rfl, r, ⟨rfl, rfl, rfl, rfl, rfl⟩, hf0,
        last _ b0 rfl r ⟨rfl, rfl, rfl, rfl, rfl⟩ hf0⟩
    | succ k ih =>
      obtain ⟨s', b1, a1, a2, a3, a4, a5, a6, s'', a7, a8⟩ := ih
      rw [← a3] at hpos hreg hunit
      obtain ⟨e1, e2, e3, e4, -, e6⟩ := step2_next a4 a6 hec hpos.ne' (a5.regular hreg)
        (by rw [SameJ_op a5]; exact hunit) a7
      refine ⟨s'', s''.base, ?_, ?_, a8, e3, a5.trans e4, fun _ => e6, last s'' _ a8 e3 (a5.trans e4) (fun _ => e6)⟩
      · unfold St.steps2
        rw [a1]
        dsimp only
        rw [a7]
      · rw [e1, a2, a3]
        push_cast
        ring
  choose st bs a1 a2 a3 a4 a5 a6 s2 a7 a8 using hrun
  have hnext : ∀ k, s2 k = st (k + 1) := by
    intro k
    have := a1 (k + 1)
    unfold St.steps2 at this
    rw [a1 k] at this
    dsimp only at this
    rw [a7 k] at this
    injection this
  refine ⟨st n, a1 n, a2 n, ?_⟩
  refine key h hpos.le (hle.trans (min_le_left _ _)) n st ⟨h, ?_⟩ (fun k _ => ⟨?_, (a3 k).le, ?_⟩) (fun k hk => ?_) n
    (le_refl n)
  · have := a1 0
    unfold St.steps2 at this
    injection this with this
    exact this.symm
  · rw [a3 k]; exact hpos
  · rw [← hnext k]; exact a7 k
  · rw [a2 k]
    have : (k : ℝ) * h ≤ n * h := mul_le_mul_of_nonneg_right (by exact_mod_cast hk) hpos.le
    linarith

theorem decayR_smooth' (n : Nat) (p : ℝ × (Fin (2 * 0 + 1) → ℝ)) :
    ContDiffAt ℝ n (fun p : ℝ × (Fin (2 * 0 + 1) → ℝ) => (fun i => -p.2 i : Fin (2 * 0 + 1) → ℝ)) p := by
  have : ContDiff ℝ n (fun p : ℝ × (Fin (2 * 0 + 1) → ℝ) => (fun i => -p.2 i : Fin (2 * 0 + 1) → ℝ)) := by
    fun_prop
  exact this.contDiffAt

/-- The hypotheses of `C105_w1` are met: `x' = -x` on the interval from 0 to 5. -/
example : ∃ C, ∃ h₀ > 0, ∀ h, 0 < h → h ≤ h₀ → ∀ n : Nat, decayRStart.t + n * h ≤ 5 →
    ∃ s', (decayRStart.setInitialStepSize h).steps1 (decayR 1) n = .ok s' ∧ s'.t = decayRStart.t + n * h ∧
      ‖fn _ s'.x - decayR_y s'.t‖ ≤ C * h := by
  obtain ⟨b0, hs, -⟩ := decayR_ready (d := 1) one_ne_zero
  exact C105_w1 hs rfl 5 decayR_y decayR_init (fun t _ => decayR_smooth' 2 _)
    (fun t _ => Eventually.of_forall decayR_deriv)

/-- The hypotheses of `C105_sw2` are met. -/
example : ∃ C, ∃ h₀ > 0, ∀ H, 0 ≤ H → H ≤ h₀ → ∀ (N : Nat) (st : Nat → St ℝ Unit),
    (∃ h, st 0 = decayRStart.setInitialStepSize h) →
    (∀ k < N, 0 < (st k).h ∧ (st k).h ≤ H ∧ (st k).doStep2 (decayR 1) 1 = some (.ok (.accepted (st (k + 1))))) →
    (∀ k ≤ N, (st k).t ≤ 5) → ∀ k ≤ N, ‖fn _ (st k).x - decayR_y (st k).t‖ ≤ C * H ^ 2 := by
  obtain ⟨b0, hs, -⟩ := decayR_ready (d := 1) one_ne_zero
  exact C105_sw2 hs (fun h => absurd rfl h) rfl 5 decayR_y decayR_init (fun t _ => decayR_smooth' 3 _)
    (fun t _ => Eventually.of_forall decayR_deriv)

/-- The hypotheses of `C105_sw2_unchecked` are met. -/
example : ∃ C, ∃ h₀ > 0, ∀ h, 0 < h → h ≤ h₀ → ∀ n : Nat, decayRStart.t + n * h ≤ 5 →
    ∃ s', (decayRStart.setInitialStepSize h).steps2 { decayR 1 with disableErrorCheck := true } n = some s' ∧
      s'.t = decayRStart.t + n * h ∧ ‖fn _ s'.x - decayR_y s'.t‖ ≤ C * h ^ 2 := by
  obtain ⟨b0, hs, -⟩ := decayR_ready (d := 1) one_ne_zero
  exact C105_sw2_unchecked (M := { decayR 1 with disableErrorCheck := true })
    ⟨hs.size, hs.rhs, hs.dx, hs.d, hs.x, hs.jac, hs.fill⟩ (fun h => absurd rfl h) rfl rfl 5 decayR_y decayR_init
    (fun t _ => decayR_smooth' 3 _) (fun t _ => Eventually.of_forall decayR_deriv)

end Verif.Ros
