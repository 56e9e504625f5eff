import Verif.Implicit.Converge

/-!
# Linear quantities under implicit Euler (C145)
-/

namespace Verif.Implicit

open Verif.Res Verif.Alg

section
variable {K D E : Type} [Field K] [LinearOrder K] [IsStrictOrderedRing K]

/-- The right-hand side does not change the quantity with the weights `w`. -/
def Conserves (r : Rhs K) (w : Nat → K) : Prop :=
  ∀ t x f, x.length = 2 * r.n2 + r.n1 → r.rhs t x = .ok f → ∑ i ∈ Finset.range (2 * r.n2 + r.n1), w i * f.getD i 0 = 0

/-- The quantity with the weights `w` at a state -/
def quantity (r : Rhs K) (w : Nat → K) (x : List K) : K := ∑ i ∈ Finset.range (2 * r.n2 + r.n1), w i * x.getD i 0

/-- The sum of the weights of the variables that the Newton solver finds: all but positions -/
def weight (r : Rhs K) (w : Nat → K) : K := ∑ i ∈ Finset.Ico r.n2 (2 * r.n2 + r.n1), |w i|

theorem solves_quantity {r : Rhs K} (hk : Kinematic r) {w : Nat → K} (hw : Conserves r w) {alpha h t0 tol : K}
    {X0 X1 : List K} (h0 : X0.length = 2 * r.n2 + r.n1) (hs : Solves r alpha h t0 tol X0 X1) :
    |quantity r w X1 - quantity r w X0| ≤ weight r w * tol := by
  obtain ⟨hl, f0, f1, a0, a1, hp, hv⟩ := hs
  have c0 := hw _ _ _ h0 a0
  have c1 := hw _ _ _ hl a1
  have e : quantity r w X1 - quantity r w X0 = ∑ i ∈ Finset.range (2 * r.n2 + r.n1),
      w i * (X1.getD i 0 - (X0.getD i 0 + h * ((1 - alpha) * f0.getD i 0 + alpha * f1.getD i 0))) := by
    have h1 : ∀ i, w i * (X1.getD i 0 - (X0.getD i 0 + h * ((1 - alpha) * f0.getD i 0 + alpha * f1.getD i 0))) =
        w i * X1.getD i 0 - w i * X0.getD i 0 - (h * (1 - alpha) * (w i * f0.getD i 0) + h * alpha * (w i * f1.getD i 0)) :=
      fun i => by ring
    simp only [h1]
    rw [Finset.sum_sub_distrib, Finset.sum_sub_distrib, Finset.sum_add_distrib, ← Finset.mul_sum, ← Finset.mul_sum, c0, c1]
    unfold quantity
    ring
  have hle : r.n2 ≤ 2 * r.n2 + r.n1 := by omega
  rw [e, ← Finset.sum_range_add_sum_Ico _ hle]
  have z : ∑ i ∈ Finset.range r.n2,
      w i * (X1.getD i 0 - (X0.getD i 0 + h * ((1 - alpha) * f0.getD i 0 + alpha * f1.getD i 0))) = 0 := by
    refine Finset.sum_eq_zero fun i hi => ?_
    have hi := Finset.mem_range.1 hi
    rw [hp i hi, hk _ _ _ a0 i hi, hk _ _ _ a1 i hi]
    ring
  rw [z, zero_add]
  refine (Finset.abs_sum_le_sum_abs _ _).trans ?_
  unfold weight
  rw [Finset.sum_mul]
  refine Finset.sum_le_sum fun i hi => ?_
  obtain ⟨h1, h2⟩ := Finset.mem_Ico.1 hi
  rw [abs_mul]
  exact mul_le_mul_of_nonneg_left (hv i h1 h2) (abs_nonneg _)

/-- C145: a step of implicit Euler changes a linear quantity that the differential equations keep (mass, momentum) by
no more than the sum of its weights times the absolute tolerance of the Newton solver, whatever the step size, the
implicitness, the initial guess and the order of the variables. -/
theorem C145_step (M : IMethod D K E) {tl : Nat} (hP : ∀ F, (M.parts F).F = F ∧ SimpleSearch (M.parts F) tl)
    (hec : M.ec = none) {s s' : ISolver D K E} {tr : RK.Trunc} (h : s.doStep M = .ok (s', tr)) (hw : Works (M.rhs s.ec))
    (hk : Kinematic (M.rhs s.ec)) {w : Nat → K} (hc : Conserves (M.rhs s.ec) w)
    (hx0 : s.map.x0.length = 2 * (M.rhs s.ec).n2 + (M.rhs s.ec).n1)
    (hord : ∀ o, M.order = some o → IsPerm ((M.rhs s.ec).n2 + (M.rhs s.ec).n1) o.1 ∧
      IsPerm ((M.rhs s.ec).n2 + (M.rhs s.ec).n1) o.2)
    (hpred : ∀ p, M.predictor = some p → ∀ h n t x y, p h n t x = .ok y → x.length = y.length)
    (ha : 0 ≤ s.perf.est.absTol) (hr : 0 ≤ s.perf.est.relTol) :
    |quantity (M.rhs s.ec) w s'.map.x0 - quantity (M.rhs s.ec) w s.map.x0| ≤ weight (M.rhs s.ec) w * s.perf.est.absTol := by
  obtain ⟨X1, hS, h1, -⟩ := C35_step M hP h hw hx0 hord hpred ha hr
  rw [(h1 hec).1]
  exact solves_quantity hk hc hx0 hS

/-- C145: over a run these changes add up, no more: after `N` steps the quantity differs from that at the start by at
most `N` times the bound of one step. -/
theorem C145_run (M : IMethod D K E) {tl : Nat} (hP : ∀ F, (M.parts F).F = F ∧ SimpleSearch (M.parts F) tl)
    (hec : M.ec = none) {e : E} (hw : Works (M.rhs e)) (hk : Kinematic (M.rhs e)) {w : Nat → K} (hc : Conserves (M.rhs e) w)
    (hord : ∀ o, M.order = some o → IsPerm ((M.rhs e).n2 + (M.rhs e).n1) o.1 ∧ IsPerm ((M.rhs e).n2 + (M.rhs e).n1) o.2)
    (hpred : ∀ p, M.predictor = some p → ∀ h n t x y, p h n t x = .ok y → x.length = y.length)
    {st : Nat → ISolver D K E} (h0 : (st 0).ec = e) (hx0 : (st 0).map.x0.length = 2 * (M.rhs e).n2 + (M.rhs e).n1)
    (ha : 0 ≤ (st 0).perf.est.absTol) (hr : 0 ≤ (st 0).perf.est.relTol) {N : Nat}
    (hst : ∀ k < N, ∃ tr, (st k).doStep M = .ok (st (k + 1), tr)) {k : Nat} (hkN : k ≤ N) :
    |quantity (M.rhs e) w (st k).map.x0 - quantity (M.rhs e) w (st 0).map.x0| ≤
      k * (weight (M.rhs e) w * (st 0).perf.est.absTol) := by
  suffices H : (st k).ec = e ∧ (st k).map.x0.length = 2 * (M.rhs e).n2 + (M.rhs e).n1 ∧
      (st k).perf.est.absTol = (st 0).perf.est.absTol ∧ (st k).perf.est.relTol = (st 0).perf.est.relTol ∧
      |quantity (M.rhs e) w (st k).map.x0 - quantity (M.rhs e) w (st 0).map.x0| ≤
        k * (weight (M.rhs e) w * (st 0).perf.est.absTol) from H.2.2.2.2
  induction k with
  | zero => exact ⟨h0, hx0, rfl, rfl, by simp⟩
  | succ k ih =>
    obtain ⟨i1, i2, i3, i4, i5⟩ := ih (by omega)
    obtain ⟨tr, h⟩ := hst k (by omega)
    obtain ⟨-, -, k3, k4, k5⟩ := step_keeps M h
    obtain ⟨X1, hS, g1, -⟩ := C35_step M hP h (by rw [i1]; exact hw) (by rw [i1]; exact i2) (by rw [i1]; exact hord) hpred
      (by rw [i3]; exact ha) (by rw [i4]; exact hr)
    have hs := C145_step M hP hec h (by rw [i1]; exact hw) (by rw [i1]; exact hk) (by rw [i1]; exact hc)
      (by rw [i1]; exact i2) (by rw [i1]; exact hord) hpred (by rw [i3]; exact ha) (by rw [i4]; exact hr)
    rw [i1, i3] at hs
    rw [i1] at hS
    refine ⟨(k5 hec).trans i1, by rw [(g1 hec).1]; exact hS.1, k3.trans i3, k4.trans i4, ?_⟩
    have := abs_add_le (quantity (M.rhs e) w (st (k + 1)).map.x0 - quantity (M.rhs e) w (st k).map.x0)
      (quantity (M.rhs e) w (st k).map.x0 - quantity (M.rhs e) w (st 0).map.x0)
    rw [sub_add_sub_cancel] at this
    push_cast
    linarith

end

section

/-- A reaction that turns one substance into another: `x' = -x`, `y' = x`; the sum is constant. -/
def exReact : Rhs ℚ := ⟨0, 2, fun _ x => .ok [-x.getD 0 0, x.getD 0 0]⟩

/-- Implicit Euler on it with the components of the library -/
def exReactEuler : IMethod (Dir ℚ) ℚ Unit := { exEuler with rhs := fun _ => exReact, parts := fun F => Alg.parts .simple F 2 8 }

/-- A new solver at 2 and 0, with step 1 -/
def exReactSolver : ISolver (Dir ℚ) ℚ Unit := { exSolver with map := (EMap.new : EMap ℚ).setInitialState 0 [2, 0] }

/-- The hypotheses of `C145_step` are met: 2 and 0 go to 1 and 1. -/
example : ∃ s' tr, exReactSolver.doStep exReactEuler = .ok (s', tr) ∧ s'.map.x0 = [1, 1] ∧ Works exReact ∧
    Kinematic exReact ∧ Conserves exReact (fun _ => 1) ∧ weight exReact (fun _ => 1) = 2 ∧
    (∀ F, (exReactEuler.parts F).F = F ∧ SimpleSearch (exReactEuler.parts F) 8) ∧
    0 ≤ exReactSolver.perf.est.absTol ∧ 0 ≤ exReactSolver.perf.est.relTol := by
  obtain ⟨p, h1, h2⟩ := Verif.Res.exists_of_test (r := exReactSolver.doStep exReactEuler)
    (p := fun p => decide (p.1.map.x0 = [1, 1])) (by decide +kernel)
  refine ⟨p.1, p.2, h1, of_decide_eq_true h2, fun t x _ => ⟨_, rfl, rfl⟩, fun _ _ _ _ i hi => absurd hi (Nat.not_lt_zero _),
    fun t x f _ hf => ?_, ?_, fun F => ⟨rfl, fun _ _ _ _ => rfl⟩, by decide +kernel, by decide +kernel⟩
  · cases hf
    simp [exReact, Finset.sum_range_succ]
  · simp [exReact, weight]

end

end Verif.Implicit
