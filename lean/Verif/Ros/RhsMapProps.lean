import Verif.Ros.StepProps
import Verif.Alg.FiniteDiff
import Verif.Implicit.EulerProps

/-!
# The right-hand side as a vector mapping, and Jacobians made from it (C146)
-/

set_option linter.unusedSectionVars false

namespace Verif.Ros

open Verif.Res Verif.Alg Verif.Implicit

section
variable {K : Type} [Field K] [LinearOrder K] [IsStrictOrderedRing K]

/-- OdeRhsVectorMapping (ode/interfaces/OdeRhsVectorMapping.h:13-63): the right-hand side at a fixed time. `setTime` and
`setOdeRhs` are plain assignments: they change the arguments here. A null right-hand side is undefined behaviour and left out. -/
def rhsMapping (r : Rhs K) (t : K) : Mapping K where
  inSize := r.varCount
  outSize := r.varCount
  map := r.rhs t

/-- Values of a right-hand side at shifted states -/
theorem works_shifts {r : Rhs K} (hw : Works r) (t dx : K) {x : List K} (hx : x.length = r.varCount) :
    ∃ f0 f, r.rhs t x = .ok f0 ∧ f0.length = r.varCount ∧ Shifts (r.rhs t) dx x r.varCount f := by
  obtain ⟨f0, h1, h2⟩ := hw t x hx
  have : ∀ i, ∃ y, r.rhs t (x.set i (x.getD i 0 + dx)) = .ok y ∧ y.length = r.varCount := fun i => hw t _ (by simp only [List.length_set]; exact hx)
  choose f g1 g2 using this
  exact ⟨f0, f, h1, h2, fun i _ => ⟨g1 i, g2 i⟩⟩

theorem jac_get {r : Rhs K} {t dx : K} (hdx : dx ≠ 0) {x : List K} (hx : x.length = r.varCount) {f0 : List K} {f : Nat → List K}
    (h0 : r.rhs t x = .ok f0) (hl : f0.length = r.varCount) (hf : Shifts (r.rhs t) dx x r.varCount f) :
    ∃ J, computeJacobian (rhsMapping r t) dx x = .ok J ∧ J.size = (r.varCount, r.varCount) ∧
      ∀ i c, i < r.varCount → c < r.varCount → Sparse.Data.get J.data (i, c) = ((f c).getD i 0 - f0.getD i 0) / dx := by
  obtain ⟨J, h1, h2, -, h3⟩ := C82_differences (F := rhsMapping r t) hdx hx h0 hl hf
  refine ⟨J, h1, h2, fun i c hi hc => ?_⟩
  unfold Sparse.Data.get
  rw [h3]
  by_cases hz : (f c).getD i 0 - f0.getD i 0 = 0
  · rw [if_neg (fun h => h.2.2 hz), hz]
    simp
  · rw [if_pos ⟨hi, hc, hz⟩]

/-- C146: the finite-difference Jacobian of the right-hand side as a mapping, for a system of second and first order: the rows of
positions are exactly those of the identity at the velocities, whatever the increment. -/
theorem C146_positions {r : Rhs K} (hw : Works r) (hk : Kinematic r) {t dx : K} (hdx : dx ≠ 0) {x : List K} (hx : x.length = r.varCount) :
    ∃ J, computeJacobian (rhsMapping r t) dx x = .ok J ∧ J.size = (r.varCount, r.varCount) ∧
      ∀ i c, i < r.n2 → c < r.varCount → Sparse.Data.get J.data (i, c) = if c = r.n2 + i then 1 else 0 := by
  obtain ⟨f0, f, h0, hl, hf⟩ := works_shifts hw t dx hx
  obtain ⟨J, h1, h2, h3⟩ := jac_get hdx hx h0 hl hf
  have hv : r.varCount = 2 * r.n2 + r.n1 := rfl
  refine ⟨J, h1, h2, fun i c hi hc => ?_⟩
  rw [h3 i c (by omega) hc, hk _ _ _ (hf c hc).1 i hi, hk _ _ _ h0 i hi, Vec.getD_set (by omega)]
  by_cases e : c = r.n2 + i
  · subst e
    rw [if_pos rfl, if_pos rfl, add_sub_cancel_left, div_self hdx]
  · rw [if_neg (fun h => e h.symm), if_neg e, sub_self, zero_div]

/-- C146: the Rosenbrock solvers build the same Jacobian, element by element, at the initial time and state, in all columns but the last
`n2` ones, which they leave out (C38). -/
theorem C146_rosenbrock {r : Rhs K} (hw : Works r) (hk : Kinematic r) {t dx : K} (hdx : dx ≠ 0) {x f0 : List K}
    (hx : x.length = r.varCount) (h0 : r.rhs t x = .ok f0) {b : Base K} (hn : b.n = r.varCount) (hn2 : b.n2 = r.n2) (hn1 : b.n1 = r.n1)
    (hbuf : b.buf.length = b.n2 + b.n1) :
    ∃ b' J, b.buildJacobian (r.rhs t) dx x f0 = .ok b' ∧ computeJacobian (rhsMapping r t) dx x = .ok J ∧
      ∀ i c, i < r.varCount → c < r.n2 + r.n1 → b'.jac i c = Sparse.Data.get J.data (i, c) := by
  obtain ⟨g0, f, e0, hl, hf⟩ := works_shifts hw t dx hx
  rw [h0] at e0
  cases e0
  obtain ⟨J, h1, h2, h3⟩ := jac_get hdx hx h0 hl hf
  obtain ⟨J', p1, -, p3⟩ := C146_positions hw hk (t := t) hdx hx
  rw [h1] at p1
  cases p1
  have hv : r.varCount = 2 * r.n2 + r.n1 := rfl
  obtain ⟨b', k1, -, -, k4, k5, -, -, k8, k9⟩ := build_ok (b := b) (rhs := r.rhs t) (x0 := x) (f0 := f0) (f := f) hdx (by omega) hbuf (by omega)
    (by omega) (by rw [hn]; exact hf)
  refine ⟨b', J, k1, h1, fun i c hi hc => ?_⟩
  unfold Base.jac
  rw [k4, hn2]
  by_cases hi2 : i < r.n2
  · rw [if_pos hi2, p3 i c hi2 (by omega)]
  · obtain ⟨i, rfl⟩ : ∃ q, i = r.n2 + q := ⟨i - r.n2, by omega⟩
    rw [if_neg hi2, h3 _ c hi (by omega), Nat.add_sub_cancel_left]
    by_cases hc2 : c < r.n2
    · rw [if_pos hc2, k9, hn2, hn1, if_pos ⟨hc2, by omega⟩]
    · obtain ⟨c, rfl⟩ : ∃ q, c = r.n2 + q := ⟨c - r.n2, by omega⟩
      rw [if_neg hc2, Nat.add_sub_cancel_left, k8, hn2, hn1, if_pos ⟨by omega, by omega⟩]

/-- C146: for equations of first order, the Jacobian of the step mapping of implicit Euler, which the Newton solver uses, is exactly
`I - h*alpha*J`, where `J` is the finite-difference Jacobian of the right-hand side at the end of the step. -/
theorem C146_euler {r : Rhs K} (hw : Works r) (h2 : r.n2 = 0) {m : EMap K} (hm : Fresh r m) (hx0 : m.x0.length = r.n1) {dx : K}
    (hdx : dx ≠ 0) {x : List K} (hx : x.length = r.n1) :
    ∃ A J, computeJacobian (m.mapping r) dx x = .ok A ∧ computeJacobian (rhsMapping r (m.t0 + m.h)) dx x = .ok J ∧
      ∀ i c, i < r.n1 → c < r.n1 → Sparse.Data.get A.data (i, c) =
        (if i = c then 1 else 0) - m.h * m.alpha * Sparse.Data.get J.data (i, c) := by
  have hv : r.varCount = r.n1 := by unfold Rhs.varCount; omega
  obtain ⟨f1, f, e1, hl, hf⟩ := works_shifts hw (m.t0 + m.h) dx (x := x) (by omega)
  obtain ⟨J, j1, j2, j3⟩ := jac_get hdx (by omega) e1 hl hf
  obtain ⟨f0, a1, a2⟩ := hw m.t0 m.x0 (by omega)
  have hfull : ∀ y : List K, full r.n2 m.alpha m.h m.x0 y = y := fun y => by simp [full, h2]
  have hmap : ∀ y g, y.length = r.n1 → r.rhs (m.t0 + m.h) y = .ok g → g.length = r.n1 →
      (m.mapping r).map y = .ok (Implicit.residual r.n2 r.n1 m.alpha m.h m.x0 y f0 g) := fun y g y1 y2 y3 => by
    obtain ⟨m', q⟩ := map_ok r hm (by omega) (x := y) (by omega) a1 a2 (by rw [hfull]; exact y2) (by omega)
    show (m.map r y >>= fun p => .ok p.2) = _
    rw [q]
    rfl
  have hin : (m.mapping r).inSize = r.n1 := by show r.n1 + r.n2 = _; omega
  obtain ⟨A, b1, -, -, b4⟩ := C82_differences (F := m.mapping r) hdx (x0 := x) (by omega) (hmap x f1 hx e1 (by omega))
    (by simp [Implicit.residual, hin, h2]) (f := fun c => Implicit.residual r.n2 r.n1 m.alpha m.h m.x0 (x.set c (x.getD c 0 + dx)) f0 (f c))
    (fun c hc => ⟨hmap _ _ (by simpa using hx) (hf c (by omega)).1 (by rw [(hf c (by omega)).2]; omega), by simp [Implicit.residual, hin, h2]⟩)
  refine ⟨A, J, b1, j1, fun i c hi hc => ?_⟩
  have hA : Sparse.Data.get A.data (i, c) =
      ((Implicit.residual r.n2 r.n1 m.alpha m.h m.x0 (x.set c (x.getD c 0 + dx)) f0 (f c)).getD i 0 -
        (Implicit.residual r.n2 r.n1 m.alpha m.h m.x0 x f0 f1).getD i 0) / dx := by
    unfold Sparse.Data.get
    rw [b4]
    by_cases hz : (Implicit.residual r.n2 r.n1 m.alpha m.h m.x0 (x.set c (x.getD c 0 + dx)) f0 (f c)).getD i 0 -
        (Implicit.residual r.n2 r.n1 m.alpha m.h m.x0 x f0 f1).getD i 0 = 0
    · rw [if_neg (fun h => h.2.2 hz), hz]
      simp
    · rw [if_pos ⟨by omega, by omega, hz⟩]
  rw [hA, j3 i c (by omega) (by omega)]
  unfold Implicit.residual
  rw [getD_range_map _ (by omega), getD_range_map _ (by omega), Vec.getD_set (by omega), h2, Nat.zero_add]
  by_cases e : i = c
  · subst e
    rw [if_pos rfl, if_pos rfl]
    field_simp
    ring
  · rw [if_neg e, if_neg e]
    field_simp
    ring

end

section

/-- A nonlinear oscillator with friction and a variable of first order -/
def exOsc : Rhs ℚ := ⟨1, 1, fun t x => .ok [x.getD 1 0, t - x.getD 0 0 * x.getD 0 0 - x.getD 1 0, x.getD 2 0 * x.getD 1 0]⟩

/-- The hypotheses of `C146_positions` and `C146_rosenbrock` are met, and the Jacobian at time 0, position 1, velocity 2 is as it should
be: the last column (here one) is what the Rosenbrock solvers leave out. -/
example : Works exOsc ∧ Kinematic exOsc ∧ ∃ J, computeJacobian (rhsMapping exOsc 0) 1 [1, 2, 3] = .ok J ∧
    J.data = [((0, 1), 1), ((1, 0), -3), ((1, 1), -1), ((2, 1), 3), ((2, 2), 2)] := by
  refine ⟨fun t x _ => ⟨_, rfl, rfl⟩, fun t x f hf i hi => ?_, ?_⟩
  · obtain rfl : i = 0 := by simpa [exOsc] using hi
    cases hf
    rfl
  · obtain ⟨J, h1, h2⟩ := Res.exists_of_test (r := computeJacobian (rhsMapping exOsc 0) 1 [1, 2, 3])
      (p := fun J => decide (J.data = [((0, 1), 1), ((1, 0), -3), ((1, 1), -1), ((2, 1), 3), ((2, 2), 2)])) (by decide +kernel)
    exact ⟨J, h1, of_decide_eq_true h2⟩

/-- The hypotheses of `C146_euler` are met: a new step mapping for `x' = -x` -/
example : Works exDecay ∧ exDecay.n2 = 0 ∧ Fresh exDecay ((EMap.new : EMap ℚ).setInitialState 0 [2]) ∧
    ((EMap.new : EMap ℚ).setInitialState 0 [2]).x0.length = exDecay.n1 ∧
    ∃ A, computeJacobian (((EMap.new : EMap ℚ).setInitialState 0 [2]).mapping exDecay) 1 [5] = .ok A ∧ A.data = [((0, 0), 11 / 10)] := by
  refine ⟨fun t x _ => ⟨_, rfl, rfl⟩, rfl, fun h => (by cases h), rfl, ?_⟩
  obtain ⟨A, h1, h2⟩ := Res.exists_of_test
    (r := computeJacobian (((EMap.new : EMap ℚ).setInitialState 0 [2]).mapping exDecay) 1 [5])
    (p := fun J => decide (J.data = [((0, 0), 11 / 10)])) (by decide +kernel)
  exact ⟨A, h1, of_decide_eq_true h2⟩

end

end Verif.Ros
