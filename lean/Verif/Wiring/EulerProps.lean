import Verif.Wiring.ParamProps

/-
C110: the equation of the Newton solver of the implicit Euler solver.
-/

namespace Verif.Wiring

open Verif.Res

/-- The Newton solver of the implicit Euler solver works on the equation of a step, reordered if there is a reordering
mapping; reordering is of the solver's own mapping. -/
def Euler.Wired (e : Euler) : Prop :=
  ∃ s, e.newton = some s ∧ e.heap.equations s = .ok (e.equation, e.equation, e.equation) ∧
    ∀ r, e.reorder = some r → e.heap.reorder r = some (2 * e.map4Newton)

theorem setEquation_ok {e : Euler} {s : Nat} (hs : e.newton = some s) (hc : Complete e.heap s)
    (hr : ∀ r, e.reorder = some r → e.heap.reorder r = some (2 * e.map4Newton)) : ∃ h, e.setEquation = .ok { e with heap := h } ∧
      Complete h s ∧ Euler.Wired { e with heap := h } := by
  obtain ⟨h, e1, c1, -⟩ := keeps_step (c := .mapping (some e.equation)) hc trivial
  refine ⟨h, by simp [Euler.setEquation, hs, deref, e1, bind, Except.bind], c1, s, hs,
    equations_complete c1 (agree_mapping e1), fun r hr' => ?_⟩
  have i := setComponent_inv e1
  simp only at i
  have : h.reorder = e.heap.reorder := by
    obtain ⟨-, rfl⟩ | ⟨p, d, l, -, -, -, rfl⟩ := i
    · rfl
    · simp
  simp only [this]
  exact hr r hr'

/-- C110 for the constructor -/
theorem C110_new (h : Heap) (m : Nat) : ∃ e, Euler.new h m = .ok e ∧ e.Wired ∧ e.map4Newton = m ∧ e.reorder = none := by
  obtain ⟨h1, e1, c1, -⟩ := newSolver_ok h
  obtain ⟨h2, e2, -, e3⟩ := setEquation_ok (e := ⟨some h.next, none, m, [], h1⟩) rfl c1 (by simp)
  simp only [Euler.new, e1, bind_ok, Euler.setupNewtonSolver, e2, deref]
  exact ⟨_, rfl, e3, rfl, rfl⟩

/-- C110 for setting a complete Newton solver: whatever it worked on before, it now works on the equation of a step, and
its iterations are forwarded to the observers of the implicit Euler solver once more. -/
theorem C110_setNewtonSolver {e : Euler} {s : Nat} (hc : Complete e.heap s)
    (hr : ∀ r, e.reorder = some r → e.heap.reorder r = some (2 * e.map4Newton)) :
    ∃ e', e.setNewtonSolver (some s) = .ok e' ∧ e'.Wired ∧ e'.newton = some s ∧ e'.forwards = e.forwards ++ [s] := by
  obtain ⟨h2, e2, -, e3⟩ := setEquation_ok (e := { e with newton := some s }) rfl hc hr
  simp only [Euler.setNewtonSolver, Euler.setupNewtonSolver, e2, deref, bind_ok]
  exact ⟨_, rfl, e3, rfl, rfl⟩

/-- C110 for setting or removing the reordering mapping -/
theorem C110_setReorder {e : Euler} (hw : e.Wired) (r : Ref) : ∃ e', e.setReorder r = .ok e' ∧ e'.Wired ∧
    e'.reorder = r ∧ e'.newton = e.newton := by
  obtain ⟨s, h1, h2, -⟩ := hw
  obtain ⟨hc, -⟩ := equations_inv h2
  obtain ⟨p, x, d, j, l, g1, g2, g3, g4, g5⟩ := hc
  cases r with
  | none =>
    obtain ⟨h2, e2, -, e3⟩ := setEquation_ok (e := { e with reorder := none }) h1
      ⟨p, x, d, j, l, g1, g2, g3, g4, g5⟩ (by simp)
    exact ⟨_, e2, e3, rfl, rfl⟩
  | some r =>
    obtain ⟨h2, e2, -, e3⟩ := setEquation_ok
      (e := { e with reorder := some r, heap := { e.heap with reorder := Function.update e.heap.reorder r (some (2 * e.map4Newton)) } })
      h1 ⟨p, x, d, j, l, g1, g2, g3, g4, g5⟩ (by simp)
    exact ⟨_, e2, e3, rfl, rfl⟩

/-- C110 for the parameter `algsolver` with all parameters of a Newton solver -/
theorem C110_setAlgsolver {e : Euler} {n : Nat} {b b' : Bool}
    (hr : e.reorder = none) :
    ∃ e', e.setAlgsolver ⟨some true, some b, some n, some true, some true, some b', some true, some true⟩ = .ok e' ∧
      e'.Wired := by
  obtain ⟨h1, e1, c1, -, -, hn, -⟩ := newSolver_ok e.heap
  obtain ⟨h2, e2, c2, -⟩ := C109_all (h := h1) (s := e.heap.next) (n := n) (b := b) (b' := b') (by omega)
  obtain ⟨e', e3, e4, -⟩ := C110_setNewtonSolver (e := { e with heap := h2 }) (s := e.heap.next) c2 (by simp [hr])
  refine ⟨e', ?_, e4⟩
  simp only [Euler.setAlgsolver, e1, bind_ok, e2]
  exact e3

/-- C110 is false for the parameter `algsolver` with a descent direction and no Jacobian provider: a run of the Newton solver
is undefined. -/
theorem C110_false : ∃ e e' s, Euler.new Heap.empty 3 = .ok e ∧ e.Wired ∧
    e.setAlgsolver { ddir := some true } = .ok e' ∧ e'.newton = some s ∧ e'.heap.equations s = .error .ub := by
  refine ⟨_, _, 6, rfl, ⟨0, rfl, by decide +kernel, by decide +kernel⟩, rfl, rfl, by decide +kernel⟩

/-- The iterations of a Newton solver that is set a second time are forwarded twice; those of a Newton solver that has been
replaced are still forwarded. -/
theorem C110_forwarded_false : ∃ e e', Euler.new Heap.empty 3 = .ok e ∧ e.newton = some 0 ∧
    e.setNewtonSolver (some 0) = .ok e' ∧ e'.newton = some 0 ∧ e'.forwards.count 0 = 2 ∧
    ∃ h e'' s, e'.heap.newSolver = .ok (s, h) ∧ { e' with heap := h }.setNewtonSolver (some s) = .ok e'' ∧
      e''.newton = some s ∧ s ≠ 0 ∧ e''.forwards.count 0 = 2 := by
  refine ⟨_, _, rfl, rfl, rfl, rfl, by decide +kernel, _, _, 6, rfl, rfl, rfl, by decide, by decide +kernel⟩

/-- The hypotheses of `C110_setNewtonSolver`, `C110_setReorder` and `C110_setAlgsolver` are met; the wiring survives
several calls. -/
example : ∃ e e1 e2 e3, Euler.new Heap.empty 3 = .ok e ∧ Complete e.heap 0 ∧ e.setReorder (some 2) = .ok e1 ∧
    e1.setNewtonSolver (some 0) = .ok e2 ∧ e2.Wired ∧ e2.equation = 5 ∧ e2.setReorder none = .ok e3 ∧
    e3.equation = 6 ∧ e3.heap.equations 0 = .ok (6, 6, 6) := by
  refine ⟨_, _, _, _, rfl, ⟨1, 2, 3, 5, 4, by decide +kernel⟩, rfl, rfl, ⟨0, rfl, by decide +kernel, ?_⟩, rfl, rfl, rfl,
    by decide +kernel⟩
  intro r hr
  cases hr
  rfl

end Verif.Wiring
