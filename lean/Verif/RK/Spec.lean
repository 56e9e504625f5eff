import Verif.RK.Solver
import Mathlib.Algebra.BigOperators.Group.Finset.Basic
import Mathlib.Algebra.BigOperators.Fin
import Mathlib.Algebra.Module.BigOperators

/-! # Explicit Runge-Kutta methods as mathematics -/

namespace Verif.RK

open scoped BigOperators

/-- A tableau: `a i j` for `j < i < s`, nodes `c i` with `c 0 = 0`, and weights `b ix i` of the
outputs. -/
structure Tableau (R : Type) where
  s : Nat
  a : Nat → Nat → R
  b : Nat → Nat → R
  c : Nat → R

section
variable {R V : Type} [CommRing R] [AddCommGroup V] [Module R V]

/-- Stage `i` of the method at `(t, x)` with step `h`:
`kᵢ = f(t + cᵢ h, x + h Σ_{j<i} aᵢⱼ kⱼ)`. -/
def Tableau.stage (T : Tableau R) (f : R → V → V) (t h : R) (x : V) (i : Nat) : V :=
  f (t + h * T.c i) (x + h • ∑ j : Fin i, T.a i j • T.stage f t h x j)
termination_by i
decreasing_by exact j.2

/-- Output `ix`: `x + h Σ bᵢ kᵢ`. -/
def Tableau.output (T : Tableau R) (f : R → V → V) (t h : R) (x : V) (ix : Nat) : V :=
  x + h • ∑ i ∈ Finset.range T.s, T.b ix i • T.stage f t h x i

/-- The coefficients as packed by the code: rows of `a`, rows of `b` for `n` outputs, nodes
without the first. -/
def Tableau.pack (T : Tableau R) (n : Nat) (lastK : Int) : Coefficients R where
  a := (List.range T.s).flatMap (fun i => (List.range i).map (T.a i))
  b := (List.range n).flatMap (fun ix => (List.range T.s).map (T.b ix))
  c := (List.range (T.s - 1)).map (fun i => T.c (i + 1))
  lastK := lastK

theorem Tableau.stage_eq (T : Tableau R) (f : R → V → V) (t h : R) (x : V) (i : Nat) :
    T.stage f t h x i
      = f (t + h * T.c i) (x + h • ∑ j ∈ Finset.range i, T.a i j • T.stage f t h x j) := by
  rw [Tableau.stage, Finset.sum_range]

end

end Verif.RK
