import Verif.RK.Solver
import Mathlib.Algebra.Order.Round
import Mathlib.Data.Int.Log

/-
Arithmetic of `real_type` (lib_config.h; `double` in the instantiations) with rounding:
  include/ode_num_int/ode/ExplicitRKHelper.h
  include/ode_num_int/ode/OdeSolverExplicitRK.h
  include/ode_num_int/ode/OdeSolverExplicitEmbeddedRK.h
  include/ode_num_int/ode/OdeStepSizeSimpleController.h
  include/ode_num_int/ode/OdeSolverConfiguration.h (solveOde)
are run on it. The models of these files are generic in the type of the scalars and only use the operations
given here.

Simplifications:
 * every operation gives the rounding of the exact result (IEEE 754, no contraction to fused
   multiply-add, no extended precision);
 * the range of exponents is not bounded: there is no overflow and no underflow. Infinities and NaN are in
   Verif/Special/Model.lean, which does not round.
-/

namespace Verif.Round

/-- A value of `real_type`, when results of operations are rounded by `r`. -/
structure Rd {K : Type} (r : K → K) where
  val : K

namespace Rd

variable {K : Type} {r : K → K}

theorem ext' {a b : Rd r} (h : a.val = b.val) : a = b := by
  cases a; cases b; cases h; rfl

instance [DecidableEq K] : DecidableEq (Rd r) := fun a b =>
  decidable_of_iff (a.val = b.val) ⟨ext', fun h => by rw [h]⟩

instance [Zero K] : Zero (Rd r) := ⟨⟨0⟩⟩

instance [One K] : One (Rd r) := ⟨⟨1⟩⟩

/-- Conversion of an integer -/
instance [NatCast K] : NatCast (Rd r) := ⟨fun n => ⟨r n⟩⟩

/-- IEEE 754 addition (ExplicitRKHelper.h:75, 76, 91; OdeSolverExplicitRK.h:78) -/
instance [Add K] : Add (Rd r) := ⟨fun a b => ⟨r (a.val + b.val)⟩⟩

/-- IEEE 754 subtraction -/
instance [Sub K] : Sub (Rd r) := ⟨fun a b => ⟨r (a.val - b.val)⟩⟩

/-- IEEE 754 multiplication (ExplicitRKHelper.h:75, 76, 91) -/
instance [Mul K] : Mul (Rd r) := ⟨fun a b => ⟨r (a.val * b.val)⟩⟩

/-- IEEE 754 division -/
instance [Div K] : Div (Rd r) := ⟨fun a b => ⟨r (a.val / b.val)⟩⟩

/-- IEEE 754 negation, which is exact -/
instance [Neg K] : Neg (Rd r) := ⟨fun a => ⟨-a.val⟩⟩

/-- Comparison of numbers -/
instance [LinearOrder K] : LinearOrder (Rd r) := LinearOrder.lift' Rd.val (fun _ _ h => ext' h)

/-- The value nearest to a constant of the source (`1./6`, `0.1`) -/
def lit (r : K → K) (a : K) : Rd r := ⟨r a⟩

@[simp] theorem val_zero [Zero K] : (0 : Rd r).val = 0 := rfl
@[simp] theorem val_add [Add K] (a b : Rd r) : (a + b).val = r (a.val + b.val) := rfl
@[simp] theorem val_mul [Mul K] (a b : Rd r) : (a * b).val = r (a.val * b.val) := rfl
theorem lt_iff [LinearOrder K] {a b : Rd r} : a < b ↔ a.val < b.val := Iff.rfl
theorem le_iff [LinearOrder K] {a b : Rd r} : a ≤ b ↔ a.val ≤ b.val := Iff.rfl

end Rd

/-- The coefficients of a method as the program has them: each one rounded (OdeSolverRK4.h:20-36 and the other
tableaux; the constants divided are integers small enough to be exact). -/
def round {K : Type} (r : K → K) (co : RK.Coefficients K) : RK.Coefficients (Rd r) :=
  ⟨co.a.map (Rd.lit r), co.b.map (Rd.lit r), co.c.map (Rd.lit r), co.lastK⟩

/-- The parameters of the step size controller as the program has them (OdeStepSizeSimpleController.h:23-30) -/
def roundCtl {K : Type} (r : K → K) (c : RK.CtlParams K) : RK.CtlParams (Rd r) :=
  ⟨.lit r c.tolerance, .lit r c.insurance, .lit r c.incMin, .lit r c.incMax, .lit r c.decMax, .lit r c.maxThreshold⟩

/-- A state vector: one value for each variable (VectorTemplate.h). Sums and products with a number are taken
component by component. -/
abbrev Vec {K : Type} (r : K → K) (n : Nat) : Type := Fin n → Rd r

/-- The exact vector with the same components -/
def Vec.val {K : Type} {r : K → K} {n : Nat} (x : Vec r n) : Fin n → K := fun i => (x i).val

/-- `r` is a rounding with relative error at most `u`, the unit roundoff (2^-53 for `double`). -/
structure Rounds {K : Type} [Field K] [LinearOrder K] (r : K → K) (u : K) : Prop where
  nonneg : 0 ≤ u
  le : ∀ x, |r x - x| ≤ u * |x|

/-! ### Rounding to `p` binary digits -/

section
variable {K : Type} [Field K] [LinearOrder K] [FloorRing K]

/-- The nearest integer, of two equally near ones the even one -/
def nearest (z : K) : Int :=
  if z - ⌊z⌋ < 1 / 2 then ⌊z⌋
  else if 1 / 2 < z - ⌊z⌋ then ⌊z⌋ + 1
  else if ⌊z⌋ % 2 = 0 then ⌊z⌋ else ⌊z⌋ + 1

/-- Round to nearest, ties to even, with `p` binary digits (IEEE 754 roundTiesToEven; `p` is 53 for
`double`) -/
def binary (p : Nat) (x : K) : K :=
  (nearest (x / (2 : K) ^ (Int.log 2 |x| + 1 - p)) : K) * (2 : K) ^ (Int.log 2 |x| + 1 - p)

end

end Verif.Round
