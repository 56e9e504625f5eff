import Verif.Basic
import Mathlib.Analysis.SpecialFunctions.Trigonometric.Arctan
import Mathlib.Analysis.SpecialFunctions.Pow.Real

/-
Model of include/ode_num_int/ode/test_models: Oscillator.h, StiffOde1D.h, SlidingPoint.h.

Simplifications: exact arithmetic (real numbers where the code calls `sqrt`, `sin`, `cos`, `atan`); observers and
parameter texts other than the type of friction are left out.
-/

namespace Verif.TestModels

open Verif.Res

/-- `resize` of the destination: keeps the beginning and fills with zeros (Oscillator.h:39, StiffOde1D.h:38,
SlidingPoint.h:47) -/
def resized {K : Type} [Zero K] (n : Nat) (dst : List K) : List K := (dst ++ List.replicate n 0).take n

/-- Fields of `Oscillator` (Oscillator.h:74-75); the default arguments of the constructor (23-26) are in `Config.Model.new` -/
structure Oscillator (K : Type) where
  c : K
  f : K

/-- `rhs` (Oscillator.h:36-43) -/
def Oscillator.rhs {K : Type} [Field K] (o : Oscillator K) (dst x : List K) : Res (List K) := do
  let dst := resized 2 dst
  let v ← at' x 1
  let dst ← atSet dst 0 v
  let u ← at' x 0
  atSet dst 1 (o.f - o.c * u)

/-- Field of `StiffOde1D` (StiffOde1D.h:67) -/
structure Stiff where
  a : ℝ

/-- The constructor (StiffOde1D.h:23-25) called with a real number: its parameter is `unsigned int`, so the
argument is truncated; a number that does not fit is undefined behaviour. -/
noncomputable def Stiff.new (a : ℝ) : Res Stiff :=
  if -1 < a ∧ a < 4294967296 then .ok ⟨(⌊max a 0⌋₊ : ℝ)⟩ else .error .ub

/-- `setParameters` (StiffOde1D.h:50-53) -/
def Stiff.setParameters (s : Stiff) (a : Option ℝ) : Stiff := ⟨a.getD s.a⟩

/-- `rhs` (StiffOde1D.h:35-41) -/
noncomputable def Stiff.rhs (s : Stiff) (dst : List ℝ) (t : ℝ) (x : List ℝ) : Res (List ℝ) := do
  let dst := resized 1 dst
  let u ← at' x 0
  atSet dst 0 (-s.a * (u - Real.cos t))

/-- `FrictionType` (SlidingPoint.h:24) -/
inductive Friction where
  | atan | tabular | linear
  deriving DecidableEq, Repr

/-- `enumText` (SlidingPoint.h:145-152) -/
def Friction.text : List (Friction × String) := [(.atan, "atan"), (.tabular, "tabular"), (.linear, "linear")]

/-- `fromEnum` (SlidingPoint.h:154-160) -/
def Friction.show (k : Friction) : Res String :=
  match Friction.text.find? (fun p => k = p.1) with
  | some p => .ok p.2
  | none => .error (.exc "Unknown enum value")

/-- `toEnum` (SlidingPoint.h:162-168) -/
def Friction.read (s : String) : Res Friction :=
  match Friction.text.find? (fun p => s = p.2) with
  | some p => .ok p.1
  | none => .error (.exc s!"Unknown enum value '{s}'")

/-- Fields of `SlidingPoint` (SlidingPoint.h:108-114) -/
structure Sliding where
  kind : Friction
  mass : ℝ
  f0 : ℝ
  v0 : ℝ
  F1 : ℝ
  F2 : ℝ
  omega : ℝ

/-- The constructor (SlidingPoint.h:26-34) -/
noncomputable def Sliding.default : Sliding := ⟨.atan, 1, 1, 1, 10, 10, 100⟩

/-- The switch in `frictionForce` (SlidingPoint.h:126-140): magnitude of the force at speed `v` -/
noncomputable def Sliding.magnitude (p : Sliding) (v : ℝ) : Res ℝ :=
  match p.kind with
  | .atan => do .ok (2 / Real.pi * p.f0 * Real.arctan (← div v p.v0))
  | .tabular => if v < p.v0 then div (p.f0 * v) p.v0 else .ok p.f0
  | .linear => div (p.f0 * v) p.v0

/-- `frictionForce` (SlidingPoint.h:116-142) -/
noncomputable def Sliding.friction (p : Sliding) (v1 v2 : ℝ) : Res (ℝ × ℝ) := do
  let v := Real.sqrt (v1 * v1 + v2 * v2)
  let e : ℝ × ℝ := if 0 < v then (v1 / v, v2 / v) else (0, 0)
  let f ← p.magnitude v
  .ok (-f * e.1, -f * e.2)

/-- `rhs` (SlidingPoint.h:44-60); the local `v` there is not used. -/
noncomputable def Sliding.rhs (p : Sliding) (dst : List ℝ) (t : ℝ) (x : List ℝ) : Res (List ℝ) := do
  let dst := resized 4 dst
  let v1 ← at' x 2
  let v2 ← at' x 3
  let R ← p.friction v1 v2
  let F1 := p.F1 + R.1
  let F2 := p.F2 * Real.sin (p.omega * t) + R.2
  let dst ← atSet dst 0 v1
  let dst ← atSet dst 1 v2
  let dst ← atSet dst 2 (← div F1 p.mass)
  atSet dst 3 (← div F2 p.mass)

/-- `setParameters` (SlidingPoint.h:75-86) with the text of the friction type and the six numbers, each optional -/
noncomputable def Sliding.setParameters (p : Sliding) (kind : Option String) (mass f0 v0 F1 F2 omega : Option ℝ) :
    Res Sliding := do
  let p ← (match kind with
    | some s => do .ok { p with kind := ← Friction.read s }
    | none => .ok p : Res Sliding)
  .ok { p with
    mass := mass.getD p.mass
    f0 := f0.getD p.f0
    v0 := v0.getD p.v0
    F1 := F1.getD p.F1
    F2 := F2.getD p.F2
    omega := omega.getD p.omega }

end Verif.TestModels
