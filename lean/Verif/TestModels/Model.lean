import Verif.Event.Model

/-
Model of the right-hand sides in include/ode_num_int/ode/test_models.

Simplifications: exact arithmetic; observers and parameters (fields set from outside) are left
out; the bouncing ball, which has a fixed number of variables, has pairs as state vectors.
-/

namespace Verif.TestModels

open Verif.Res Verif.RK Verif.Event

section
variable {K : Type} [Field K] [LinearOrder K]

/-- Fields of `BouncingBall` other than `m_sticking` (BouncingBall.h:125-127) -/
structure Ball (K : Type) where
  g : K
  recovery : K
  stickSpeed : K

/-- `rhs` (BouncingBall.h:49-60); the phase state is `m_sticking`. -/
def Ball.rhs (b : Ball K) (sticking : Bool) (x : K × K) : K × K :=
  if sticking then (0, 0) else (x.2, -b.g)

/-- `switchPhaseState` (BouncingBall.h:68-88) -/
def Ball.switch (b : Ball K) (sticking : Bool) (x : K × K) : Bool × (K × K) :=
  if |x.2| < b.stickSpeed then (true, (0, 0))
  else if x.2 < 0 then (sticking, (x.1, x.2 * -b.recovery))
  else (true, (0, 0))

/-- Event interface of the ball (BouncingBall.h:41-47, 62-66, 68-88); `truncateStep` is that of
the interface (interfaces/OdeRhs.h:77-79). -/
def Ball.ev (b : Ball K) : EvRhs K (K × K) Bool where
  zeroFuncCount _ := 1
  zeroFuncFlags _ := [1]
  zeroFunctions _ _ x := [x.1]
  switchPhaseState s _ _ x := b.switch s x
  truncateStep _ t x := (false, t, x)

/-- Fields of `CoupledNonlinearOscillators` (CoupledNonlinearOscillators.h:93-96) -/
structure Chain (K : Type) where
  count : Nat
  c0 : K
  c2 : K
  f : K

/-- `force` (CoupledNonlinearOscillators.h:97-99) -/
def Chain.force (p : Chain K) (d : K) : K := d * (p.c0 + p.c2 * d * d)

/-- Body of the loop of `rhs` (CoupledNonlinearOscillators.h:42-53) -/
def Chain.rhsStep (p : Chain K) (x : List K) (i : Nat) (dst : List K) : Res (List K) := do
  let v ← at' x (p.count + i)
  let dst ← atSet dst i v
  let xi ← at' x i
  let dprev ← (if 0 < i then do
    let xp ← at' x (i - 1)
    .ok (xi - xp) else .ok xi : Res K)
  let f := -p.force dprev
  let f ← (if i + 1 < p.count then do
      let xn ← at' x (i + 1)
      let xi ← at' x i
      .ok (f + p.force (xn - xi))
    else if i + 1 = p.count then .ok (f + p.f)
    else .ok f : Res K)
  atSet dst (p.count + i) f

/-- `rhs` (CoupledNonlinearOscillators.h:38-55); `resize` keeps the beginning and fills with
zeros. -/
def Chain.rhs (p : Chain K) (dst x : List K) : Res (List K) :=
  loop 0 p.count (p.rhsStep x) ((dst ++ List.replicate (2 * p.count) 0).take (2 * p.count))

end

end Verif.TestModels
