import Verif.RK.Solver

/-
Model of include/ode_num_int/ode/LinearOdeEventController.h and of the parts of
interfaces/OdeRhs.h it uses.

Simplifications:
 * arithmetic is that of the type of the scalars: exact (fields), rounded (Verif/Round/Model.lean) or with infinities and
   not-a-number (Verif/Special/Model.lean); the operations on state vectors are those of their type;
 * a right-hand side object is its phase state `Q` (all that `switchPhaseState` can change
   besides the state vector) and functions of it;
 * `zeroFunctions` returns the whole new contents of its destination;
 * the buffer `m_zfi` (length number of functions + 1) is the list of the indices written to it;
   `m_transitions`, cleared before each use, is built where it is used;
 * the interpolator passed to `atStepEnd` is not used by the code, so it is left out.
-/

namespace Verif.Event

open Verif.Res Verif.RK

/-- The division of the type of the scalars, with what it does for a divisor zero -/
class Divides (K : Type) where
  quot : K → K → Res K

/-- Exact and rounded numbers: division by zero is a fault. -/
instance (K : Type) [Zero K] [Div K] [DecidableEq K] : Divides K := ⟨div⟩

/-- The event interface of `OdeRhs` (interfaces/OdeRhs.h:58-79); flags (34-40): bit 1
`PlusMinus`, bit 2 `MinusPlus`, bit 4 `RecomputeAfterSwitch`. -/
structure EvRhs (K V Q : Type) where
  zeroFuncCount : Q → Nat
  zeroFuncFlags : Q → List Nat
  zeroFunctions : Q → K → V → List K
  switchPhaseState : Q → List Int → K → V → Q × V
  truncateStep : Q → K → V → Bool × K × V

/-- State of LinearOdeEventController (LinearOdeEventController.h:130-140); `haveRec` is
`m_haveRecomputedZf`, `flags` is `m_zfflags`. -/
structure Ctl (K : Type) where
  clean : Bool
  haveZf : Bool
  haveRec : Bool
  zf1 : List K
  zf2 : List K
  zfbuf : List K
  flags : List Nat
  state : List Int
  t1 : K

section
variable {K V Q : Type} [Zero K] [One K] [Add K] [Sub K] [Mul K] [Divides K] [LT K] [LE K] [DecidableLT K] [DecidableLE K]
  [Add V] [SMul K V]

/-- Constructor (LinearOdeEventController.h:21-25); `m_haveRecomputedZf` is not initialised
there, but is assigned before use. -/
def Ctl.init : Ctl K := ⟨true, false, false, [], [], [], [], [], 0⟩

/-- `reset` (27-29) -/
def Ctl.reset (e : Ctl K) : Ctl K := { e with clean := true }

/-- `s(x)` (168-170) -/
def sgn (x : K) : Int := if x < 0 then -1 else if 0 < x then 1 else 0

/-- `s(x, flags)` (172-184) -/
def sFlag (x : K) (flags : Nat) : Int :=
  if flags &&& 3 = 1 then (if x ≤ 0 then 0 else 1)
  else if flags &&& 3 = 2 then (if 0 ≤ x then 0 else -1)
  else if flags &&& 3 = 3 then sgn x
  else 0

/-- `xz(i)` (186-201) for the end value `x2`, state `st` and flags of function `i` -/
def xz (flags : Nat) (st : Int) (x2 : K) : Bool :=
  if flags &&& 3 = 2 then (st == -1 && decide (0 ≤ x2)) || (st == 0 && decide (0 < x2))
  else if flags &&& 3 = 1 then (st == 1 && decide (x2 ≤ 0)) || (st == 0 && decide (x2 < 0))
  else if flags &&& 3 = 3 then sgn x2 != st
  else false

/-- `init` (142-166) for a clean controller; vectors are resized (kept or filled with zeros). -/
def Ctl.initClean (r : EvRhs K V Q) (q : Q) (e : Ctl K) : Ctl K :=
  let nz := r.zeroFuncCount q
  let fit (l : List K) : List K := (l ++ List.replicate nz 0).take nz
  { e with
    clean := false
    haveZf := 0 < nz
    zf1 := fit e.zf1
    zf2 := fit e.zf2
    zfbuf := fit e.zfbuf
    state := List.replicate nz 0
    flags := r.zeroFuncFlags q
    haveRec := (r.zeroFuncFlags q).any (fun f => f &&& 4 != 0) }

/-- `atStepStart` (31-43) -/
def Ctl.atStepStart (r : EvRhs K V Q) (q : Q) (e : Ctl K) (x1 : V) (t1 : K) : Res (Ctl K) := do
  let e := { e with t1 := t1 }
  if e.clean then do
    let e := e.initClean r q
    if e.haveZf then do
      let zf1 := r.zeroFunctions q t1 x1
      let state ← loop 0 zf1.length (fun i st => do
        let z ← at' zf1 i
        let f ← raw e.flags i
        rawSet st i (sFlag z f)) e.state
      .ok { e with zf1 := zf1, state := state }
    else .ok e
  else .ok e

/-- Loop over functions that changed sign (58-63) -/
def Ctl.crossed (e : Ctl K) : Res (List Nat) :=
  loop 0 e.zf1.length (fun i (l : List Nat) => do
    let x2 ← at' e.zf2 i
    let st ← raw e.state i
    let f ← raw e.flags i
    .ok (if xz f st x2 then l ++ [i] else l)) []

/-- Loop for the earliest crossing (72-84): (`tmin`, `itmin`), `none` for `~0u` -/
def Ctl.earliest (e : Ctl K) (zfi : List Nat) : Res (K × Option Nat) :=
  zfi.foldlM (fun (s : K × Option Nat) i => do
    let zf1 ← at' e.zf1 i
    let zf2 ← at' e.zf2 i
    let t ← Divides.quot zf1 (zf1 - zf2)
    .ok (if t < s.1 then (t, some i) else s)) (1, none)

/-- Body of the update loop (107-124); the state is (`m_zf1`, `m_state`). -/
def Ctl.updateOne (e : Ctl K) (tmin : K) (itmin : Nat) (cur : Int) (i : Nat)
    (s : List K × List Int) : Res (List K × List Int) := do
  let z1 ← at' s.1 i
  let f ← raw e.flags i
  let recompute : Bool := f &&& 4 != 0
  let z ← (if recompute then at' e.zfbuf i else do
    let z2 ← at' e.zf2 i
    .ok (z1 * (1 - tmin) + z2 * tmin) : Res K)
  let zf1 ← atSet s.1 i z
  let st ← (if recompute then rawSet s.2 i (sFlag z f)
    else if i = itmin then
      (if f &&& 3 = 3 then rawSet s.2 i cur else rawSet s.2 i (sFlag z f))
    else .ok s.2 : Res (List Int))
  .ok (zf1, st)

/-- Update of values and remembered signs after the switch (102-126) -/
def Ctl.afterSwitch (r : EvRhs K V Q) (q : Q) (e : Ctl K) (tmin : K) (i : Nat) (cur : Int)
    (x2 : V) (t2 : K) : Res (Ctl K) := do
  let buf := if e.haveRec then r.zeroFunctions q t2 x2 else e.zfbuf
  let (zf1, state) ← loop 0 e.zf1.length
    (({ e with zfbuf := buf } : Ctl K).updateOne tmin i cur) (e.zf1, e.state)
  .ok { e with zfbuf := buf, zf1 := zf1, state := state }

/-- `atStepEnd` (45-127). `m_zf2[~0u]` (95) throws. Result: controller, phase state, state
vector, time, what is reported. -/
def Ctl.atStepEnd (r : EvRhs K V Q) (q : Q) (e : Ctl K) (x1 x2 : V) (t2 : K) :
    Res ((Ctl K × Q) × V × K × Trunc) :=
  if !e.haveZf then
    let res := r.truncateStep q t2 x2
    .ok ((e, q), res.2.2, res.2.1, ⟨res.1, none, 0⟩)
  else do
    let e := { e with zf2 := r.zeroFunctions q t2 x2 }
    let zfi ← e.crossed
    if zfi.isEmpty then
      .ok (({ e with zf1 := e.zf2, zf2 := e.zf1 }, q), x2, t2, Trunc.none)
    else do
      let (tmin, itmin) ← e.earliest zfi
      let h := t2 - e.t1
      let t2 := e.t1 + h * tmin
      let x2 := tmin • x2 + (1 - tmin) • x1
      match itmin with
      | none => .error (.exc "out_of_range")
      | some i => do
        let z2 ← at' e.zf2 i
        let cur := sgn z2
        let transitions ← rawSet (List.replicate e.zf1.length (0 : Int)) i cur
        let (q, x2) := r.switchPhaseState q transitions t2 x2
        let e ← e.afterSwitch r q tmin i cur x2 t2
        .ok ((e, q), x2, t2, ⟨true, some i, cur⟩)

/-- The controller with its right-hand side as a component of a solver. -/
def controller (r : EvRhs K V Q) : EventCtl K V (Ctl K × Q) where
  reset e := (e.1.reset, e.2)
  atStepStart e x t := do
    let c ← e.1.atStepStart r e.2 x t
    .ok (c, e.2)
  atStepEnd e x1 x2 t2 := e.1.atStepEnd r e.2 x1 x2 t2

end

end Verif.Event
