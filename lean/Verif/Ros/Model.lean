import Verif.Implicit.Model

/-
Model of include/ode_num_int/ode/OdeSolverRosenbrock_W_base.h, OdeSolverRosenbrock_W1.h and
OdeSolverRosenbrock_SW2_4.h.

Simplifications:
 * exact arithmetic; observers only observe (their calls are recorded in a log); timers are left out;
   ASSERT does nothing; 1e-6 is the parameter `dx`;
 * the right-hand side is a function that gives the whole new contents of its destination; `beforeStep` and
   `beforeStep2` do nothing (as in the interface); it depends on the phase state, which only `atStepEnd` of
   the event controller changes;
 * vectors are given by their elements; the pointer `m_W_LU` is the key of the element of the cache it
   points at;
 * initial step sizes are set by `setInitialStepSize` of the solvers.
-/

namespace Verif.Ros

open Verif.Res Verif.Alg Verif.Implicit

/-- Members of OdeSolverRosenbrock_W_base (OdeSolverRosenbrock_W_base.h:96-107); `cur` is `m_W_LU`. -/
structure Base (K : Type) where
  n : Nat
  n2 : Nat
  n1 : Nat
  J1 : FMat K
  J2 : FMat K
  W : FMat K
  cache : List (K × LU.Fact K)
  cur : Option K
  hd4W : K
  buf : List K

section
variable {K : Type} [Field K] [DecidableEq K]

/-- The constructor (OdeSolverRosenbrock_W_base.h:26-30); the sizes are not initialised there, but are
assigned before use. -/
def Base.new : Base K := ⟨0, 0, 0, FMat.empty, FMat.empty, FMat.empty, [], none, 0, []⟩

/-- `m_W_LU_cache.find( hd )` (OdeSolverRosenbrock_W_base.h:155-157) -/
def cacheFind (c : List (K × LU.Fact K)) (hd : K) : Option (LU.Fact K) :=
  (c.find? (fun e => decide (e.1 = hd))).map (·.2)

/-- The cache after the element with the given key has been changed through the pointer taken from it
(OdeSolverRosenbrock_W_base.h:157, 168) -/
def cachePut (c : List (K × LU.Fact K)) (hd : K) (lu : LU.Fact K) : List (K × LU.Fact K) :=
  c.map (fun e => if e.1 = hd then (hd, lu) else e)

/-- `*m_W_LU`; undefined for a null pointer or an element that is gone -/
def Base.deref (b : Base K) : Res (K × LU.Fact K) :=
  match b.cur with
  | none => .error .ub
  | some k =>
    match cacheFind b.cache k with
    | some lu => .ok (k, lu)
    | none => .error .ub

/-- `m_J2.block( 0, 0, m_n2+m_n1, m_n2 ).mulVectRight( x.begin(), m_buf4mul.begin() )`
(OdeSolverRosenbrock_W_base.h:52, 66) -/
def Base.mulJ2 (b : Base K) (x : List K) : Res (List K) :=
  Sparse.Mat.mulVectRight (b.n2 + b.n1, b.n2)
    (Sparse.Block.elems ⟨(0, 0), (b.n2 + b.n1, b.n2)⟩ b.J2.data) x b.buf

/-- `linSolve` (OdeSolverRosenbrock_W_base.h:47-57); `&x[m_n2]` checks the index. -/
def Base.linSolve (b : Base K) (x : List K) (hd : K) : Res (Base K × List K) := do
  let lu ← b.deref
  let buf ← b.mulJ2 x
  let x ← done (Vec.addAssign x ⟨b.n2, b.n2 + b.n1⟩ (.scale (.vec buf) hd))
  let _ ← at' x b.n2
  let r ← LU.solve lu.2 (x.drop b.n2)
  let x := x.take b.n2 ++ r.2
  let x ← done (Vec.addAssign x ⟨0, b.n2⟩ (.scale (.block .self b.n2 b.n2) hd))
  .ok ({ b with buf := buf, cache := cachePut b.cache lu.1 r.1 }, x)

/-- `mult` (OdeSolverRosenbrock_W_base.h:59-68); `copy` copies to a block of the same size. -/
def Base.mult (b : Base K) (dst x : List K) : Res (Base K × List K) := do
  let dst ← done (Vec.assignBlock dst ⟨0, b.n2⟩ (.block (.vec x) b.n2 b.n2))
  let d ← Sparse.Mat.mulVectRight b.J1.size b.J1.data (x.drop b.n2) (dst.drop b.n2)
  let dst := dst.take b.n2 ++ d
  let buf ← b.mulJ2 x
  let dst ← done (Vec.addAssign dst ⟨b.n2, b.n2 + b.n1⟩ (.vec buf))
  .ok ({ b with buf := buf }, dst)

/-- Body of the loop of `makeJ` (OdeSolverRosenbrock_W_base.h:119-127): `x` and the elements of `Jm` -/
def Base.makeCol (b : Base K) (rhs : List K → Res (List K)) (dx : K) (x0 f0 : List K) (istart i : Nat)
    (s : List K × Sparse.Data K) : Res (List K × Sparse.Data K) := do
  let v ← at' s.1 i
  let x ← atSet s.1 i (v + dx)
  let f ← rhs x
  let v0 ← at' x0 i
  let x ← atSet x i v0
  let d ← loop b.n2 b.n (fun j d => do
    let a ← at' f j
    let a0 ← at' f0 j
    if a - a0 = 0 then .ok d
    else do
      let q ← div (a - a0) dx
      .ok (Sparse.Data.set d (j - b.n2, i - istart) q)) s.2
  .ok (x, d)

/-- `makeJ` (OdeSolverRosenbrock_W_base.h:114-130); the loop `for( i=istart; i<isize; ++i )` ends at `isize`. -/
def Base.makeJ (b : Base K) (rhs : List K → Res (List K)) (dx : K) (x0 f0 : List K) (istart isize : Nat) :
    Res (FMat K) := do
  let s ← loop istart isize (b.makeCol rhs dx x0 f0 istart) (x0, [])
  .ok ⟨(b.n2 + b.n1, b.n2 + b.n1), s.2⟩

/-- `buildJacobian` (OdeSolverRosenbrock_W_base.h:109-148) -/
def Base.buildJacobian (b : Base K) (rhs : List K → Res (List K)) (dx : K) (x0 f0 : List K) :
    Res (Base K) := do
  let J1 ← b.makeJ rhs dx x0 f0 b.n2 (b.n2 + b.n1)
  let J2 ← b.makeJ rhs dx x0 f0 0 b.n2
  let m := (Sparse.Mat.ofSize (b.n2 + b.n1) (b.n2 + b.n1)).addScaledIdentity 1
  let m := m.add J1.data
  let m := m.add J2.data
  .ok { b with J1 := J1, J2 := J2, W := FMat.ofMat m, cache := [], cur := none, hd4W := 0 }

/-- `addIdentity` (la/SparseMatrixTemplate.h:904-914) -/
def fastIdentity (m : FMat K) : Res (FMat K) := do
  let d ← loop 0 m.size.1 (fun i d => fastAdd d (i, i) 1) m.data
  .ok { m with data := d }

/-- `-=` (la/SparseMatrixTemplate.h:925-932) -/
def fastSub (m : FMat K) (es : List (Sparse.Index × K)) : Res (FMat K) := do
  let d ← es.foldlM (fun d e => fastAdd d e.1 (-e.2)) m.data
  .ok { m with data := d }

/-- `updateW` (OdeSolverRosenbrock_W_base.h:150-171). The constructor of `LUFactorizer` calls `setMatrix`
(lu/LUFactorizer.h:30-32). What an exception leaves behind is not modelled here. -/
def Base.updateW (b : Base K) (hd : K) : Res (Base K) :=
  if b.hd4W ≠ hd then
    match cacheFind b.cache hd with
    | some _ => .ok { b with hd4W := hd, cur := some hd }
    | none => do
      let cache := if 100 ≤ b.cache.length then [] else b.cache
      let W ← fastIdentity b.W.makeZero
      let W ← fastSub W (Sparse.Scale.elems b.J1.data hd)
      let W ← fastSub W (Sparse.Scale.elems b.J2.data (hd * hd))
      let lu ← LU.setMatrix LU.Fact.empty W.data
      .ok { b with hd4W := hd, W := W, cache := cache ++ [(hd, lu)], cur := some hd }
  else .ok b

/-- `initStep` (OdeSolverRosenbrock_W_base.h:70-90) -/
def Base.initStep (b : Base K) (r : Rhs K) (dx : K) (hard : Bool) (t : K) (x0 f0 : List K) (hd : K) :
    Res (Base K) := do
  let b ← (if hard then
      ({ b with n := r.varCount, n2 := r.n2, n1 := r.n1, buf := Vec.resize b.buf (r.n2 + r.n1) } :
        Base K).buildJacobian (r.rhs t) dx x0 f0
    else .ok b : Res (Base K))
  b.updateW hd

end

/-! ### W1 -/

section
variable {K E : Type} [Field K] [LinearOrder K]

/-- Settings and components of both solvers: right-hand side, increment of the finite differences, `m_d`,
event controller; of SW2(4) (OdeSolverRosenbrock_SW2_4.h:211-212): `m_disable_error_check`, minimal step,
norm of the error, step size controller (given old step, error norm, order) -/
structure Method (K E : Type) where
  rhs : E → Rhs K
  dx : K
  d : K
  ec : Option (RK.EventCtl K (List K) E)
  disableErrorCheck : Bool
  hMin : K
  norm : List K → K
  control : K → K → K → RK.CtlResult K

/-- State of both solvers (OdeSolverRosenbrock_W1.h:131-137, OdeSolverRosenbrock_SW2_4.h:214-223), with
that of the event controller, and the log of observer calls (latest first). `k1` is empty before the first
step; buffers that are overwritten before use are left out. -/
structure St (K E : Type) where
  base : Base K
  t : K
  x : List K
  h : K
  f0 : List K
  k1 : List K
  ec : E
  log : List (RK.Obs K)

/-- `setInitialStepSize` (OdeSolverRosenbrock_W1.h:30-34, OdeSolverRosenbrock_SW2_4.h:37-41) -/
def St.setInitialStepSize (h : K) (s : St K E) : St K E := { s with h := h }

/-- `setInitialState` of W1 (OdeSolverRosenbrock_W1.h:48-55) -/
def St.setInitialState1 (t : K) (x : List K) (soft : Bool) (s : St K E) : St K E :=
  { s with t := t, x := x, k1 := if soft then s.k1 else [] }

/-- `setInitialState` of SW2(4) (OdeSolverRosenbrock_SW2_4.h:55-65) -/
def St.setInitialState2 (M : Method K E) (t : K) (x : List K) (soft : Bool) (s : St K E) : Res (St K E) :=
  if soft then do
    let f0 ← (M.rhs s.ec).rhs t x
    .ok { s with t := t, x := x, f0 := f0 }
  else .ok { s with t := t, x := x, k1 := [] }

/-- Calls of the event controller, if there is one (OdeSolverRosenbrock_W1.h:73-74,
OdeSolverRosenbrock_SW2_4.h:89-90) -/
def Method.start (M : Method K E) (s : St K E) : Res E :=
  match M.ec with
  | some c => c.atStepStart s.ec s.x s.t
  | none => .ok s.ec

/-- See `Method.start` (OdeSolverRosenbrock_W1.h:90-93, OdeSolverRosenbrock_SW2_4.h:158-161). -/
def Method.finish (M : Method K E) (e : E) (x1 x2 : List K) (t2 : K) : Res (E × List K × K × RK.Trunc) :=
  match M.ec with
  | some c => c.atStepEnd e x1 x2 t2
  | none => .ok (e, x2, t2, RK.Trunc.none)

/-- `copy( dst, src )` of whole vectors: `dst` has the size of `src` (asserted), so it becomes `src`. Then
`dst += v.scaled( c )` -/
def plus (x v : List K) (c : K) : Res (List K) := done (Vec.addAssign x ⟨0, x.length⟩ (.scale (.vec v) c))

/-- `initStep` of W1 (OdeSolverRosenbrock_W1.h:139-161) -/
def St.initStep1 (M : Method K E) (s : St K E) : Res (St K E) := do
  let hard := s.k1.isEmpty
  let f0 ← (M.rhs s.ec).rhs s.t s.x
  let b ← s.base.initStep (M.rhs s.ec) M.dx hard s.t s.x f0 (s.h * M.d)
  .ok { s with f0 := f0, base := b, k1 := if hard then List.replicate (M.rhs s.ec).varCount 0 else s.k1 }

/-- `doStep` of W1 (OdeSolverRosenbrock_W1.h:57-106) -/
def St.doStep1 (M : Method K E) (s : St K E) : Res (St K E) := do
  let s := { s with log := .pre (some s.h) :: s.log }
  let s ← s.initStep1 M
  let e ← M.start s
  let k1 ← s.base.linSolve s.f0 (s.h * M.d)
  let next ← plus s.x k1.2 s.h
  let q ← M.finish e s.x next (s.t + s.h)
  .ok { s with
    base := k1.1
    k1 := k1.2
    t := q.2.2.1
    x := q.2.1
    ec := q.1
    log := .post s.h true false q.2.2.2 0 :: s.log }

/-! ### SW2(4) -/

/-- `initStep` of SW2(4) (OdeSolverRosenbrock_SW2_4.h:225-253) -/
def St.initStep2 (M : Method K E) (s : St K E) : Res (St K E) := do
  let hard := s.k1.isEmpty
  let f0 ← (if hard then (M.rhs s.ec).rhs s.t s.x else .ok s.f0 : Res (List K))
  let b ← s.base.initStep (M.rhs s.ec) M.dx hard s.t s.x f0 (s.h * M.d)
  .ok { s with f0 := f0, base := b, k1 := if hard then List.replicate (M.rhs s.ec).varCount 0 else s.k1 }

/-- What the stages compute: `m_k1` ... `m_k4`, `m_nextState`, `m_nextOdeRhs`, and the error norm -/
structure Stages (K : Type) where
  base : Base K
  k1 : List K
  k2 : List K
  next : List K
  nextRhs : List K
  err : K

/-- k1, k2, the next state and its right-hand side (OdeSolverRosenbrock_SW2_4.h:92-116) -/
def St.stages (M : Method K E) (s : St K E) : Res (Stages K) := do
  let rhs := (M.rhs s.ec).rhs
  let k1 ← s.base.linSolve s.f0 (s.h * M.d)
  let buf ← plus s.x k1.2 (s.h * 2 / 3)
  let k2 ← rhs (s.t + s.h * 2 / 3) buf
  let Jk ← k1.1.mult buf k1.2
  let k2 ← plus k2 Jk.2 (-4 / 3 * s.h * M.d)
  let k2 ← Jk.1.linSolve k2 (s.h * M.d)
  let next ← plus s.x k1.2 (1 / 4 * s.h)
  let next ← plus next k2.2 (3 / 4 * s.h)
  let nextRhs ← rhs (s.t + s.h) next
  .ok ⟨k2.1, k1.2, k2.2, next, nextRhs, 0⟩

/-- k3, k4 and the error (OdeSolverRosenbrock_SW2_4.h:118-144) -/
def St.errorStages (M : Method K E) (s : St K E) (g : Stages K) : Res (Stages K) :=
  if M.disableErrorCheck then .ok g
  else do
    let rhs := (M.rhs s.ec).rhs
    let k3 ← g.base.linSolve g.nextRhs (s.h * M.d)
    let buf ← plus g.next k3.2 (s.h * 2 / 3)
    let k4 ← rhs (s.t + s.h * 5 / 3) buf
    let buf2 ← plus (g.k1.map (· * (2 / 3))) g.k2 6
    let Jb ← k3.1.mult buf buf2
    let k4 ← plus k4 Jb.2 (s.h * M.d)
    let k4 ← Jb.1.linSolve k4 (s.h * M.d)
    let buf ← done (Vec.subAssign k3.2 ⟨0, k3.2.length⟩ (.vec g.k2))
    let buf ← done (Vec.mulAssign buf ⟨0, buf.length⟩ 5)
    let buf ← done (Vec.addAssign buf ⟨0, buf.length⟩ (.vec g.k1))
    let buf ← done (Vec.subAssign buf ⟨0, buf.length⟩ (.vec k4.2))
    let buf ← done (Vec.mulAssign buf ⟨0, buf.length⟩ (1 / 8 * s.h))
    .ok { g with base := k4.1, err := M.norm buf }

/-- One pass of the loop in `doStep` after `initStep` (OdeSolverRosenbrock_SW2_4.h:82-184); an exception
leaves the fields as they are at the moment of the throw. -/
def St.attempt (M : Method K E) (s : St K E) : Res (RK.Attempt (St K E)) := do
  let e ← M.start s
  let s := { s with ec := e }
  let g ← s.stages M
  let g ← s.errorStages M g
  let res : RK.CtlResult K := if M.disableErrorCheck then ⟨s.h, true, false⟩ else M.control s.h g.err 2
  let hcur := s.h
  let s := { s with base := g.base, k1 := g.k1 }
  let p ← (if res.acceptStep then do
      let q ← M.finish e s.x g.next (s.t + s.h)
      let f0 ← (if q.2.2.2.truncated then (M.rhs q.1).rhs q.2.2.1 q.2.1 else .ok g.nextRhs : Res (List K))
      .ok ({ s with t := q.2.2.1, x := q.2.1, ec := q.1, f0 := f0 }, q.2.2.2)
    else .ok (s, RK.Trunc.none) : Res (St K E × RK.Trunc))
  let s := if res.changeStepSize then { p.1 with h := res.newStepSize } else p.1
  if res.changeStepSize ∧ res.newStepSize ≤ M.hMin then
    .ok (.thrown "Step size has decreased to the minimum or below" s)
  else
    let s := { s with log := .post hcur res.acceptStep res.changeStepSize p.2 g.err :: s.log }
    if res.acceptStep then .ok (.accepted s) else .ok (.rejected s)

/-- The loop of `doStep` (OdeSolverRosenbrock_SW2_4.h:71-184): `initStep` is called in the first pass only
(`first` is `needInitStep`). `none` if the loop has not ended after the given number of passes. -/
def St.passes (M : Method K E) : Nat → Bool → St K E → Option (Res (RK.Attempt (St K E)))
  | 0, _, _ => none
  | fuel + 1, first, s =>
    let s := { s with log := .pre (some s.h) :: s.log }
    match (if first then s.initStep2 M else .ok s : Res (St K E)) with
    | .error e => some (.error e)
    | .ok s =>
      match s.attempt M with
      | .error e => some (.error e)
      | .ok (.rejected s') => St.passes M fuel false s'
      | .ok r => some (.ok r)

/-- `doStep` (OdeSolverRosenbrock_SW2_4.h:67-185) -/
def St.doStep2 (M : Method K E) (fuel : Nat) (s : St K E) : Option (Res (RK.Attempt (St K E))) :=
  s.passes M fuel true

end

end Verif.Ros
