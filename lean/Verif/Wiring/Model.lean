import Verif.Basic
import Verif.Loop
import Mathlib.Logic.Function.Basic

/-
Model of how the components of a Newton solver refer to each other: alg/interfaces/NewtonSolverInterface.h
(`setComponent`, `parameters`, `setParameters`), the constructor of alg/NewtonSolver.h, the observers in the
constructors of alg/interfaces/NewtonDescentDirection.h and JacobianProvider.h, the setters of
infra/def_prop_class.h, and the wiring of OdeSolverImplicitEuler.h and OdeNewtonSolver.h.

Simplifications:
 * objects of each kind are numbered, and are never destroyed; a null pointer is `none`; calling a member function through a
   null pointer is undefined (ASSERT does nothing);
 * of the objects, only their pointers to others are kept;
 * only the observers that the library itself registers for changed properties are modelled;
 * of parameter values that denote objects, only whether they are empty is kept (an empty one gives a null
   pointer; another one gives a new object). Constructors of components leave all their pointers null.
-/

namespace Verif.Wiring

open Verif.Res

/-- `std::shared_ptr` to a component -/
abbrev Ref := Option Nat

/-- Pointers of a NewtonIterationPerformer (alg/interfaces/NewtonIterationPerformer.h:14-19) -/
structure Perf where
  mapping : Ref := none
  est : Ref := none
  ddir : Ref := none
  ls : Ref := none
  deriving DecidableEq

/-- Pointers of a NewtonDescentDirection (alg/interfaces/NewtonDescentDirection.h:28-32) -/
structure Dir where
  mapping : Ref := none
  jp : Ref := none
  deriving DecidableEq

/-- Pointers of a JacobianProvider (alg/interfaces/JacobianProvider.h:12-15) -/
structure Jp where
  mapping : Ref := none
  trimmer : Ref := none
  deriving DecidableEq

/-- Pointers of a NewtonRegularizationStrategy (alg/interfaces/NewtonRegularizationStrategy.h:14-19) -/
structure Reg where
  est : Ref := none
  ddir : Ref := none
  deriving DecidableEq

/-- Pointers and settings of a NewtonSolver (alg/interfaces/NewtonSolverInterface.h:14-16, NewtonSolver.h:105) -/
structure Solver where
  itperf : Ref := none
  reg : Ref := none
  limit : Nat := 100
  deriving DecidableEq

/-- All components. Line searches (alg/interfaces/NewtonLinearSearch.h:23-26), trimmers
(alg/interfaces/JacobianTrimmer.h:13-16) and reordering mappings only refer to a mapping. -/
structure Heap where
  next : Nat
  perf : Nat → Perf
  dir : Nat → Dir
  jp : Nat → Jp
  ls : Nat → Ref
  trimmer : Nat → Ref
  reg : Nat → Reg
  solver : Nat → Solver
  reorder : Nat → Ref

/-- Nothing but fresh objects -/
def Heap.empty : Heap :=
  ⟨0, fun _ => {}, fun _ => {}, fun _ => {}, fun _ => none, fun _ => none, fun _ => {}, fun _ => {}, fun _ => none⟩

/-- `p->`: undefined for a null pointer -/
def deref : Ref → Res Nat
  | some p => .ok p
  | none => .error .ub

/-! ### Setters with their observers (infra/def_prop_class.h:109-112) -/

/-- The observer `updateTrimmerMapping` (alg/interfaces/JacobianProvider.h:24-27) -/
def Heap.updateTrimmerMapping (j : Nat) (h : Heap) : Heap :=
  match (h.jp j).trimmer with
  | some t => { h with trimmer := Function.update h.trimmer t (h.jp j).mapping }
  | none => h

/-- `setMapping` of a JacobianProvider (alg/interfaces/VectorMapping.h:53, JacobianProvider.h:28) -/
def Heap.setJpMapping (j : Nat) (m : Ref) (h : Heap) : Heap :=
  { h with jp := Function.update h.jp j { h.jp j with mapping := m } }.updateTrimmerMapping j

/-- `setJacobianTrimmer` (alg/interfaces/JacobianTrimmer.h:26-29, JacobianProvider.h:29) -/
def Heap.setJpTrimmer (j : Nat) (t : Ref) (h : Heap) : Heap :=
  { h with jp := Function.update h.jp j { h.jp j with trimmer := t } }.updateTrimmerMapping j

/-- The observer `setJpMapping` (alg/interfaces/NewtonDescentDirection.h:44-48) -/
def Heap.updateJpMapping (d : Nat) (h : Heap) : Heap :=
  match (h.dir d).jp with
  | some j => h.setJpMapping j (h.dir d).mapping
  | none => h

/-- `setMapping` of a NewtonDescentDirection (alg/interfaces/VectorMapping.h:53, NewtonDescentDirection.h:49) -/
def Heap.setDirMapping (d : Nat) (m : Ref) (h : Heap) : Heap :=
  { h with dir := Function.update h.dir d { h.dir d with mapping := m } }.updateJpMapping d

/-- `setJacobianProvider` (alg/interfaces/JacobianProvider.h:44-47, NewtonDescentDirection.h:50) -/
def Heap.setDirJp (d : Nat) (j : Ref) (h : Heap) : Heap :=
  { h with dir := Function.update h.dir d { h.dir d with jp := j } }.updateJpMapping d

/-- `setMapping`, `setErrorEstimator`, `setNewtonDescentDirection` and `setNewtonLinearSearch` of a
NewtonIterationPerformer (alg/interfaces/VectorMapping.h:53, ErrorEstimator.h:45-48,
NewtonDescentDirection.h:68-71, NewtonLinearSearch.h:36-39) -/
def Heap.setPerf (p : Nat) (f : Perf → Perf) (h : Heap) : Heap :=
  { h with perf := Function.update h.perf p (f (h.perf p)) }

/-- `setMapping` of a NewtonLinearSearch (alg/interfaces/VectorMapping.h:53) -/
def Heap.setLsMapping (l : Nat) (m : Ref) (h : Heap) : Heap :=
  { h with ls := Function.update h.ls l m }

/-- `setErrorEstimator` and `setNewtonDescentDirection` of a NewtonRegularizationStrategy
(alg/interfaces/ErrorEstimator.h:50-53, NewtonDescentDirection.h:68-71) -/
def Heap.setReg (r : Nat) (f : Reg → Reg) (h : Heap) : Heap :=
  { h with reg := Function.update h.reg r (f (h.reg r)) }

/-- `setIterationPerformer`, `setRegularizationStrategy` and `setIterationCountLimit` of a NewtonSolver
(alg/interfaces/NewtonIterationPerformer.h:33-36, NewtonRegularizationStrategy.h:26-29, NewtonSolver.h:40-42) -/
def Heap.setSolver (s : Nat) (f : Solver → Solver) (h : Heap) : Heap :=
  { h with solver := Function.update h.solver s (f (h.solver s)) }

/-- `if( rs ) f( rs )`, as in alg/interfaces/NewtonSolverInterface.h:83-84 -/
def Heap.ifReg (r : Ref) (f : Reg → Reg) (h : Heap) : Heap :=
  match r with
  | some r => h.setReg r f
  | none => h

/-! ### setComponent -/

/-- The argument of a call of `setComponent`, by its overload -/
inductive Comp
  | itperf (p : Ref)
  | mapping (m : Ref)
  | est (e : Ref)
  | ddir (d : Ref)
  | jp (j : Ref)
  | ls (l : Ref)
  | reg (r : Ref)
  | trimmer (t : Ref)
  deriving DecidableEq

/-- `setComponent` (alg/interfaces/NewtonSolverInterface.h:55-144); each case is an overload. -/
def Heap.setComponent (s : Nat) (h : Heap) : Comp → Res Heap
  | .itperf p =>
    let h := h.setSolver s ({ · with itperf := p })
    match (h.solver s).reg with
    | some r => do
      let p ← deref p
      .ok ((h.setReg r ({ · with est := (h.perf p).est })).setReg r ({ · with ddir := (h.perf p).ddir }))
    | none => .ok h
  | .mapping m =>
    match (h.solver s).itperf with
    | some p => do
      let h := h.setPerf p ({ · with mapping := m })
      let d ← deref (h.perf p).ddir
      let h := h.setDirMapping d m
      let l ← deref (h.perf p).ls
      .ok (h.setLsMapping l m)
    | none => .ok h
  | .est e =>
    let h := (match (h.solver s).itperf with
      | some p => h.setPerf p ({ · with est := e })
      | none => h)
    .ok (h.ifReg (h.solver s).reg ({ · with est := e }))
  | .ddir d => do
    let h ← (match (h.solver s).itperf with
      | some p => do
        let k ← deref d
        .ok ((h.setDirMapping k (h.perf p).mapping).setPerf p ({ · with ddir := d }))
      | none => .ok h : Res Heap)
    .ok (h.ifReg (h.solver s).reg ({ · with ddir := d }))
  | .jp j =>
    match (h.solver s).itperf with
    | some p =>
      match (h.perf p).ddir with
      | some d => .ok (h.setDirJp d j)
      | none => .ok h
    | none => .ok h
  | .ls l =>
    match (h.solver s).itperf with
    | some p => do
      let k ← deref l
      .ok ((h.setLsMapping k (h.perf p).mapping).setPerf p ({ · with ls := l }))
    | none => .ok h
  | .reg r =>
    let h := h.setSolver s ({ · with reg := r })
    match r, (h.solver s).itperf with
    | some r, some p =>
      .ok ((h.setReg r ({ · with est := (h.perf p).est })).setReg r ({ · with ddir := (h.perf p).ddir }))
    | _, _ => .ok h
  | .trimmer t =>
    match (h.solver s).itperf with
    | some p =>
      match (h.perf p).ddir with
      | some d =>
        match (h.dir d).jp with
        | some j => .ok (h.setJpTrimmer j t)
        | none => .ok h
      | none => .ok h
    | none => .ok h

/-- Several calls of `setComponent` of one solver -/
def Heap.setComponents (s : Nat) : Heap → List Comp → Res Heap
  | h, [] => .ok h
  | h, c :: cs => do
    let h ← h.setComponent s c
    h.setComponents s cs

/-- A new object of any kind (`std::make_shared`, NewtonSolver.h:29-33; `newInstance`, infra/OptionalParameters.h:409):
constructors leave the pointers null. -/
def Heap.alloc (h : Heap) : Nat × Heap :=
  (h.next, ⟨h.next + 1, Function.update h.perf h.next {}, Function.update h.dir h.next {},
    Function.update h.jp h.next {}, Function.update h.ls h.next none, Function.update h.trimmer h.next none,
    Function.update h.reg h.next {}, Function.update h.solver h.next {}, Function.update h.reorder h.next none⟩)

/-- The constructor of NewtonSolver (alg/NewtonSolver.h:26-34): the solver and the heap. -/
def Heap.newSolver (h : Heap) : Res (Nat × Heap) := do
  let s := h.alloc
  let p := s.2.alloc
  let h ← p.2.setComponent s.1 (.itperf (some p.1))
  let e := h.alloc
  let h ← e.2.setComponent s.1 (.est (some e.1))
  let d := h.alloc
  let h ← d.2.setComponent s.1 (.ddir (some d.1))
  let l := h.alloc
  let h ← l.2.setComponent s.1 (.ls (some l.1))
  let j := h.alloc
  let h ← j.2.setComponent s.1 (.jp (some j.1))
  .ok (s.1, h)

/-- What an iteration calls (alg/NewtonIterationPerformerImpl.h:33-38, 40-67, SimpleNewtonDescentDirection.h:33-39,
SimpleNewtonLinearSearch.h:27, DefaultJacobianProvider.h:22-28): the mappings that give the residual, the Jacobian and the values in the line search. Undefined if a pointer on the way is null. -/
def Heap.equations (h : Heap) (s : Nat) : Res (Nat × Nat × Nat) := do
  let p ← deref (h.solver s).itperf
  let _ ← deref (h.perf p).est
  let m1 ← deref (h.perf p).mapping
  let d ← deref (h.perf p).ddir
  let j ← deref (h.dir d).jp
  let m2 ← deref (h.jp j).mapping
  let l ← deref (h.perf p).ls
  let m3 ← deref (h.ls l)
  .ok (m1, m2, m3)

/-! ### Parameters -/

/-- A set of parameters of a NewtonSolver (alg/interfaces/NewtonSolverInterface.h:146-164): `none` if there is no such
parameter. Of values denoting objects: false if empty. -/
structure Params where
  itperf : Option Bool := none
  regularizer : Option Bool := none
  maxIterations : Option Nat := none
  ddir : Option Bool := none
  jacobian : Option Bool := none
  jtrim : Option Bool := none
  linsearch : Option Bool := none
  err : Option Bool := none
  deriving DecidableEq

/-- `parameters` (alg/interfaces/NewtonSolverInterface.h:146-164) -/
def Heap.parameters (h : Heap) (s : Nat) : Res Params :=
  let P : Params :=
    { itperf := some (h.solver s).itperf.isSome
      regularizer := some (h.solver s).reg.isSome
      maxIterations := some (h.solver s).limit }
  match (h.solver s).itperf with
  | some p => do
    let P ← (match (h.perf p).ddir with
      | some d => do
        let j ← deref (h.dir d).jp
        .ok { P with ddir := some true, jacobian := some true, jtrim := some (h.jp j).trimmer.isSome }
      | none => .ok { P with ddir := some false } : Res Params)
    .ok { P with linsearch := some (h.perf p).ls.isSome, err := some (h.perf p).est.isSome }
  | none => .ok P

/-- The pointer given by a parameter value (infra/OptionalParameters.h:403-416), and the heap with the new object -/
def Heap.create (v : Bool) (h : Heap) : Ref × Heap :=
  if v then (some h.alloc.1, h.alloc.2) else (none, h)

/-- `maybeSetParameter` (infra/OptionalParameters.h:281-291) with a value that denotes an object -/
def Heap.maybe (v : Option Bool) (f : Ref → Heap → Res Heap) (h : Heap) : Res Heap :=
  match v with
  | none => .ok h
  | some b => f (h.create b).1 (h.create b).2

/-- The part of `setParameters` for parameters of the iteration performer
(alg/interfaces/NewtonSolverInterface.h:185-226) -/
def Heap.setPerfParameters (s p : Nat) (P : Params) (h : Heap) : Res Heap := do
  let h ← h.maybe P.ddir (fun d h => do
    let h := (match d with
      | some d => h.setDirMapping d (h.perf p).mapping
      | none => h)
    let h := h.setPerf p ({ · with ddir := d })
    .ok (h.ifReg (h.solver s).reg ({ · with ddir := d })))
  let h ← (match (h.perf p).ddir with
    | some d => do
      let h ← h.maybe P.jacobian (fun j h => .ok (h.setDirJp d j))
      match (h.dir d).jp with
      | some j => h.maybe P.jtrim (fun t h => .ok (h.setJpTrimmer j t))
      | none => .ok h
    | none => .ok h : Res Heap)
  let h ← h.maybe P.linsearch (fun l h => do
    let k ← deref l
    .ok ((h.setLsMapping k (h.perf p).mapping).setPerf p ({ · with ls := l })))
  h.maybe P.err (fun e h =>
    let h := h.setPerf p ({ · with est := e })
    .ok (h.ifReg (h.solver s).reg ({ · with est := e })))

/-- `setParameters` (alg/interfaces/NewtonSolverInterface.h:166-227) -/
def Heap.setParameters (s : Nat) (P : Params) (h : Heap) : Res Heap := do
  let h ← h.maybe P.itperf (fun p h => .ok (h.setSolver s ({ · with itperf := p })))
  let itperf := (h.solver s).itperf
  let h ← h.maybe P.regularizer (fun r h => do
    let h := h.setSolver s ({ · with reg := r })
    match r, itperf with
    | some r, some p =>
      .ok ((h.setReg r ({ · with est := (h.perf p).est })).setReg r ({ · with ddir := (h.perf p).ddir }))
    | _, _ => .ok h)
  let h := (match P.maxIterations with
    | some n => h.setSolver s ({ · with limit := n })
    | none => h)
  match itperf with
  | some p => h.setPerfParameters s p P
  | none => .ok h

/-! ### The implicit Euler solver -/

/-- OdeSolverImplicitEuler: the Newton solver it holds, `m_reorder`, `m_mapping4Newton`, and the observers of
Newton solvers that forward to its own (OdeSolverImplicitEuler.h:40), by the number of the solver -/
structure Euler where
  newton : Ref
  reorder : Ref
  map4Newton : Nat
  forwards : List Nat
  heap : Heap

/-- The mapping the Newton solver should have: `m_reorder` if there is one (reordering mappings and other mappings
have different numbers: `2 r + 1` and `2 m`) -/
def Euler.equation (e : Euler) : Nat :=
  match e.reorder with
  | some r => 2 * r + 1
  | none => 2 * e.map4Newton

/-- `setComponent( m_reorder )` or `setComponent( m_mapping4Newton )` (OdeSolverImplicitEuler.h:36-39, 169-172) -/
def Euler.setEquation (e : Euler) : Res Euler := do
  let s ← deref e.newton
  let h ← e.heap.setComponent s (.mapping (some e.equation))
  .ok { e with heap := h }

/-- The function `setupNewtonSolver` (OdeSolverImplicitEuler.h:33-50); forwarding of the observers of Jacobian
refreshes is left out. -/
def Euler.setupNewtonSolver (e : Euler) : Res Euler := do
  let e ← e.setEquation
  let s ← deref e.newton
  .ok { e with forwards := e.forwards ++ [s] }

/-- `setNewtonSolver` (alg/interfaces/NewtonSolverInterface.h:265-268, OdeSolverImplicitEuler.h:52) -/
def Euler.setNewtonSolver (s : Ref) (e : Euler) : Res Euler :=
  { e with newton := s }.setupNewtonSolver

/-- The constructor (OdeSolverImplicitEuler.h:26-57, OdeNewtonSolver.h:20-25), given the number of `m_mapping4Newton` -/
def Euler.new (h : Heap) (m : Nat) : Res Euler := do
  let n ← h.newSolver
  Euler.setupNewtonSolver ⟨some n.1, none, m, [], n.2⟩

/-- `setReorder` (OdeSolverImplicitEuler.h:165-173) -/
def Euler.setReorder (r : Ref) (e : Euler) : Res Euler :=
  let h := (match r with
    | some r => { e.heap with reorder := Function.update e.heap.reorder r (some (2 * e.map4Newton)) }
    | none => e.heap)
  { e with reorder := r, heap := h }.setEquation

/-- The parameter `algsolver` (OdeNewtonSolver.h:34-38): a new Newton solver that is given the nested parameters
(infra/OptionalParameters.h:403-416) -/
def Euler.setAlgsolver (P : Params) (e : Euler) : Res Euler := do
  let n ← e.heap.newSolver
  let h ← n.2.setParameters n.1 P
  { e with heap := h }.setNewtonSolver (some n.1)

end Verif.Wiring
