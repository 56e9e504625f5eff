import Verif.Basic
import Verif.Loop
import Mathlib.Logic.Function.Basic

/-
Model of who is told the right-hand side of an ODE solver: the setter `setOdeRhs` of ode/interfaces/OdeRhs.h with the observers
registered in ode/interfaces/OdeSolverEventController.h, OdeSolverErrorNormCalculator.h, OdeSolverExtrapolator.h and
OdeSolverImplicitEuler.h.

Simplifications:
 * objects of each kind are numbered, and are never destroyed; a null pointer is `none`; calling a member function through a
   null pointer is undefined (ASSERT does nothing);
 * of the objects, only their pointers to others are kept;
 * only the observers that the library itself registers for changed properties are modelled;
 * a call that never returns because functions call each other forever overflows the stack: undefined. The model counts nested
   calls of `setOdeRhs` and gives up after `fuel` of them; the theorems speak about any sufficiently large `fuel`, or all.
-/

namespace Verif.OdeWiring

open Verif.Res

/-- `std::shared_ptr` to a right-hand side, controller, calculator or solver -/
abbrev Ref := Option Nat

/-- What a solver class derives from: fixed step (OdeSolverExplicitRK.h:14-16, OdeSolverRosenbrock_W1.h:13-16,
OdeSolverGragg.h:13-16), error controlled (OdeSolverExplicitEmbeddedRK.h:16-20, OdeSolverRosenbrock_SW2_4.h:15-20), extrapolator
(OdeSolverExtrapolator.h:16-22), implicit Euler (OdeSolverImplicitEuler.h:15-19). All derive from OdeSolverEventController. -/
inductive Kind
  | fixed
  | controlled
  | extrapolator
  | implicit
  deriving DecidableEq

/-- Does the class derive from OdeSolverErrorNormCalculator? (OdeSolverExplicitEmbeddedRK.h:18, OdeSolverRosenbrock_SW2_4.h:17,
OdeSolverExtrapolator.h:19) -/
def Kind.hasNorm : Kind → Bool
  | .controlled | .extrapolator => true
  | _ => false

/-- Pointers of a solver (ode/interfaces/OdeRhs.h:85, OdeEventController.h:29-32, ErrorNormCalculator.h:30-33,
OdeSolverExtrapolator.h:242, OdeSolverImplicitEuler.h:215-219). `mapping` is the right-hand side of the step mapping of implicit
Euler; `ref` is the reference solver of the extrapolator and the predictor of implicit Euler. -/
structure Solver where
  kind : Kind := .fixed
  rhs : Ref := none
  ec : Ref := none
  norm : Ref := none
  ref : Ref := none
  mapping : Ref := none
  deriving DecidableEq

/-- All objects: solvers, and the right-hand sides of event controllers (ode/interfaces/OdeEventController.h:11-15) and error norm
calculators (ode/interfaces/ErrorNormCalculator.h:17-20) -/
structure Heap where
  next : Nat
  solver : Nat → Solver
  ec : Nat → Ref
  norm : Nat → Ref

/-- No objects -/
def Heap.empty : Heap := ⟨0, fun _ => {}, fun _ => none, fun _ => none⟩

/-- A change of the pointers of solver `s` -/
def Heap.modify (s : Nat) (f : Solver → Solver) (h : Heap) : Heap :=
  { h with solver := Function.update h.solver s (f (h.solver s)) }

/-- The observer `setControllerRhs` (ode/interfaces/OdeSolverEventController.h:26-29) -/
def Heap.setControllerRhs (s : Nat) (h : Heap) : Heap :=
  match (h.solver s).ec with
  | some c => { h with ec := Function.update h.ec c (h.solver s).rhs }
  | none => h

/-- The observer `updateOdeRhs` (ode/interfaces/OdeSolverErrorNormCalculator.h:23-25) -/
def Heap.updateOdeRhs (s : Nat) (h : Heap) : Res Heap :=
  match (h.solver s).norm with
  | some n => .ok { h with norm := Function.update h.norm n (h.solver s).rhs }
  | none => .error .ub

/-- `setOdeRhs` of a solver (infra/def_prop_class.h:109-112, ode/interfaces/OdeRhs.h:85): the observers of the error norm calculator
(ode/interfaces/OdeSolverErrorNormCalculator.h:27), the event controller (ode/interfaces/OdeSolverEventController.h:31), and of the
class itself: `syncOdeRhs` (OdeSolverExtrapolator.h:37, 296-300), the step mapping (OdeSolverImplicitEuler.h:54-56). -/
def Heap.setOdeRhs : Nat → Nat → Ref → Heap → Res Heap
  | 0, _, _, _ => .error .ub
  | fuel + 1, s, r, h => do
    let h := h.modify s ({ · with rhs := r })
    let h ← (if (h.solver s).kind.hasNorm then h.updateOdeRhs s else .ok h : Res Heap)
    let h := h.setControllerRhs s
    match (h.solver s).kind with
    | .extrapolator =>
      match (h.solver s).ref with
      | some t => h.setOdeRhs fuel t (h.solver s).rhs
      | none => .ok h
    | .implicit => .ok (h.modify s (fun x => { x with mapping := x.rhs }))
    | _ => .ok h

/-- `syncOdeRhs` (OdeSolverExtrapolator.h:296-300) -/
def Heap.syncOdeRhs (fuel s : Nat) (h : Heap) : Res Heap :=
  match (h.solver s).ref with
  | some t => h.setOdeRhs fuel t (h.solver s).rhs
  | none => .ok h

/-- `setEventController` (infra/def_prop_class.h:109-112, ode/interfaces/OdeSolverEventController.h:30) -/
def Heap.setEventController (s : Nat) (c : Ref) (h : Heap) : Heap :=
  (h.modify s ({ · with ec := c })).setControllerRhs s

/-- `setErrorNormCalculator` (infra/def_prop_class.h:109-112, ode/interfaces/OdeSolverErrorNormCalculator.h:26) -/
def Heap.setErrorNormCalculator (s : Nat) (n : Ref) (h : Heap) : Res Heap :=
  (h.modify s ({ · with norm := n })).updateOdeRhs s

/-- `setReferenceSolver` (OdeSolverExtrapolator.h:66-70) -/
def Heap.setReferenceSolver (fuel s : Nat) (t : Ref) (h : Heap) : Res Heap :=
  (h.modify s ({ · with ref := t })).syncOdeRhs fuel s

/-- What `setParameters` of the extrapolator does with given objects (OdeSolverExtrapolator.h:218-230,
ode/interfaces/OdeSolver.h:183-190; the order of the components is that of OdeSolverExtrapolator.h:19-21). `none`: no such
parameter. -/
def Heap.setParameters (fuel s : Nat) (n c t : Option Ref) (h : Heap) : Res Heap := do
  let h ← (match n with
    | some n => h.setErrorNormCalculator s n
    | none => .ok h : Res Heap)
  let h := (match c with
    | some c => h.setEventController s c
    | none => h)
  let h := (match t with
    | some t => h.modify s ({ · with ref := t })
    | none => h)
  h.syncOdeRhs fuel s

/-- What `doStep` of implicit Euler does before the predictor is used (OdeSolverImplicitEuler.h:92-93) -/
def Heap.prepareStep (fuel s : Nat) (h : Heap) : Res Heap :=
  match (h.solver s).ref with
  | some t => h.setOdeRhs fuel t (h.solver s).rhs
  | none => .ok h

/-- The constructor of a solver (OdeSolverExplicitRK.h:22-30, OdeSolverExplicitEmbeddedRK.h:30-46,
OdeSolverExtrapolator.h:29-38, OdeSolverImplicitEuler.h:26-57; ode/interfaces/OdeSolverEventController.h:20-32,
OdeSolverErrorNormCalculator.h:20-30): the solver, an event controller and, where the class has one, an error norm calculator with
the same number. The three names are in separate tables. -/
def Heap.new (k : Kind) (h : Heap) : Nat × Heap :=
  let n := h.next
  (n, { next := n + 1
        solver := Function.update h.solver n
          { kind := k, ec := some n, norm := if k.hasNorm then some n else none }
        ec := Function.update h.ec n none
        norm := Function.update h.norm n none })

/-- A new event controller or calculator (LinearOdeEventController.h:21-25) -/
def Heap.alloc (h : Heap) : Nat × Heap :=
  (h.next, { h with next := h.next + 1, ec := Function.update h.ec h.next none, norm := Function.update h.norm h.next none })

/-- Objects reached from solver `s` through reference solvers -/
inductive Heap.Reach (h : Heap) (s : Nat) : Nat → Prop
  | self : Heap.Reach h s s
  | step {u t : Nat} : Heap.Reach h s u → (h.solver u).kind = .extrapolator → (h.solver u).ref = some t → Heap.Reach h s t

/-- Everything that works for the solver `s` during a step has the right-hand side of `s` -/
def Heap.Synced (h : Heap) (s : Nat) : Prop :=
  ∀ u, h.Reach s u → (h.solver u).rhs = (h.solver s).rhs ∧
    (∀ c, (h.solver u).ec = some c → h.ec c = (h.solver s).rhs) ∧
    (∀ n, (h.solver u).kind.hasNorm → (h.solver u).norm = some n → h.norm n = (h.solver s).rhs) ∧
    ((h.solver u).kind = .implicit → (h.solver u).mapping = (h.solver s).rhs)

/-- The chain of reference solvers that starts at `s` ends -/
inductive Heap.Ends (h : Heap) : Nat → Prop
  | other {s : Nat} : (h.solver s).kind ≠ .extrapolator → Heap.Ends h s
  | null {s : Nat} : (h.solver s).ref = none → Heap.Ends h s
  | next {s t : Nat} : (h.solver s).kind = .extrapolator → (h.solver s).ref = some t → Heap.Ends h t → Heap.Ends h s

/-! ### Sequences of calls -/

/-- Calls made by users of the library. `setRef` is `setReferenceSolver` for an extrapolator; `setPredictor` gives the parameter
`predictor` (OdeSolverImplicitEuler.h:191). -/
inductive Op
  | new (k : Kind)
  | alloc
  | setRhs (s : Nat) (r : Ref)
  | setEc (s : Nat) (c : Ref)
  | setNorm (s : Nat) (n : Ref)
  | setRef (s : Nat) (t : Ref)
  | setParameters (s : Nat) (n c t : Option Ref)
  | setPredictor (s : Nat) (t : Ref)
  | prepareStep (s : Nat)

/-- The effect of a call: see the functions above -/
def Heap.exec (fuel : Nat) (h : Heap) : Op → Res Heap
  | .new k => .ok (h.new k).2
  | .alloc => .ok h.alloc.2
  | .setRhs s r => h.setOdeRhs fuel s r
  | .setEc s c => .ok (h.setEventController s c)
  | .setNorm s n => h.setErrorNormCalculator s n
  | .setRef s t => h.setReferenceSolver fuel s t
  | .setParameters s n c t => h.setParameters fuel s n c t
  | .setPredictor s t => .ok (h.modify s ({ · with ref := t }))
  | .prepareStep s => h.prepareStep fuel s

/-- `s` is not a reference solver -/
def Heap.Free (h : Heap) (s : Nat) : Prop :=
  ∀ u, (h.solver u).kind = .extrapolator → (h.solver u).ref ≠ some s

/-- `c` can be the event controller of `s` -/
def Heap.EcFree (h : Heap) (s : Nat) (c : Ref) : Prop :=
  ∀ c', c = some c' → c' < h.next ∧ ∀ u, u ≠ s → (h.solver u).ec ≠ some c'

/-- `n` can be the error norm calculator of `s` -/
def Heap.NormFree (h : Heap) (s : Nat) (n : Ref) : Prop :=
  n ≠ none ∧ ∀ n', n = some n' → n' < h.next ∧ ∀ u, u ≠ s → (h.solver u).norm ≠ some n'

/-- `t` can be the reference solver of `s` -/
def Heap.RefFree (h : Heap) (s : Nat) (t : Ref) : Prop :=
  ∀ t', t = some t' → t' < h.next ∧ (∀ u, u ≠ s → (h.solver u).kind = .extrapolator → (h.solver u).ref ≠ some t') ∧
    ¬ h.Reach t' s

/-- Nothing is shared and nobody goes past the owner: an object that is given to a solver exists and is not in use by another
solver; an error norm calculator is not null; a reference solver is not above its user; the right-hand side is set for solvers
that are not reference solvers; predictors are not used as reference solvers. -/
def Op.Allowed (h : Heap) : Op → Prop
  | .new _ => True
  | .alloc => True
  | .setRhs s _ => s < h.next ∧ h.Free s
  | .setEc s c => s < h.next ∧ h.EcFree s c
  | .setNorm s n => s < h.next ∧ (h.solver s).kind.hasNorm ∧ h.NormFree s n
  | .setRef s t => s < h.next ∧ (h.solver s).kind = .extrapolator ∧ h.RefFree s t
  | .setParameters s n c t => s < h.next ∧ (h.solver s).kind = .extrapolator ∧ (∀ n', n = some n' → h.NormFree s n') ∧
      (∀ c', c = some c' → h.EcFree s c') ∧ ∀ t', t = some t' → h.RefFree s t'
  | .setPredictor s t => s < h.next ∧ (h.solver s).kind = .implicit ∧ ∀ t', t = some t' → t' < h.next
  | .prepareStep s => s < h.next ∧ (h.solver s).kind = .implicit ∧ ∀ t, (h.solver s).ref = some t → h.Free t

/-- Sequences of allowed calls: each returns, with the given number of nested calls or more -/
inductive Runs : Heap → List Op → Heap → Prop
  | nil {h : Heap} : Runs h [] h
  | cons {h h1 h2 : Heap} {op : Op} {ops : List Op} {N : Nat} :
      op.Allowed h → (∀ fuel, N ≤ fuel → h.exec fuel op = .ok h1) → Runs h1 ops h2 → Runs h (op :: ops) h2

end Verif.OdeWiring
