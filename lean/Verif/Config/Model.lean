import Verif.Infra.ParamsModel
import Verif.Driver.Model
import Verif.TestModels.More

/-
Model of the parameters of all classes of the library: `parameters` and `setParameters` (for `helpOnParameters` see
HelpModel.lean) of the ODE solvers (ode/interfaces/OdeSolver.h and the components in ode/interfaces/OdeSolver*.h), of the Newton solver
(alg/interfaces/NewtonSolverInterface.h) and its components, of the test models, of the initial state, of the output
options, and of OdeSolverConfiguration; with the type identifiers of the registrators.

Simplifications:
 * a set of parameters is a tree (sharing of nested sets between copies is treated in Infra/ParamsModel.lean: `parameters`
   makes new ones);
 * of the objects, only what can be set by parameters is kept; pointers to right-hand sides and mappings are treated in
   Wiring;
 * classes of the user (and therefore regularization strategies, of which the library has none) are not modelled;
 * what is left of an object when an exception is thrown by `setParameters` is not modelled.
-/

namespace Verif.Config

open Verif.Infra Verif.Driver Verif.TestModels

/-- `Value` (infra/OptionalParameters.h:57-145) with its nested parameters -/
inductive Tree where
  | node (text : Text) (nested : Option (List (String × Tree)))

/-- `Parameters` (infra/OptionalParameters.h:50) -/
abbrev Params := List (String × Tree)

/-- The text of a value (infra/OptionalParameters.h:143) -/
def Tree.text : Tree → Text
  | .node t _ => t

/-- `Parameters result;` (e.g. ode/interfaces/OdeSolver.h:175) -/
def Params.nil : Params := []

/-- `result[k] = v` (e.g. ode/interfaces/OdeSolver.h:176) -/
def Params.put (P : Params) (k : String) (v : Tree) : Params := insertKV k v P

/-- A value that is not an object (infra/OptionalParameters.h:72-92) -/
def leaf (t : Text) : Tree := .node t none

/-- `Value(std::shared_ptr)` (infra/OptionalParameters.h:391-401) of an object with a type identifier and parameters -/
def obj (id : String) (P : Params) : Tree := .node id.toList (some P)

/-- `Value(std::shared_ptr)` (infra/OptionalParameters.h:391-401) of a null pointer -/
def null : Tree := .node [] none

/-- `Value(std::shared_ptr)` for a pointer that may be null (infra/OptionalParameters.h:391-401) -/
def ptr {α : Type} (f : α → Tree) : Option α → Tree
  | some x => f x
  | none => null

/-- Conversions of `double`: `Value(double)` and `toType(double&)` (infra/OptionalParameters.h:84-89, 151-156), see
`Infra.ofDouble` for the former. -/
structure Fmt (R : Type) where
  put : R → Text
  get : Text → Res R

/-- `maybeSetParameter` (infra/OptionalParameters.h:281-291) -/
def maybeSet {σ : Type} (P : Params) (k : String) (f : Tree → σ → Res σ) (s : σ) : Res σ :=
  match findKV k P with
  | none => .ok s
  | some v => f v s

/-- `maybeLoadParameter` (infra/OptionalParameters.h:300-306) -/
def maybeLoad {α : Type} (P : Params) (k : String) (conv : Tree → Res α) (dst : α) : Res α :=
  maybeSet P k (fun v _ => conv v) dst

/-- Conversion of a value to `bool` (infra/OptionalParameters.h:172-180) -/
def asBool (v : Tree) : Res Bool := toBool v.text

/-- Conversion of a value to `unsigned` (infra/OptionalParameters.h:165-170) -/
def asUnsigned (v : Tree) : Res Nat := toUnsigned v.text

/-- Conversion of a value to `std::string` (infra/OptionalParameters.h:147-149) -/
def asText (v : Tree) : Res Text := .ok v.text

/-- Conversion of a value to a pointer (infra/OptionalParameters.h:403-416): a new object, to which the nested parameters
are given -/
def asPtr {α : Type} (new : Text → Res α) (set : Params → α → Res α) : Tree → Res (Option α)
  | .node t nested =>
    if t = [] then .ok none
    else do
      let x ← new t
      match nested with
      | none => .ok (some x)
      | some P => do
        let x ← set P x
        .ok (some x)

/-- `Factory::newInstance` with an identifier that is not registered (infra/Factory.h:113-116) -/
def unknown {α : Type} (t : Text) : Res α :=
  .error (.exc (String.ofList ("Failed to find type '".toList ++ t ++ "' in registry".toList)))

/-- `p->` (e.g. ode/interfaces/OdeSolverErrorNormCalculator.h:24): undefined for a null pointer -/
def notNull {α : Type} : Option α → Res Unit
  | some _ => .ok ()
  | none => .error .ub

section
variable {R : Type} [Field R]

/-! ### Components of ODE solvers -/

/-- OdeStepSizeSimpleController (ode/OdeStepSizeSimpleController.h:85-90) -/
structure StepCtl (R : Type) where
  tolerance : R
  insurance : R
  incMin : R
  incMax : R
  decMax : R
  maxThreshold : R
  deriving DecidableEq

/-- Constructor (ode/OdeStepSizeSimpleController.h:23-30) -/
def StepCtl.init : StepCtl R := ⟨1 / 10 ^ 6, 8 / 10, 13 / 10, 2, 1 / 10, 0⟩

/-- `parameters` (ode/OdeStepSizeSimpleController.h:62-72) -/
def StepCtl.params (F : Fmt R) (c : StepCtl R) : Params :=
  ((((((Params.nil.put "tolerance" (leaf (F.put c.tolerance))).put "insurance" (leaf (F.put c.insurance))).put
    "inc_min_factor" (leaf (F.put c.incMin))).put "inc_max_factor" (leaf (F.put c.incMax))).put
    "dec_max_factor" (leaf (F.put c.decMax))).put "max_threshold" (leaf (F.put c.maxThreshold)))

/-- `setParameters` (ode/OdeStepSizeSimpleController.h:74-82) -/
def StepCtl.set (F : Fmt R) (P : Params) (c : StepCtl R) : Res (StepCtl R) := do
  let a1 ← maybeLoad P "tolerance" (F.get ·.text) c.tolerance
  let a2 ← maybeLoad P "insurance" (F.get ·.text) c.insurance
  let a3 ← maybeLoad P "inc_min_factor" (F.get ·.text) c.incMin
  let a4 ← maybeLoad P "inc_max_factor" (F.get ·.text) c.incMax
  let a5 ← maybeLoad P "dec_max_factor" (F.get ·.text) c.decMax
  let a6 ← maybeLoad P "max_threshold" (F.get ·.text) c.maxThreshold
  .ok ⟨a1, a2, a3, a4, a5, a6⟩

/-- `newInstance` of step size controllers (ode/reg/OdeSolverCommonClassesRegistrator.h:12) -/
def StepCtl.new (t : Text) : Res (StepCtl R) := if t = "simple".toList then .ok .init else unknown t

/-- Error norm calculators: ErrorInfNormCalculator (ode/reg/OdeSolverCommonClassesRegistrator.h:11), without parameters -/
inductive ErrNorm
  | inf
  deriving DecidableEq

/-- `newInstance` of error norm calculators (ode/reg/OdeSolverCommonClassesRegistrator.h:11) -/
def ErrNorm.new (t : Text) : Res ErrNorm := if t = "inf".toList then .ok .inf else unknown t

/-- Event controllers: LinearOdeEventController (ode/reg/OdeEventControllerClassesRegistrator.h:10), without parameters -/
inductive EvCtl
  | linear
  deriving DecidableEq

/-- `newInstance` of event controllers (ode/reg/OdeEventControllerClassesRegistrator.h:10) -/
def EvCtl.new (t : Text) : Res EvCtl := if t = "linear".toList then .ok .linear else unknown t

/-- Jacobian trimmers (alg/JacobianWidthBasedTrimmer.h:46, JacobianThresholdBasedTrimmer.h:54) -/
inductive Trim (R : Type)
  | width (w : Nat)
  | threshold (x : R)
  deriving DecidableEq

/-- `newInstance` of trimmers (alg/reg/AlgebraicSolverClassesRegistrator.h:29-30); constructors
alg/JacobianWidthBasedTrimmer.h:19, JacobianThresholdBasedTrimmer.h:21 -/
def Trim.new (t : Text) : Res (Trim R) :=
  if t = "width".toList then .ok (.width 0)
  else if t = "threshold".toList then .ok (.threshold 0)
  else unknown t

/-- The value of a trimmer; `parameters` (alg/JacobianWidthBasedTrimmer.h:34-39, JacobianThresholdBasedTrimmer.h:42-47) -/
def Trim.tree (F : Fmt R) : Trim R → Tree
  | .width w => obj "width" (Params.nil.put "width" (leaf (ofUnsigned w)))
  | .threshold x => obj "threshold" (Params.nil.put "threshold" (leaf (F.put x)))

/-- `setParameters` (alg/JacobianWidthBasedTrimmer.h:41-43, JacobianThresholdBasedTrimmer.h:49-51) -/
def Trim.set (F : Fmt R) (P : Params) : Trim R → Res (Trim R)
  | .width w => do
    let w ← maybeLoad P "width" asUnsigned w
    .ok (.width w)
  | .threshold x => do
    let x ← maybeLoad P "threshold" (F.get ·.text) x
    .ok (.threshold x)

/-- Step sequences (src/reg_ode_solvers.cpp:10-12), without parameters -/
inductive Seq
  | romberg
  | bulirsch
  | harmonic
  deriving DecidableEq

/-- Type identifiers of step sequences (src/reg_ode_solvers.cpp:10-12) -/
def Seq.id : Seq → String
  | .romberg => "romberg"
  | .bulirsch => "bulirsch"
  | .harmonic => "harmonic"

/-- `newInstance` of step sequences (src/reg_ode_solvers.cpp:10-12) -/
def Seq.new (t : Text) : Res Seq :=
  if t = "romberg".toList then .ok .romberg
  else if t = "bulirsch".toList then .ok .bulirsch
  else if t = "harmonic".toList then .ok .harmonic
  else unknown t

/-! ### Newton solver -/

/-- Descent directions (alg/reg/AlgebraicSolverClassesRegistrator.h:32-37); the lazy one has a parameter
(alg/JacobianLazyFakeBroydenUpdateNewtonDescentDirection.h:120) -/
inductive DirKind
  | simple
  | broyden
  | fakeBroyden
  | lazy (iterations : Nat)
  | hart
  | const
  deriving DecidableEq

/-- `newInstance` of descent directions (alg/reg/AlgebraicSolverClassesRegistrator.h:32-37); constructor
alg/JacobianLazyFakeBroydenUpdateNewtonDescentDirection.h:27 -/
def DirKind.new (t : Text) : Res DirKind :=
  if t = "simple".toList then .ok .simple
  else if t = "broyden".toList then .ok .broyden
  else if t = "fake-broyden".toList then .ok .fakeBroyden
  else if t = "lazy-fake-broyden".toList then .ok (.lazy 10)
  else if t = "hart".toList then .ok .hart
  else if t = "const".toList then .ok .const
  else unknown t

/-- The value of a descent direction; `parameters` (alg/JacobianLazyFakeBroydenUpdateNewtonDescentDirection.h:99-104) -/
def DirKind.tree : DirKind → Tree
  | .simple => obj "simple" Params.nil
  | .broyden => obj "broyden" Params.nil
  | .fakeBroyden => obj "fake-broyden" Params.nil
  | .lazy n => obj "lazy-fake-broyden" (Params.nil.put "lazy_iterations" (leaf (ofUnsigned n)))
  | .hart => obj "hart" Params.nil
  | .const => obj "const" Params.nil

/-- `setParameters` (alg/JacobianLazyFakeBroydenUpdateNewtonDescentDirection.h:106-108) -/
def DirKind.set (P : Params) : DirKind → Res DirKind
  | .lazy n => do
    let n ← maybeLoad P "lazy_iterations" asUnsigned n
    .ok (.lazy n)
  | d => .ok d

/-- Jacobian providers (alg/reg/AlgebraicSolverClassesRegistrator.h:23-25), without parameters -/
inductive JpKind
  | default
  | sparse
  deriving DecidableEq

/-- Type identifiers of Jacobian providers (alg/reg/AlgebraicSolverClassesRegistrator.h:23-25) -/
def JpKind.id : JpKind → String
  | .default => "default"
  | .sparse => "sparse"

/-- `newInstance` of Jacobian providers (alg/reg/AlgebraicSolverClassesRegistrator.h:23-25) -/
def JpKind.new (t : Text) : Res JpKind :=
  if t = "default".toList then .ok .default
  else if t = "sparse".toList then .ok .sparse
  else unknown t

/-- SimpleErrorEstimator (alg/SimpleErrorEstimator.h:137-140) -/
structure Est (R : Type) where
  absTol : R
  relTol : R
  absMax : R
  relMax : R
  deriving DecidableEq

/-- `newInstance` of error estimators (alg/reg/AlgebraicSolverClassesRegistrator.h:27); constructor
alg/SimpleErrorEstimator.h:23-29 -/
def Est.new (t : Text) : Res (Est R) :=
  if t = "simple".toList then .ok ⟨1 / 10 ^ 6, 1 / 10 ^ 6, 10 ^ 20, 10⟩ else unknown t

/-- `parameters` (alg/SimpleErrorEstimator.h:118-126) -/
def Est.params (F : Fmt R) (e : Est R) : Params :=
  (((Params.nil.put "abs_tol" (leaf (F.put e.absTol))).put "rel_tol" (leaf (F.put e.relTol))).put
    "abs_max_threshold" (leaf (F.put e.absMax))).put "rel_max_threshold" (leaf (F.put e.relMax))

/-- `setParameters` (alg/SimpleErrorEstimator.h:128-134) -/
def Est.set (F : Fmt R) (P : Params) (e : Est R) : Res (Est R) := do
  let a1 ← maybeLoad P "abs_tol" (F.get ·.text) e.absTol
  let a2 ← maybeLoad P "rel_tol" (F.get ·.text) e.relTol
  let a3 ← maybeLoad P "abs_max_threshold" (F.get ·.text) e.absMax
  let a4 ← maybeLoad P "rel_max_threshold" (F.get ·.text) e.relMax
  .ok ⟨a1, a2, a3, a4⟩

/-- Line searches: SimpleNewtonLinearSearch (alg/reg/AlgebraicSolverClassesRegistrator.h:39), without parameters -/
inductive Search
  | simple
  deriving DecidableEq

/-- `newInstance` of line searches (alg/reg/AlgebraicSolverClassesRegistrator.h:39) -/
def Search.new (t : Text) : Res Search := if t = "simple".toList then .ok .simple else unknown t

/-- A Jacobian provider with its trimmer (alg/interfaces/JacobianProvider.h:14) -/
structure Jp (R : Type) where
  kind : JpKind
  trimmer : Option (Trim R)
  deriving DecidableEq

/-- A descent direction with its Jacobian provider (alg/interfaces/NewtonDescentDirection.h:29-30) -/
structure Dir (R : Type) where
  kind : DirKind
  jp : Option (Jp R)
  deriving DecidableEq

/-- An iteration performer (alg/interfaces/NewtonIterationPerformer.h:14-19) -/
structure Perf (R : Type) where
  ddir : Option (Dir R)
  search : Option Search
  est : Option (Est R)
  deriving DecidableEq

/-- NewtonSolver (alg/interfaces/NewtonSolverInterface.h:14-16, NewtonSolver.h:105) -/
structure Newton (R : Type) where
  itperf : Option (Perf R)
  limit : Nat
  deriving DecidableEq

/-- `newInstance` of iteration performers (alg/reg/AlgebraicSolverClassesRegistrator.h:41), without components -/
def Perf.new (t : Text) : Res (Perf R) := if t = "default".toList then .ok ⟨none, none, none⟩ else unknown t

/-- `newInstance` of Newton solvers (alg/reg/AlgebraicSolverClassesRegistrator.h:43); constructor alg/NewtonSolver.h:26-34 -/
def Newton.new (t : Text) : Res (Newton R) :=
  if t = "newton".toList then
    .ok ⟨some ⟨some ⟨.simple, some ⟨.default, none⟩⟩, some .simple, some ⟨1 / 10 ^ 6, 1 / 10 ^ 6, 10 ^ 20, 10⟩⟩, 100⟩
  else unknown t

/-- `parameters` (alg/interfaces/NewtonSolverInterface.h:146-164) -/
def Newton.params (F : Fmt R) (n : Newton R) : Res Params :=
  let P := (Params.nil.put "itperf" (ptr (fun _ => obj "default" Params.nil) n.itperf)).put "regularizer" null
  let P := P.put "max_iterations" (leaf (ofUnsigned n.limit))
  match n.itperf with
  | none => .ok P
  | some p => do
    let P := P.put "ddir" (ptr (fun d => d.kind.tree) p.ddir)
    let P ← (match p.ddir with
      | none => .ok P
      | some d => do
        let P := P.put "jacobian" (ptr (fun j => .node j.kind.id.toList none) d.jp)
        match d.jp with
        | none => .error .ub
        | some j => .ok (P.put "jtrim" (ptr (Trim.tree F) j.trimmer)) : Res Params)
    let P := P.put "linsearch" (ptr (fun _ => obj "simple" Params.nil) p.search)
    .ok (P.put "err" (ptr (fun e => obj "simple" (e.params F)) p.est))

/-- `setJacobianTrimmer` if there is a provider (alg/interfaces/NewtonSolverInterface.h:202-206) -/
def Jp.setTrim (F : Fmt R) (P : Params) : Option (Jp R) → Res (Option (Jp R))
  | none => .ok none
  | some j => do
    let t ← maybeLoad P "jtrim" (asPtr Trim.new (Trim.set F)) j.trimmer
    .ok (some { j with trimmer := t })

/-- The parameters of a direction, if there is one (alg/interfaces/NewtonSolverInterface.h:198-207) -/
def Dir.set (F : Fmt R) (P : Params) : Option (Dir R) → Res (Option (Dir R))
  | none => .ok none
  | some d => do
    let j ← maybeLoad P "jacobian" (fun v => do
      let k ← asPtr JpKind.new (fun _ k => .ok k) v
      .ok (k.map (fun k => ⟨k, none⟩))) d.jp
    let j ← Jp.setTrim F P j
    .ok (some { d with jp := j })

/-- The parameters of the iteration performer (alg/interfaces/NewtonSolverInterface.h:185-226); `setMapping` of a null
line search is undefined (213). A new direction has no Jacobian provider. -/
def Perf.set (F : Fmt R) (P : Params) (p : Perf R) : Res (Perf R) := do
  let d ← maybeLoad P "ddir" (fun v => do
    let k ← asPtr DirKind.new DirKind.set v
    .ok (k.map (fun k => ⟨k, none⟩))) p.ddir
  let d ← Dir.set F P d
  let l ← maybeLoad P "linsearch" (fun v => do
    let l ← asPtr Search.new (fun _ l => .ok l) v
    notNull l
    .ok l) p.search
  let e ← maybeLoad P "err" (asPtr Est.new (Est.set F)) p.est
  .ok ⟨d, l, e⟩

/-- `setParameters` (alg/interfaces/NewtonSolverInterface.h:166-227) -/
def Newton.set (F : Fmt R) (P : Params) (n : Newton R) : Res (Newton R) := do
  let p ← maybeLoad P "itperf" (asPtr Perf.new (fun _ p => .ok p)) n.itperf
  let _ ← maybeLoad P "regularizer" (asPtr (α := Unit) unknown (fun _ r => .ok r)) none
  let m ← maybeLoad P "max_iterations" asUnsigned n.limit
  match p with
  | none => .ok ⟨none, m⟩
  | some p => do
    let p ← p.set F P
    .ok ⟨some p, m⟩

/-- `setComponent` of a mapping (alg/interfaces/NewtonSolverInterface.h:66-75, see Wiring/Model.lean): undefined for a
performer without direction or line search -/
def Newton.connect (n : Newton R) : Res Unit :=
  match n.itperf with
  | none => .ok ()
  | some p => do
    notNull p.ddir
    notNull p.search

/-! ### ODE solvers -/

/-- `m_initialStepSize`, `m_stepSizeMinThreshold` (ode/interfaces/OdeSolver.h:127-128) -/
structure Base (R : Type) where
  hInit : R
  hMin : R
  deriving DecidableEq

/-- Constructor (ode/interfaces/OdeSolver.h:94-97) -/
def Base.init : Base R := ⟨1 / 100, 1 / 10 ^ 16⟩

/-- `parameters` without the components (ode/interfaces/OdeSolver.h:175-177) -/
def Base.params (F : Fmt R) (b : Base R) : Params :=
  (Params.nil.put "h_init" (leaf (F.put b.hInit))).put "h_min" (leaf (F.put b.hMin))

/-- `setParameters` without the components (ode/interfaces/OdeSolver.h:186-187) -/
def Base.set (F : Fmt R) (P : Params) (b : Base R) : Res (Base R) := do
  let h ← maybeLoad P "h_init" (F.get ·.text) b.hInit
  let m ← maybeLoad P "h_min" (F.get ·.text) b.hMin
  .ok ⟨h, m⟩

/-- Error norm calculator and step size controller of solvers with step size control
(ode/interfaces/OdeSolverErrorNormCalculator.h:13-15, OdeSolverStepSizeController.h:13-15) -/
structure Ctl (R : Type) where
  enorm : Option ErrNorm
  stepCtl : Option (StepCtl R)
  deriving DecidableEq

/-- Constructors (ode/OdeSolverExplicitEmbeddedRK.h:34-35) -/
def Ctl.init : Ctl R := ⟨some .inf, some .init⟩

/-- `saveParameters` (ode/interfaces/OdeSolverErrorNormCalculator.h:35-37, OdeSolverStepSizeController.h:30-32) -/
def Ctl.save (F : Fmt R) (c : Ctl R) (P : Params) : Params :=
  (P.put "enorm" (ptr (fun _ => obj "inf" Params.nil) c.enorm)).put "stepsizectl"
    (ptr (fun s => obj "simple" (s.params F)) c.stepCtl)

/-- `loadParameters` (ode/interfaces/OdeSolverErrorNormCalculator.h:39-43, OdeSolverStepSizeController.h:34-38); the observer
of a changed error norm calculator uses it (OdeSolverErrorNormCalculator.h:23-26). -/
def Ctl.load (F : Fmt R) (P : Params) (c : Ctl R) : Res (Ctl R) := do
  let e ← maybeLoad P "enorm" (fun v => do
    let e ← asPtr ErrNorm.new (fun _ e => .ok e) v
    notNull e
    .ok e) c.enorm
  let s ← maybeLoad P "stepsizectl" (asPtr StepCtl.new (StepCtl.set F)) c.stepCtl
  .ok ⟨e, s⟩

/-- `saveParameters` of an event controller (ode/interfaces/OdeSolverEventController.h:37-39) -/
def saveEv (e : Option EvCtl) (P : Params) : Params := P.put "eventctl" (ptr (fun _ => obj "linear" Params.nil) e)

/-- `loadParameters` of an event controller (ode/interfaces/OdeSolverEventController.h:41-45) -/
def loadEv (P : Params) (e : Option EvCtl) : Res (Option EvCtl) :=
  maybeLoad P "eventctl" (asPtr EvCtl.new (fun _ e => .ok e)) e

/-- `saveParameters` of a trimmer (ode/interfaces/OdeSolverJacobianTrimmer.h:30-32) -/
def saveTrim (F : Fmt R) (t : Option (Trim R)) (P : Params) : Params := P.put "jtrim" (ptr (Trim.tree F) t)

/-- `loadParameters` of a trimmer (ode/interfaces/OdeSolverJacobianTrimmer.h:34-38) -/
def loadTrim (F : Fmt R) (P : Params) (t : Option (Trim R)) : Res (Option (Trim R)) :=
  maybeLoad P "jtrim" (asPtr Trim.new (Trim.set F)) t

/-- Solvers derived from OdeSolverExplicitRK (ode/reg/OdeSolverClassesRegistrator.h:19-20) -/
inductive FixedKind
  | euler
  | rk4
  deriving DecidableEq

/-- Solvers derived from OdeSolverExplicitEmbeddedRK (ode/reg/OdeSolverClassesRegistrator.h:21-23) -/
inductive EmbKind
  | dopri45
  | dopri56
  | dopri78
  deriving DecidableEq

/-- OdeSolverExplicitEmbeddedRK (ode/OdeSolverExplicitEmbeddedRK.h:188-191): the error check, the forced error calculation, the
step after a switch, and whether the mode is HighMode -/
structure EmbSet (R : Type) where
  disable : Bool
  force : Bool
  hAfter : R
  high : Bool
  deriving DecidableEq

/-- OdeSolverExtrapolator without step sequence and reference solver (ode/OdeSolverExtrapolator.h:243-245) -/
structure ExSet where
  symmetric : Bool
  disable : Bool
  stages : Nat
  deriving DecidableEq

/-- A pointer to an ODE solver: null or a solver of one of the classes
(ode/reg/OdeSolverClassesRegistrator.h:19-28) with its components. The Newton solver of the implicit Euler solver is not null: setting a null
one is undefined (ode/OdeSolverImplicitEuler.h:40). Of the reordering mapping of the implicit Euler solver
(ode/OdeSolverImplicitEuler.h:217) only its presence is kept: it is a class without type identifier. -/
inductive Solver (R : Type)
  | null
  | fixed (k : FixedKind) (b : Base R) (ec : Option EvCtl)
  | embedded (k : EmbKind) (b : Base R) (c : Ctl R) (ec : Option EvCtl) (s : EmbSet R)
  | w1 (b : Base R) (t : Option (Trim R)) (ec : Option EvCtl) (d : R)
  | sw24 (b : Base R) (t : Option (Trim R)) (c : Ctl R) (ec : Option EvCtl) (d : R) (disable : Bool)
  | gragg (b : Base R) (ec : Option EvCtl) (smooth : Bool)
  | extrapolator (b : Base R) (c : Ctl R) (ec : Option EvCtl) (s : ExSet) (seq : Option Seq) (ref : Solver R)
  | implicit (b : Base R) (n : Newton R) (ec : Option EvCtl) (alpha : R) (predictor : Solver R)
      (predictorSteps : Nat) (reorder : Bool)

/-- Type identifiers of solvers (ode/reg/OdeSolverClassesRegistrator.h:19-28) -/
def Solver.id : Solver R → String
  | .null => ""
  | .fixed .euler _ _ => "euler"
  | .fixed .rk4 _ _ => "rk4"
  | .embedded .dopri45 _ _ _ _ => "dopri_45"
  | .embedded .dopri56 _ _ _ _ => "dopri_56"
  | .embedded .dopri78 _ _ _ _ => "dopri_78"
  | .w1 .. => "rosenbrock_w1"
  | .sw24 .. => "rosenbrock_sw2_4"
  | .gragg .. => "gragg"
  | .extrapolator .. => "extrapolator"
  | .implicit .. => "i_euler"

/-- Constructor of embedded solvers (ode/OdeSolverExplicitEmbeddedRK.h:30-45) -/
def embInit (k : EmbKind) : Solver R := .embedded k .init .init (some .linear) ⟨false, false, 0, false⟩

/-- `newInstance` of ODE solvers (ode/reg/OdeSolverClassesRegistrator.h:19-28); constructors ode/OdeSolverExplicitRK.h:22-29,
OdeSolverRosenbrock_W1.h:23-28, OdeSolverRosenbrock_SW2_4.h:27-35, OdeSolverRosenbrock_W_base.h:26-30, OdeSolverGragg.h:23-29,
OdeSolverExtrapolator.h:29-38, OdeSolverImplicitEuler.h:26-57 (with alpha from OdeStepMappingEuler.h:20-25) -/
def Solver.new (t : Text) : Res (Solver R) :=
  if t = "euler".toList then .ok (.fixed .euler .init (some .linear))
  else if t = "rk4".toList then .ok (.fixed .rk4 .init (some .linear))
  else if t = "dopri_45".toList then .ok (embInit .dopri45)
  else if t = "dopri_56".toList then .ok (embInit .dopri56)
  else if t = "dopri_78".toList then .ok (embInit .dopri78)
  else if t = "rosenbrock_w1".toList then .ok (.w1 .init none (some .linear) 1)
  else if t = "rosenbrock_sw2_4".toList then .ok (.sw24 .init none .init (some .linear) 1 false)
  else if t = "gragg".toList then .ok (.gragg .init (some .linear) false)
  else if t = "extrapolator".toList then .ok (.extrapolator .init .init (some .linear) ⟨false, false, 4⟩ none .null)
  else if t = "i_euler".toList then do
    let n ← Newton.new "newton".toList
    .ok (.implicit .init n (some .linear) 1 .null 1 false)
  else unknown t

/-- The value of an ODE solver with parameters `P` (infra/OptionalParameters.h:391-401) -/
def Solver.node (s : Solver R) (P : Params) : Tree :=
  match s with
  | .null => Config.null
  | s => obj s.id P

/-- `parameters` (ode/interfaces/OdeSolver.h:172-181 with the components in the order of the base classes,
OdeSolverExplicitEmbeddedRK.h:153-161, OdeSolverRosenbrock_W1.h:108-113, OdeSolverRosenbrock_SW2_4.h:187-193,
OdeSolverGragg.h:126-131, OdeSolverExtrapolator.h:207-216, OdeSolverImplicitEuler.h:175-183 with
interfaces/OdeNewtonSolver.h:30-32) -/
def Solver.params (F : Fmt R) : Solver R → Res Params
  | .null => .ok Params.nil
  | .fixed _ b ec => .ok (saveEv ec (b.params F))
  | .embedded _ b c ec s =>
    let P := saveEv ec (c.save F (b.params F))
    .ok ((((P.put "disable_error_check" (leaf (ofBool s.disable))).put "force_error_calc" (leaf (ofBool s.force))).put
      "h_after_switch" (leaf (F.put s.hAfter))).put "mode" (leaf (if s.high then "high".toList else "low".toList)))
  | .w1 b t ec d => .ok ((saveEv ec (saveTrim F t (b.params F))).put "d" (leaf (F.put d)))
  | .sw24 b t c ec d disable =>
    .ok (((saveEv ec (c.save F (saveTrim F t (b.params F)))).put "d" (leaf (F.put d))).put "disable_error_check"
      (leaf (ofBool disable)))
  | .gragg b ec smooth => .ok ((saveEv ec (b.params F)).put "smooth" (leaf (ofBool smooth)))
  | .extrapolator b c ec s seq ref => do
    let P := saveEv ec (c.save F (b.params F))
    let P := ((P.put "symmetric" (leaf (ofBool s.symmetric))).put "disable_error_check" (leaf (ofBool s.disable))).put
      "max_stages" (leaf (ofUnsigned s.stages))
    let P := P.put "step_sequence" (ptr (fun q => .node q.id.toList none) seq)
    let Q ← ref.params F
    .ok (P.put "reference_solver" (ref.node Q))
  | .implicit b n ec alpha pr steps _ => do
    let N ← n.params F
    let P := saveEv ec ((b.params F).put "algsolver" (obj "newton" N))
    let P := P.put "alpha" (leaf (F.put alpha))
    let Q ← pr.params F
    let P := (P.put "predictor" (pr.node Q)).put "predictor_steps" (leaf (ofUnsigned steps))
    .ok (P.put "reorder" Config.null)

/-- Conversion to the mode (ode/OdeSolverExplicitEmbeddedRK.h:169-176) -/
def asMode (v : Tree) : Res Bool :=
  if v.text = "high".toList then .ok true
  else if v.text = "low".toList then .ok false
  else .error (.exc (String.ofList ("Invalid mode: '".toList ++ v.text ++ "'".toList)))

/-- `maybeLoadParameter` of an ODE solver (infra/OptionalParameters.h:300-306); `sub` is what the conversion gives if there is
the parameter -/
def maybeSub (sub : Option (Res (Solver R))) (s : Solver R) : Res (Solver R) := sub.getD (.ok s)

/-- `setParameters` (ode/interfaces/OdeSolver.h:183-190 with the components, OdeSolverExplicitEmbeddedRK.h:163-177,
OdeSolverRosenbrock_W1.h:115-119, OdeSolverRosenbrock_SW2_4.h:195-200, OdeSolverGragg.h:133-137,
OdeSolverExtrapolator.h:218-230, OdeSolverImplicitEuler.h:185-196 with interfaces/OdeNewtonSolver.h:34-38 and the observer
OdeSolverImplicitEuler.h:33-52). `sub` gives the conversions of parameters that are ODE solvers. -/
def Solver.setWith (F : Fmt R) (P : Params) (sub : String → Option (Res (Solver R))) : Solver R → Res (Solver R)
  | .null => .ok .null
  | .fixed k b ec => do
    let b ← b.set F P
    let ec ← loadEv P ec
    .ok (.fixed k b ec)
  | .embedded k b c ec s => do
    let b ← b.set F P
    let c ← c.load F P
    let ec ← loadEv P ec
    let d ← maybeLoad P "disable_error_check" asBool s.disable
    let f ← maybeLoad P "force_error_calc" asBool s.force
    let h ← maybeLoad P "h_after_switch" (F.get ·.text) s.hAfter
    let m ← maybeLoad P "mode" asMode s.high
    .ok (.embedded k b c ec ⟨d, f, h, m⟩)
  | .w1 b t ec d => do
    let b ← b.set F P
    let t ← loadTrim F P t
    let ec ← loadEv P ec
    let d ← maybeLoad P "d" (F.get ·.text) d
    .ok (.w1 b t ec d)
  | .sw24 b t c ec d e => do
    let b ← b.set F P
    let t ← loadTrim F P t
    let c ← c.load F P
    let ec ← loadEv P ec
    let d ← maybeLoad P "d" (F.get ·.text) d
    let e ← maybeLoad P "disable_error_check" asBool e
    .ok (.sw24 b t c ec d e)
  | .gragg b ec s => do
    let b ← b.set F P
    let ec ← loadEv P ec
    let s ← maybeLoad P "smooth" asBool s
    .ok (.gragg b ec s)
  | .extrapolator b c ec s seq ref => do
    let b ← b.set F P
    let c ← c.load F P
    let ec ← loadEv P ec
    let y ← maybeLoad P "symmetric" asBool s.symmetric
    let d ← maybeLoad P "disable_error_check" asBool s.disable
    let m ← maybeLoad P "max_stages" asUnsigned s.stages
    let q ← maybeLoad P "step_sequence" (asPtr Seq.new (fun _ q => .ok q)) seq
    let r ← maybeSub (sub "reference_solver") ref
    .ok (.extrapolator b c ec ⟨y, d, m⟩ q r)
  | .implicit b n ec alpha pr steps re => do
    let b ← b.set F P
    let n ← maybeSet P "algsolver" (fun v _ => do
      let n ← asPtr Newton.new (Newton.set F) v
      match n with
      | none => .error .ub
      | some n => do
        n.connect
        .ok n) n
    let ec ← loadEv P ec
    let alpha ← maybeLoad P "alpha" (F.get ·.text) alpha
    let pr ← maybeSub (sub "predictor") pr
    let steps ← maybeLoad P "predictor_steps" asUnsigned steps
    let re ← maybeSet P "reorder" (fun v _ => do
      let _ ← asPtr (α := Unit) unknown (fun _ u => .ok u) v
      n.connect
      .ok false) re
    .ok (.implicit b n ec alpha pr steps re)

end

/-- Values found are smaller than the set -/
theorem sizeOf_find (k : String) (v : Tree) : ∀ P : Params, findKV k P = some v → sizeOf v < sizeOf P := by
  intro P
  induction P with
  | nil => intro h; simp [findKV] at h
  | cons e P ih =>
    obtain ⟨a, b⟩ := e
    intro h
    rw [findKV] at h
    split at h
    · cases h
      simp
      omega
    · have := ih h
      simp
      omega

section
variable {R : Type} [Field R]

/-- Conversion of a value to an ODE solver (infra/OptionalParameters.h:403-416) -/
def Solver.load (F : Fmt R) : Tree → Res (Solver R)
  | .node t nested =>
    if t = [] then .ok .null
    else do
      let s ← Solver.new t
      match hn : nested with
      | none => .ok s
      | some P => s.setWith F P (fun k =>
          match h : findKV k P with
          | none => none
          | some v => some (Solver.load F v))
termination_by v => sizeOf v
decreasing_by
  have := sizeOf_find k v P h
  subst hn
  simp
  omega

/-- `setParameters` of an ODE solver, see `Solver.setWith` (ode/interfaces/OdeSolver.h:183-190) -/
def Solver.set (F : Fmt R) (P : Params) (s : Solver R) : Res (Solver R) :=
  s.setWith F P (fun k => (findKV k P).map (Solver.load F))

/-! ### Test models -/

/-- A right-hand side of one of the classes of ode/reg/OdeTestModelClassesRegistrator.h:14-18; the last one has the flag
`m_sticking` (ode/test_models/BouncingBall.h:130) -/
inductive Model (R : Type)
  | oscillator (c f : R)
  | coupled (n : Nat) (c0 c2 f : R)
  | stiff (a : R)
  | sliding (k : Friction) (mass f0 v0 F1 F2 omega : R)
  | ball (g recovery stick : R) (sticking : Bool)

/-- Type identifiers of test models (ode/reg/OdeTestModelClassesRegistrator.h:14-18) -/
def Model.id : Model R → String
  | .oscillator .. => "oscillator"
  | .coupled .. => "coupled_nl_osc"
  | .stiff .. => "stiff_1d"
  | .sliding .. => "sliding_point"
  | .ball .. => "bouncing_ball"

/-- `newInstance` of right-hand sides (ode/reg/OdeTestModelClassesRegistrator.h:14-18); constructors
ode/test_models/Oscillator.h:23-26, CoupledNonlinearOscillators.h:23-28, StiffOde1D.h:23-25, SlidingPoint.h:26-34,
BouncingBall.h:26-31 -/
def Model.new (t : Text) : Res (Model R) :=
  if t = "oscillator".toList then .ok (.oscillator 1000 100)
  else if t = "coupled_nl_osc".toList then .ok (.coupled 10 1000 1000 100)
  else if t = "stiff_1d".toList then .ok (.stiff 50)
  else if t = "sliding_point".toList then .ok (.sliding .atan 1 1 1 10 10 100)
  else if t = "bouncing_ball".toList then .ok (.ball (98 / 10) (9 / 10) (1 / 10 ^ 5) false)
  else unknown t

/-- `parameters` (ode/test_models/Oscillator.h:45-51, CoupledNonlinearOscillators.h:57-65, StiffOde1D.h:43-48,
SlidingPoint.h:62-73, BouncingBall.h:94-101) -/
def Model.params (F : Fmt R) : Model R → Res Params
  | .oscillator c f => .ok ((Params.nil.put "c" (leaf (F.put c))).put "f" (leaf (F.put f)))
  | .coupled n c0 c2 f => .ok ((((Params.nil.put "n" (leaf (ofUnsigned n))).put "c0" (leaf (F.put c0))).put "c2"
      (leaf (F.put c2))).put "f" (leaf (F.put f)))
  | .stiff a => .ok (Params.nil.put "a" (leaf (F.put a)))
  | .sliding k mass f0 v0 F1 F2 omega => do
    let s ← k.show
    .ok (((((((Params.nil.put "friction" (leaf s.toList)).put "mass" (leaf (F.put mass))).put "f0" (leaf (F.put f0))).put
      "v0" (leaf (F.put v0))).put "F1" (leaf (F.put F1))).put "F2" (leaf (F.put F2))).put "omega" (leaf (F.put omega)))
  | .ball g r s _ => .ok (((Params.nil.put "gravity_acceleration" (leaf (F.put g))).put "recovery_factor"
      (leaf (F.put r))).put "stick_speed" (leaf (F.put s)))

/-- `setParameters` (ode/test_models/Oscillator.h:53-57, CoupledNonlinearOscillators.h:67-73, StiffOde1D.h:50-53,
SlidingPoint.h:75-86, BouncingBall.h:103-108) -/
def Model.set (F : Fmt R) (P : Params) : Model R → Res (Model R)
  | .oscillator c f => do
    let c ← maybeLoad P "c" (F.get ·.text) c
    let f ← maybeLoad P "f" (F.get ·.text) f
    .ok (.oscillator c f)
  | .coupled n c0 c2 f => do
    let n ← maybeLoad P "n" asUnsigned n
    let c0 ← maybeLoad P "c0" (F.get ·.text) c0
    let c2 ← maybeLoad P "c2" (F.get ·.text) c2
    let f ← maybeLoad P "f" (F.get ·.text) f
    .ok (.coupled n c0 c2 f)
  | .stiff a => do
    let a ← maybeLoad P "a" (F.get ·.text) a
    .ok (.stiff a)
  | .sliding k mass f0 v0 F1 F2 omega => do
    let k ← maybeLoad P "friction" (fun v => Friction.read (String.ofList v.text)) k
    let mass ← maybeLoad P "mass" (F.get ·.text) mass
    let f0 ← maybeLoad P "f0" (F.get ·.text) f0
    let v0 ← maybeLoad P "v0" (F.get ·.text) v0
    let F1 ← maybeLoad P "F1" (F.get ·.text) F1
    let F2 ← maybeLoad P "F2" (F.get ·.text) F2
    let omega ← maybeLoad P "omega" (F.get ·.text) omega
    .ok (.sliding k mass f0 v0 F1 F2 omega)
  | .ball g r s st => do
    let g ← maybeLoad P "gravity_acceleration" (F.get ·.text) g
    let r ← maybeLoad P "recovery_factor" (F.get ·.text) r
    let s ← maybeLoad P "stick_speed" (F.get ·.text) s
    .ok (.ball g r s st)

/-! ### Output options -/

/-- Output options (ode/reg/OdeSolverOutputClassesRegistrator.h:10-13): the name of the file (ode/ode_solver_output.h:70) and
the number (405, 535) -/
inductive Output
  | stats (file : Text)
  | general (file : Text)
  | solution (file : Text) (half : Nat)
  | columnwise (file : Text) (steps : Nat)
  deriving DecidableEq

/-- Type identifiers of output options (ode/reg/OdeSolverOutputClassesRegistrator.h:10-13) -/
def Output.id : Output → String
  | .stats .. => "stats_full"
  | .general .. => "con_general"
  | .solution .. => "con_solution"
  | .columnwise .. => "con_solution_columnwise"

/-- `newInstance` of output options (ode/reg/OdeSolverOutputClassesRegistrator.h:10-13); constructors
ode/ode_solver_output.h:365, 496 -/
def Output.new (t : Text) : Res Output :=
  if t = "stats_full".toList then .ok (.stats [])
  else if t = "con_general".toList then .ok (.general [])
  else if t = "con_solution".toList then .ok (.solution [] 5)
  else if t = "con_solution_columnwise".toList then .ok (.columnwise [] 10)
  else unknown t

/-- `parameters` (ode/ode_solver_output.h:46-51, 384-389, 514-519) -/
def Output.params : Output → Params
  | .stats f => Params.nil.put "file_name" (leaf f)
  | .general f => Params.nil.put "file_name" (leaf f)
  | .solution f n => (Params.nil.put "file_name" (leaf f)).put "size_half_lim" (leaf (ofUnsigned n))
  | .columnwise f n => (Params.nil.put "file_name" (leaf f)).put "max_steps" (leaf (ofUnsigned n))

/-- `setParameters` (ode/ode_solver_output.h:53-56, 391-395, 521-525) -/
def Output.set (P : Params) : Output → Res Output
  | .stats f => do
    let f ← maybeLoad P "file_name" asText f
    .ok (.stats f)
  | .general f => do
    let f ← maybeLoad P "file_name" asText f
    .ok (.general f)
  | .solution f n => do
    let f ← maybeLoad P "file_name" asText f
    let n ← maybeLoad P "size_half_lim" asUnsigned n
    .ok (.solution f n)
  | .columnwise f n => do
    let f ← maybeLoad P "file_name" asText f
    let n ← maybeLoad P "max_steps" asUnsigned n
    .ok (.columnwise f n)

/-! ### Initial state -/

/-- `varName` (ode/SpecifiedOdeInitState.h:65-67) -/
def varName (i : Nat) : String := String.ofList (initVarName i)

/-- `parameters` (ode/SpecifiedOdeInitState.h:31-40): loop from variable `i` on -/
def initVars (F : Fmt R) : Nat → List R → Params → Params
  | _, [], P => P
  | i, x :: xs, P => initVars F (i + 1) xs (P.put (varName i) (leaf (F.put x)))

/-- `parameters` (ode/SpecifiedOdeInitState.h:31-40) -/
def initParams (F : Fmt R) (s : InitState R) : Params :=
  initVars F 0 s.x ((Params.nil.put "size" (leaf (ofInt s.x.length))).put "time" (leaf (F.put s.time)))

/-- Loop of `setParameters` (ode/SpecifiedOdeInitState.h:48-50) from variable `i` on; the list has the variables from `i` on -/
def loadVars (F : Fmt R) (P : Params) : Nat → List R → Res (List R)
  | _, [] => .ok []
  | i, x :: xs => do
    let x ← maybeLoad P (varName i) (F.get ·.text) x
    let xs ← loadVars F P (i + 1) xs
    .ok (x :: xs)

/-- `setParameters` (ode/SpecifiedOdeInitState.h:42-51) -/
def initSet (F : Fmt R) (P : Params) (s : InitState R) : Res (InitState R) := do
  let s ← maybeSet P "size" (fun v s => do
    let n ← toInt v.text
    s.resize n) s
  let t ← maybeLoad P "time" (F.get ·.text) s.time
  let x ← loadVars F P 0 s.x
  .ok ⟨t, x⟩

/-- `newInstance` of initial states (ode/reg/OdeStepMappingClassesRegistrator.h:11) -/
def initNew (t : Text) : Res (InitState R) := if t = "specified".toList then .ok .new else unknown t

/-! ### Configuration -/

/-- `ParameterProvider` (ode/OdeSolverConfiguration.h:206-215) -/
structure Provider (R : Type) where
  rhs : Option (Model R)
  solver : Solver R
  ref : Solver R
  time : R
  timing : R
  basename : Text
  stats : Option Output
  con : Option Output
  file : Option Output
  init : Option (InitState R)

/-- Constructor (ode/OdeSolverConfiguration.h:109-113) -/
def Provider.new : Res (Provider R) := do
  let s ← Solver.new "rk4".toList
  .ok ⟨none, s, .null, 1 / 1000, 0, [], none, none, none, none⟩

/-- `parameters` (ode/OdeSolverConfiguration.h:115-129) -/
def Provider.params (F : Fmt R) (p : Provider R) : Res Params := do
  let m ← (match p.rhs with
    | none => .ok Config.null
    | some m => do
      let P ← m.params F
      .ok (obj m.id P) : Res Tree)
  let S ← p.solver.params F
  let T ← p.ref.params F
  let out := ptr (fun o => obj o.id o.params)
  let P := ((Params.nil.put "rhs" m).put "solver" (p.solver.node S)).put "reference_solver" (p.ref.node T)
  let P := (P.put "time" (leaf (F.put p.time))).put "output_timing" (leaf (F.put p.timing))
  let P := P.put "simout_basename" (leaf p.basename)
  let P := ((P.put "output_stats" (out p.stats)).put "output_con" (out p.con)).put "output_file" (out p.file)
  .ok (P.put "init_state" (ptr (fun s => obj "specified" (initParams F s)) p.init))

/-- `setParameters` (ode/OdeSolverConfiguration.h:131-143) -/
def Provider.set (F : Fmt R) (P : Params) (p : Provider R) : Res (Provider R) := do
  let m ← maybeLoad P "rhs" (asPtr Model.new (Model.set F)) p.rhs
  let s ← maybeLoad P "solver" (Solver.load F) p.solver
  let r ← maybeLoad P "reference_solver" (Solver.load F) p.ref
  let t ← maybeLoad P "time" (F.get ·.text) p.time
  let o ← maybeLoad P "output_timing" (F.get ·.text) p.timing
  let b ← maybeLoad P "simout_basename" asText p.basename
  let a1 ← maybeLoad P "output_stats" (asPtr Output.new Output.set) p.stats
  let a2 ← maybeLoad P "output_con" (asPtr Output.new Output.set) p.con
  let a3 ← maybeLoad P "output_file" (asPtr Output.new Output.set) p.file
  let i ← maybeLoad P "init_state" (asPtr initNew (initSet F)) p.init
  .ok ⟨m, s, r, t, o, b, a1, a2, a3, i⟩

end

end Verif.Config
