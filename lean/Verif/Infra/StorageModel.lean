import Verif.Infra.ParamsModel

/-
Model of include/ode_num_int/infra/PerTypeStorage.h and of the factories of infra/Factory.h as they use it.

Simplifications:
 * a type is an element of `Ty` with the name `typeid` gives it and the type of its values; that names differ is not
   assumed here, the C++ standard does not require it;
 * the storage is a list of entries with distinct keys, in the order of their creation and not of keys;
 * a reference to a storage cell is the key of the cell;
 * access to a cell as another type than it was made with (`reinterpret_cast`, PerTypeStorage.h:46) is undefined behaviour;
 * a generator is the number of the type whose instances it makes.
-/

namespace Verif.Infra.Storage

open Verif.Infra

/-- The types of a program -/
structure Types where
  Ty : Type
  dec : DecidableEq Ty
  name : Ty → Text
  Val : Ty → Type
  init : ∀ t, Val t

attribute [instance] Types.dec

/-- `Data` (PerTypeStorage.h:49): entries with the type of the value pointed to -/
abbrev Data (p : Types) := List (Text × (t : p.Ty) × p.Val t)

/-- `m_data` (PerTypeStorage.h:58, src/PerTypeStorage.cpp:7); `none` for the null pointer it is initialised with -/
abbrev State (p : Types) := Option (Data p)

section
variable {p : Types}

/-- The key of the cell of `ClassType` and `ValueType` (PerTypeStorage.h:32) -/
def key (p : Types) (c t : p.Ty) : Text := p.name c ++ " / ".toList ++ p.name t

/-- `data` (PerTypeStorage.h:51-56) -/
def data (s : State p) : Data p := s.getD []

/-- `value` (PerTypeStorage.h:31-47): the storage afterwards and the value of the cell referred to -/
def value (s : State p) (c t : p.Ty) : Res (State p × p.Val t) :=
  match findKV (key p c t) (data s) with
  | none => .ok (some (insertKV (key p c t) ⟨t, p.init t⟩ (data s)), p.init t)
  | some ⟨t', x⟩ => if h : t' = t then .ok (some (data s), h ▸ x) else .error .ub

/-- Assignment to the reference `value` returns (as in Factory.h:103, 195) -/
def assign (s : State p) (c t : p.Ty) (x : p.Val t) : Res (State p) := do
  let (s, _) ← value s c t
  .ok (some (insertKV (key p c t) ⟨t, x⟩ (data s)))

/-- What a program does with the storage -/
inductive Op (p : Types) where
  | read (c t : p.Ty)
  | write (c t : p.Ty) (x : p.Val t)

/-- A use of the storage (PerTypeStorage.h:31-33) -/
def step (s : State p) : Op p → Res (State p)
  | .read c t => do
    let (s, _) ← value s c t
    .ok s
  | .write c t x => assign s c t x

/-- A program, from the state it starts in (src/PerTypeStorage.cpp:7) -/
def run (l : List (Op p)) : Res (State p) := l.foldlM step none

end

/-! ## Factories -/

/-- The types factories use: interfaces and implementations are numbers. `Factory<I>`, its `Registry`, `FactoryMixin<T, I>`
(Factory.h:76, 137, 179) and `std::string` -/
inductive FTy where
  | factory (i : Nat)
  | registry (i : Nat)
  | mixin (ty i : Nat)
  | string
  deriving DecidableEq

/-- Their values: registries (Factory.h:137) and type identifiers (Factory.h:29) are stored, nothing else is -/
abbrev FTy.Val : FTy → Type
  | registry _ => List (Text × Nat)
  | string => Text
  | _ => Unit

/-- Default-constructed values (PerTypeStorage.h:41) -/
def FTy.init : ∀ t : FTy, t.Val
  | registry _ => ([] : List (Text × Nat))
  | string => ([] : Text)
  | factory _ => ()
  | mixin _ _ => ()

/-- The types of a program with factories, with their names -/
abbrev factories (name : FTy → Text) : Types := ⟨FTy, inferInstance, name, FTy.Val, FTy.init⟩

section
variable {name : FTy → Text}

/-- `registry` (Factory.h:138-140) -/
def registry (s : State (factories name)) (i : Nat) : Res (State (factories name) × List (Text × Nat)) :=
  value s (.factory i) (.registry i)

/-- Constructor of `FactoryMixin<ty, i>::Registrator` (Factory.h:193-196, with `registerType`, 99-104, where the ASSERT does
nothing) -/
def register (s : State (factories name)) (ty i : Nat) (id : Text) : Res (State (factories name)) := do
  let (s, r) ← registry s i
  let s ← assign s (.factory i) (.registry i) (insertKV id ty r)
  assign s (.mixin ty i) .string id

/-- `Factory<i>::newInstance` (Factory.h:111-118): the type of the instance -/
def newInstance (s : State (factories name)) (i : Nat) (id : Text) : Res (State (factories name) × Nat) := do
  let (s, r) ← registry s i
  match findKV id r with
  | none => .error (.exc (String.ofList ("Failed to find type '".toList ++ id ++ "' in registry".toList)))
  | some ty => .ok (s, ty)

/-- `Factory<i>::registeredTypes` (Factory.h:122-128); the order is that of registration -/
def registeredTypes (s : State (factories name)) (i : Nat) : Res (State (factories name) × List Text) := do
  let (s, r) ← registry s i
  .ok (s, r.map Prod.fst)

/-- `FactoryMixin<ty, i>::staticTypeId` (Factory.h:201-203) -/
def staticTypeId (s : State (factories name)) (ty i : Nat) : Res (State (factories name) × Text) :=
  value s (.mixin ty i) .string

/-- The `Registrator` objects of a program: type, interface, type identifier (Factory.h:185-197); they are made one after
another before `main`, in an order the program does not control. -/
def registered (l : List (Nat × Nat × Text)) : Res (State (factories name)) :=
  l.foldlM (fun s a => register s a.1 a.2.1 a.2.2) none

end

end Verif.Infra.Storage
