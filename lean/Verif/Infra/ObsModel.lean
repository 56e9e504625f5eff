import Verif.Basic

/-
Model of include/ode_num_int/infra/cxx_observers.h.

`std::map<int, T>` is a list of pairs sorted by key. Identifiers are integers; adding one to the
largest `int` is undefined. Failed ASSERTs do nothing.
-/

namespace Verif.Infra

/-- `m_elements` (cxx_observers.h:74) -/
abbrev Elems (T : Type) := List (Int × T)

variable {T : Type}

/-- `m_elements[id] = element` of `std::map` (cxx_observers.h:45) -/
def Elems.put (id : Int) (x : T) : Elems T → Elems T
  | [] => [(id, x)]
  | (k, y) :: l =>
    if id < k then (id, x) :: (k, y) :: l
    else if id = k then (id, x) :: l
    else (k, y) :: Elems.put id x l

/-- `newId` (cxx_observers.h:75-84) -/
def Elems.newId (m : Elems T) : Res Int :=
  match m.getLast? with
  | none => .ok 1
  | some (k, _) => if k = 2147483647 then .error .ub else .ok (k + 1)

/-- `add` (cxx_observers.h:42-47): the new contents and the identifier -/
def Elems.add (m : Elems T) (x : T) : Res (Elems T × Int) := do
  let id ← m.newId
  .ok (m.put id x, id)

/-- `remove` (cxx_observers.h:53-61) -/
def Elems.remove (id : Int) : Elems T → Elems T
  | [] => []
  | (k, y) :: l => if k = id then l else (k, y) :: Elems.remove id l

/-- `clear` (cxx_observers.h:64-66) -/
def Elems.clear (_ : Elems T) : Elems T := []

/-- `Observers::operator()` (cxx_observers.h:204-207) for callbacks that change a state `σ` and may
throw -/
def Elems.call {A σ : Type} (m : Elems (A → σ → Res σ)) (a : A) (s : σ) : Res σ :=
  m.foldlM (fun s e => e.2 a s) s

/-- `TerminatingObservers::operator()` (cxx_observers.h:229-234) -/
def Elems.callTerm {A σ : Type} (m : Elems (A → σ → Res (Bool × σ))) (a : A) (s : σ) :
    Res (Bool × σ) :=
  m.foldlM (fun (r : Bool × σ) e => do
    let (b, s) ← e.2 a r.2
    .ok (b || r.1, s)) (false, s)

/-- `ScopedIdentifiedElement::finish`, also the destructor (cxx_observers.h:126-128, 143-148). A scope
is its `m_id`; the sequence it refers to is passed to its functions. -/
def scopeFinish (m : Elems T) (s : Int) : Elems T × Int :=
  if s ≠ -1 then (m.remove s, -1) else (m, s)

/-- Constructor of ScopedIdentifiedElement (cxx_observers.h:116-120) -/
def scopeOpen (m : Elems T) (x : T) : Res (Elems T × Int) := m.add x

/-- Move constructor (cxx_observers.h:133-135): the new scope and what becomes of the old -/
def scopeMove (s : Int) : Int × Int := (s, -1)

/-- A callback: a function, or one added by `forwardObservers` (cxx_observers.h:242-246, 252-257),
which calls the observers of another object. -/
inductive Cb (A σ : Type) where
  | fn (f : A → σ → Res (Bool × σ))
  | forward (callee : Nat)

/-- Call of object `o` where callbacks may be forwarded to other objects; `net o` are the
callbacks of object `o`; `none` if more than `fuel` calls are nested. -/
def callNet {A σ : Type} (net : Nat → Elems (Cb A σ)) : Nat → Nat → A → σ → Option (Res (Bool × σ))
  | 0, _, _, _ => none
  | fuel + 1, o, a, s =>
    (net o).foldl (fun (acc : Option (Res (Bool × σ))) e =>
      match acc with
      | some (.ok (b, s)) =>
        match e.2 with
        | .fn f => some (match f a s with
          | .ok (b', s') => .ok (b' || b, s')
          | .error e => .error e)
        | .forward c =>
          match callNet net fuel c a s with
          | some (.ok (b', s')) => some (.ok (b' || b, s'))
          | r => r
      | r => r) (some (.ok (false, s)))

/-- What a callback may do to the sequence it is called from -/
inductive Edit (T : Type) where
  /-- cxx_observers.h:42-47 -/
  | add (x : T)
  /-- cxx_observers.h:53-61 -/
  | remove (id : Int)
  /-- cxx_observers.h:64-66 -/
  | clear

/-- cxx_observers.h:42-66 -/
def Edit.apply (m : Elems T) : Edit T → Res (Elems T)
  | .add x => do
    let (m, _) ← m.add x
    .ok m
  | .remove id => .ok (m.remove id)
  | .clear => .ok m.clear

/-- Erasing the element an iterator points to invalidates the iterator. -/
def Edit.erases (id : Int) : Edit T → Bool
  | .add _ => false
  | .remove id' => decide (id' = id)
  | .clear => true

/-- `Observers::operator()` (cxx_observers.h:204-207) when callbacks may change the sequence during
the call. `e` is the element the iterator points to, `behav` tells what a callback does to the
sequence and to a state. The third component of the result is not in the code: identifiers of the
callbacks invoked. `none` if more than `fuel` callbacks are invoked. -/
def callMut {σ : Type} (behav : T → σ → Res (List (Edit T) × σ)) :
    Nat → Int × T → Elems T → σ → Option (Res (Elems T × σ × List Int))
  | 0, _, _, _ => none
  | fuel + 1, e, m, s =>
    match behav e.2 s with
    | .error f => some (.error f)
    | .ok (edits, s) =>
      match edits.foldlM Edit.apply m with
      | .error f => some (.error f)
      | .ok m =>
        if edits.any (Edit.erases e.1) then some (.error .ub)
        else match m.find? (fun e' => decide (e.1 < e'.1)) with
          | none => some (.ok (m, s, [e.1]))
          | some e' =>
            match callMut behav fuel e' m s with
            | some (.ok (m, s, ids)) => some (.ok (m, s, e.1 :: ids))
            | r => r

end Verif.Infra
