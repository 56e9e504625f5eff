import Verif.Basic
import Mathlib.Algebra.Order.Ring.Abs

/-
Model of include/ode_num_int/la/VectorTemplate.h.

A vector is the list of its elements. Operands are expressions built by the view classes, and may
refer to the vector that is being changed, so every operation gets the current contents `mem` of
that vector. A failed operation returns the contents it leaves behind.

Simplifications: exact arithmetic; nested writable blocks are one block (their `at` and `begin`
add up the offsets); forming a pointer outside of the vector is not counted as undefined, only
using it; `std::copy` copies forward one by one.
-/

namespace Verif.Vec

open Verif.Res

/-- Operands (VectorTemplate.h:18-100, 104-180, 182-290): the vector being changed, another vector,
a block of an operand, a scaled operand. -/
inductive Src (K : Type) where
  | self
  | vec (l : List K)
  | block (s : Src K) (start size : Nat)
  | scale (s : Src K) (c : K)

/-- What is changed: `size` elements from `start` of a vector (VectorTemplate.h:104-180); for a
whole vector, `start` is zero and `size` its size. -/
structure Tgt where
  start : Nat
  size : Nat

section
variable {K : Type} [CommRing K]

/-- `size` (VectorTemplate.h:83-85, 165-167, 283-285) -/
def Src.size (mem : List K) : Src K → Nat
  | .self => mem.length
  | .vec l => l.length
  | .block _ _ n => n
  | .scale s _ => s.size mem

/-- `at`, `operator[]` (VectorTemplate.h:39-53, 121-139, 259-267); a block does not check the
index against its own size (the check is an ASSERT). -/
def Src.at (mem : List K) : Src K → Nat → Res K
  | .self, i => at' mem i
  | .vec l, i => at' l i
  | .block s start _, i => s.at mem (i + start)
  | .scale s c, i => do .ok ((← s.at mem i) * c)

/-- `*(begin() + i)` (VectorTemplate.h:55-63, 141-149, 207-209, 269-274) -/
def Src.deref (mem : List K) : Src K → Nat → Res K
  | .self, i => raw mem i
  | .vec l, i => raw l i
  | .block s start _, i => s.deref mem (i + start)
  | .scale s c, i => do .ok ((← s.deref mem i) * c)

/-- A loop over `i` that changes a vector; if the body fails, the vector is left as it was before
that iteration. -/
def runFrom (f : Nat → List K → Res (List K)) : Nat → Nat → List K → List K × Option Fault
  | 0, _, m => (m, none)
  | n + 1, i, m =>
    match f i m with
    | .ok m' => runFrom f n (i + 1) m'
    | .error e => (m, some e)

/-- `operator+=` (VectorTemplate.h:340-347) -/
def addAssign (mem : List K) (t : Tgt) (s : Src K) : List K × Option Fault :=
  runFrom (fun i m => do
    let a ← at' m (i + t.start)
    let b ← s.at m i
    atSet m (i + t.start) (a + b)) t.size 0 mem

/-- `operator-=` (VectorTemplate.h:349-356) -/
def subAssign (mem : List K) (t : Tgt) (s : Src K) : List K × Option Fault :=
  runFrom (fun i m => do
    let a ← at' m (i + t.start)
    let b ← s.at m i
    atSet m (i + t.start) (a - b)) t.size 0 mem

/-- `operator*=` (VectorTemplate.h:358-363) -/
def mulAssign (mem : List K) (t : Tgt) (c : K) : List K × Option Fault :=
  runFrom (fun i m => do
    let a ← at' m (i + t.start)
    atSet m (i + t.start) (a * c)) t.size 0 mem

/-- `dot` (VectorTemplate.h:365-373) -/
def dot (mem : List K) (a b : Src K) : Res K :=
  loop 0 (a.size mem) (fun i r => do
    let x ← a.at mem i
    let y ← b.at mem i
    .ok (r + x * y)) 0

/-- `std::copy( that.begin(), that.end(), begin() )` to position `start` -/
def copyTo (mem : List K) (start : Nat) (s : Src K) : List K × Option Fault :=
  runFrom (fun i m => do
    let v ← s.deref m i
    rawSet m (i + start) v) (s.size mem) 0 mem

/-- `resize` (VectorTemplate.h:75-77) -/
def resize (mem : List K) (n : Nat) : List K := (mem ++ List.replicate n 0).take n

/-- `VectorData::assign`, assignment to a vector (VectorTemplate.h:91-96, 323-338) -/
def assign (mem : List K) (s : Src K) : List K × Option Fault :=
  copyTo (resize mem (s.size mem)) 0 s

/-- `Block::assign`, assignment to a block (VectorTemplate.h:169-174, 323-338) -/
def assignBlock (mem : List K) (t : Tgt) (s : Src K) : List K × Option Fault :=
  copyTo mem t.start s

/-- `clear` of a vector (VectorTemplate.h:79-81) -/
def clear (mem : List K) : List K := List.replicate mem.length 0

/-- `clear` of a block (VectorTemplate.h:161-163) -/
def clearBlock (mem : List K) (t : Tgt) : List K × Option Fault :=
  runFrom (fun i m => rawSet m (i + t.start) 0) t.size 0 mem

/-- Values met by `for( v : *this )` -/
def elems (mem : List K) (s : Src K) : Res (List K) :=
  loop 0 (s.size mem) (fun i l => do .ok (l ++ [← s.deref mem i])) []

/-- Copy constructor and `clone` (VectorTemplate.h:314-317, 395-397) -/
def clone (mem : List K) (s : Src K) : Res (List K) :=
  loop 0 (s.size mem) (fun i l => do rawSet l i (← s.deref mem i))
    (List.replicate (s.size mem) 0)

/-- The operand when another vector is being changed -/
def Src.fixed (mem : List K) : Src K → Src K
  | .self => .vec mem
  | .vec l => .vec l
  | .block s start n => .block (s.fixed mem) start n
  | .scale s c => .scale (s.fixed mem) c

/-- `operator+` (VectorTemplate.h:427-433) -/
def add (mem : List K) (a b : Src K) : Res (List K) := do
  let r ← clone mem a
  match addAssign r ⟨0, r.length⟩ (b.fixed mem) with
  | (r, none) => .ok r
  | (_, some e) => .error e

/-- `operator-` (VectorTemplate.h:435-441) -/
def sub (mem : List K) (a b : Src K) : Res (List K) := do
  let r ← clone mem a
  match subAssign r ⟨0, r.length⟩ (b.fixed mem) with
  | (r, none) => .ok r
  | (_, some e) => .error e

/-- `vectorMemberwiseUnaryOp` (VectorTemplate.h:469-479) -/
def unaryOp (mem : List K) (a : Src K) (op : K → K) : Res (List K) :=
  loop 0 (a.size mem) (fun i l => do
    let x ← a.at mem i
    atSet l i (op x)) (List.replicate (a.size mem) 0)

/-- `vectorMemberwiseBinaryOp` (VectorTemplate.h:481-493) -/
def binaryOp (mem : List K) (a b : Src K) (op : K → K → K) : Res (List K) :=
  loop 0 (a.size mem) (fun i l => do
    let x ← a.at mem i
    let y ← b.at mem i
    atSet l i (op x y)) (List.replicate (a.size mem) 0)

end

section
variable {K : Type} [CommRing K] [LinearOrder K]

/-- `infNorm` (VectorTemplate.h:399-405) -/
def infNorm (mem : List K) (s : Src K) : Res K := do
  .ok ((← elems mem s).foldl (fun r v => max r |v|) 0)

/-- `oneNorm` (VectorTemplate.h:407-413) -/
def oneNorm (mem : List K) (s : Src K) : Res K := do
  .ok ((← elems mem s).foldl (fun r v => r + |v|) 0)

/-- `euclideanNormSquare` (VectorTemplate.h:415-421) -/
def euclideanNormSquare (mem : List K) (s : Src K) : Res K := do
  .ok ((← elems mem s).foldl (fun r v => r + v * v) 0)

end

section
variable {K : Type}

/-- State of the loop of `toString`: index and text so far. One iteration (VectorTemplate.h:447-456)
for the number `n` of elements and the limit `L`, both 32-bit; `2*sizeHalfLimit` wraps. -/
def toStringStep (sh : K → String) (l : List K) (n L : Nat) (i : Nat) (out : String) :
    Res (Nat × String) := do
  let out := if 0 < i then out ++ ", " else out
  if i = L ∧ (2 * L) % 4294967296 < n then .ok (n - L, out ++ "...")
  else do
    let v ← at' l i
    .ok (i + 1, out ++ sh v)

/-- Loop of `toString`; `none` if it takes more than the given number of iterations -/
def toStringLoop (sh : K → String) (l : List K) (n L : Nat) :
    Nat → Nat → String → Option (Res String)
  | 0, _, _ => none
  | fuel + 1, i, out =>
    if i < n then
      match toStringStep sh l n L i out with
      | .ok (i', out') => toStringLoop sh l n L fuel i' out'
      | .error e => some (.error e)
    else some (.ok out)

/-- `toString` (VectorTemplate.h:443-459); `sh` is the text of an element. -/
def toString (sh : K → String) (l : List K) (L fuel : Nat) : Option (Res String) :=
  match toStringLoop sh l (l.length % 4294967296) L fuel 0 "[" with
  | some (.ok out) => some (.ok (out ++ "]"))
  | r => r

end

end Verif.Vec
