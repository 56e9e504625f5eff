import Verif.Basic
import Mathlib.Algebra.Ring.Defs
import Mathlib.Algebra.Order.Group.Unbundled.Abs

/-
Model of include/ode_num_int/la/SparseMatrixTemplate.h.

Simplifications, common to all definitions:
 * `std::map<Index, element_type>` is a list of (key, value) pairs kept in strictly increasing
   key order (by the map's own operations, this is proved, not assumed);
 * indices are natural numbers; index additions in views do not wrap;
 * element arithmetic is exact, in an arbitrary ring;
 * ASSERT does nothing (release build).
-/

namespace Verif.Sparse

open Verif.Res

/-- `Index` (SparseMatrixTemplate.h:36): a pair (row, column). -/
abbrev Index := Nat × Nat

/-- `operator<` of `std::pair<unsigned, unsigned>`: lexicographic. -/
def ltI (a b : Index) : Bool := a.1 < b.1 || (a.1 == b.1 && a.2 < b.2)

variable {K : Type _}

/-- Contents of `SparseMatrixData::m_data` (SparseMatrixTemplate.h:167). -/
abbrev Data (K : Type _) := List (Index × K)

namespace Data

/-- `m_data.find(index)` -/
def find (m : Data K) (i : Index) : Option K := (m.find? (fun e => e.1 == i)).map (·.2)

/-- `get(index)` (78-81), also `operator[]` (97-99) and `get(r,c)` (83-85) -/
def get [Zero K] (m : Data K) (i : Index) : K :=
  match m.find i with
  | some v => v
  | none => 0

/-- `hasIndex` (87-89) -/
def hasIndex (m : Data K) (i : Index) : Bool := (m.find i).isSome

/-- `checkedGet` (91-95) -/
def checkedGet [Zero K] (m : Data K) (i : Index) : K × Bool :=
  match m.find i with
  | some v => (v, true)
  | none => (0, false)

/-- `at(index) = f(at(index))` (101-107): `m_data[index]` creates a zero element in its place
in the order if there is none; the new value is written through the reference. -/
def modify [Zero K] (m : Data K) (i : Index) (f : K → K) : Data K :=
  match m with
  | [] => [(i, f 0)]
  | e :: m =>
    if ltI i e.1 then (i, f 0) :: e :: m
    else if e.1 = i then (i, f e.2) :: m
    else e :: modify m i f

/-- `at(index) = v` -/
def set [Zero K] (m : Data K) (i : Index) (v : K) : Data K := m.modify i (fun _ => v)

/-- `removeAt` (147-152) -/
def removeAt (m : Data K) (i : Index) : Data K :=
  match m with
  | [] => []
  | e :: m => if e.1 = i then m else e :: removeAt m i

/-- `clear` (154-156) -/
def clear (_ : Data K) : Data K := []

/-- `resizeData` (137-145): one pass that erases elements outside the new size -/
def resizeData (m : Data K) (size : Index) : Data K :=
  match m with
  | [] => []
  | e :: m =>
    if e.1.1 < size.1 ∧ e.1.2 < size.2 then e :: resizeData m size else resizeData m size

/-- `priv::copyFrom` (25-30) with `left` distinct from the object behind `right`: `src` is the
sequence of elements enumerated by `right`. -/
def copyFrom [Zero K] (m : Data K) (src : List (Index × K)) : Data K :=
  src.foldl (fun m e => m.set e.1 e.2) m.clear

/-- `lower_bound(i)`: the part of the sequence from the first element not less than `i`. -/
def lowerBound (m : Data K) (i : Index) : Data K := m.dropWhile (fun e => ltI e.1 i)

/-- `upper_bound(i)`: the part of the sequence from the first element greater than `i`. -/
def upperBound (m : Data K) (i : Index) : Data K := m.dropWhile (fun e => !ltI i e.1)

/-- Elements visited from `rowBegin(row)` (129-131) to `rowEnd(row)` (133-135); `~0u` is
`2^32-1`. -/
def row (m : Data K) (r : Nat) : List (Index × K) :=
  let b := m.lowerBound (r, 0)
  let e := m.upperBound (r, 4294967295)
  b.take (b.length - e.length)

end Data

/-! ### SparseMatrixFastData -/

/-- Contents of `SparseMatrixFastData::m_data` (SparseMatrixTemplate.h:295), a vector in the
order in which the elements were copied. -/
abbrev Fast (K : Type _) := List (Index × K)

namespace Fast

/-- `copyFrom` (297-304), also the constructor (185-188) and assignments (190-200) -/
def copyFrom (src : List (Index × K)) : Fast K := src

/-- `std::lower_bound(begin(), end(), index, compare)` (204, 217, 223, 236; `compare` 306-308):
the halving loop of the standard library on positions `first .. first+len`. -/
def lowerBound (m : Fast K) (i : Index) (first len : Nat) : Nat :=
  if len = 0 then first
  else
    let half := len / 2
    match m[first + half]? with
    | none => first
    | some e =>
      if ltI e.1 i then lowerBound m i (first + half + 1) (len - half - 1)
      else lowerBound m i first half
termination_by len

/-- The iterator found by the search, if it points at an element with the searched key. -/
def search (m : Fast K) (i : Index) : Option Nat :=
  let p := lowerBound m i 0 m.length
  match m[p]? with
  | some e => if e.1 ≠ i then none else some p
  | none => none

/-- `get` (202-209) -/
def get [Zero K] (m : Fast K) (i : Index) : K :=
  match search m i with
  | some p => match m[p]? with
    | some e => e.2
    | none => 0
  | none => 0

/-- `hasIndex` (215-219) -/
def hasIndex (m : Fast K) (i : Index) : Bool := (search m i).isSome

/-- `checkedGet` (221-228) -/
def checkedGet [Zero K] (m : Fast K) (i : Index) : K × Bool :=
  match search m i with
  | some p => match m[p]? with
    | some e => (e.2, true)
    | none => (0, false)
  | none => (0, false)

/-- `at(index) = v` (234-240) -/
def set (m : Fast K) (i : Index) (v : K) : Res (Fast K) :=
  match search m i with
  | some p => .ok (List.set m p (i, v))
  | none => .error (.exc "Element is not found")

end Fast

/-! ### SparseMatrixTemplate -/

/-- `SparseMatrixTemplate<SparseMatrixData<K>>` (831-1061): contents and `m_size` -/
structure Mat (K : Type _) where
  size : Index
  data : Data K
  deriving DecidableEq

namespace Mat

/-- `SparseMatrixTemplate(rows, columns)` (841) -/
def ofSize (rows cols : Nat) : Mat K := ⟨(rows, cols), []⟩

/-- `sizeFromData` (883-891) for a sequence of elements -/
def sizeFromData (d : List (Index × K)) : Index :=
  d.foldl (fun s e => (max s.1 (e.1.1 + 1), max s.2 (e.1.2 + 1))) (0, 0)

/-- `resize` (871-877) -/
def resize (m : Mat K) (size : Index) : Mat K :=
  if m.size ≠ size then ⟨size, m.data.resizeData size⟩ else m

/-- `resizeFromData` (893-895) -/
def resizeFromData (m : Mat K) : Mat K := m.resize (sizeFromData m.data)

/-- `makeZero` (897-902) -/
def makeZero [Zero K] (m : Mat K) : Mat K := ⟨m.size, m.data.map (fun e => (e.1, 0))⟩

section
variable [Ring K]

/-- `addScaledIdentity` (904-910): `for i < m_size.first: at(i,i) += scaleFactor` -/
def addScaledIdentity (m : Mat K) (a : K) : Mat K :=
  ⟨m.size, (List.range m.size.1).foldl (fun d i => d.modify (i, i) (fun x => x + a)) m.data⟩

/-- `operator+=` (916-923); `src` is the sequence of elements enumerated by `that`, a matrix or
view of other data. -/
def add (m : Mat K) (src : List (Index × K)) : Mat K :=
  ⟨m.size, src.foldl (fun d e => d.modify e.1 (fun x => x + e.2)) m.data⟩

/-- `operator-=` (925-932) -/
def sub (m : Mat K) (src : List (Index × K)) : Mat K :=
  ⟨m.size, src.foldl (fun d e => d.modify e.1 (fun x => x - e.2)) m.data⟩

/-- `operator*` (934-952). `rows` is `m_size.first`, `row r` the elements between `rowBegin(r)`
and `rowEnd(r)`, `cols` is `that.size().second` and `chk` is `that.checkedGet`. -/
def mulGen [DecidableEq K] (rows : Nat) (row : Nat → List (Index × K)) (cols : Nat)
    (chk : Index → K × Bool) : Mat K :=
  (List.range cols).foldl (fun res c =>
    (List.range rows).foldl (fun res r =>
      let product := (row r).foldl (fun p e =>
        let x := chk (e.1.2, c)
        if x.2 then p + e.2 * x.1 else p) 0
      if product ≠ 0 then ⟨res.size, res.data.set (r, c) product⟩ else res) res)
    (ofSize rows cols)

/-- `operator*` of two matrices with map data -/
def mul [DecidableEq K] (a b : Mat K) : Mat K :=
  mulGen a.size.1 (fun r => a.data.row r) b.size.2 (fun i => b.data.checkedGet i)

/-- `mulVectRight` (963-967) on raw iterators; `vd` is the destination before the call. -/
def mulVectRight (size : Index) (elems : List (Index × K)) (vs vd : List K) : Res (List K) := do
  if vd.length < size.1 then .error .ub
  else
    elems.foldlM (fun vd e => do
      let x ← raw vs e.1.2
      let y ← raw vd e.1.1
      rawSet vd e.1.1 (y + e.2 * x))
      (List.replicate size.1 0 ++ vd.drop size.1)

/-- `mulVectLeft` (970-974) -/
def mulVectLeft (size : Index) (elems : List (Index × K)) (vs vd : List K) : Res (List K) := do
  if vd.length < size.2 then .error .ub
  else
    elems.foldlM (fun vd e => do
      let x ← raw vs e.1.1
      let y ← raw vd e.1.2
      rawSet vd e.1.2 (y + e.2 * x))
      (List.replicate size.2 0 ++ vd.drop size.2)

/-- `operator*(matrix, vector)` (1066-1072) -/
def mulVec (m : Mat K) (v : List K) : Res (List K) :=
  mulVectRight m.size m.data v (List.replicate m.size.1 0)

/-- `operator*(vector, matrix)` (1074-1081): the result is created with `m.size().first`
components. -/
def vecMul (v : List K) (m : Mat K) : Res (List K) :=
  mulVectLeft m.size m.data v (List.replicate m.size.1 0)

/-- `identity`, `scaledIdentity` (1036-1048) -/
def scaledIdentity (n : Nat) (a : K) : Mat K := addScaledIdentity (ofSize n n) a

end

section
variable [Ring K] [Lattice K]

/-- `infNorm` (1008-1014) -/
def infNorm (d : List (Index × K)) : K := d.foldl (fun r e => r ⊔ |e.2|) 0
/-- `oneNorm` (1016-1022) -/
def oneNorm (d : List (Index × K)) : K := d.foldl (fun r e => r + |e.2|) 0
/-- `euclideanNormSquare` (1024-1030) -/
def normSq (d : List (Index × K)) : K := d.foldl (fun r e => r + e.2 * e.2) 0

end

/-- Copy construction from another matrix or view (847-852) and assignment `doAssign`
(1054-1060) when the source does not refer to the destination. -/
def assign [Zero K] (_dest : Mat K) (size : Index) (src : List (Index × K)) : Mat K :=
  ⟨size, Data.copyFrom [] src⟩

end Mat

/-! ### Views -/

/-- `SparseMatrixProxy::Block` (314-531) over the map data of a matrix, together with the
`m_size` of the `SparseMatrixTemplate` around it (976-981), which equals the block size. -/
structure Block where
  from_ : Index
  size : Index

namespace Block

/-- `sourceIndex` (519-523) -/
def sourceIndex (b : Block) (i : Index) : Index := (i.1 + b.from_.1, i.2 + b.from_.2)

/-- `get(const Index&)` (338-340) -/
def get [Zero K] (b : Block) (src : Data K) (i : Index) : K := src.get (b.sourceIndex i)

/-- `get(r, c)` (342-344) -/
def get2 [Zero K] (_b : Block) (src : Data K) (r c : Nat) : K := src.get (r, c)

/-- `hasIndex` (350-352) -/
def hasIndex (b : Block) (src : Data K) (i : Index) : Bool := src.hasIndex (b.sourceIndex i)

/-- `checkedGet` (354-356) -/
def checkedGet [Zero K] (b : Block) (src : Data K) (i : Index) : K × Bool :=
  src.checkedGet (b.sourceIndex i)

/-- `at(index) = v` (358-360) -/
def set [Zero K] (b : Block) (src : Data K) (i : Index) (v : K) : Data K :=
  src.set (b.sourceIndex i) v

/-- `isValid` of the iterator (433-442) -/
def isValid (b : Block) (i : Index) : Bool :=
  b.from_.1 ≤ i.1 && i.1 < b.from_.1 + b.size.1 && b.from_.2 ≤ i.2 && i.2 < b.from_.2 + b.size.2

/-- Elements enumerated from `begin()` to `end()` (369-472): the iterator skips invalid source
elements and translates the index (`destinationIndex` 525-530). -/
def elems (b : Block) (src : Data K) : List (Index × K) :=
  match src with
  | [] => []
  | e :: src =>
    if b.isValid e.1 then ((e.1.1 - b.from_.1, e.1.2 - b.from_.2), e.2) :: elems b src
    else elems b src

/-- `removeAt` (484-486) -/
def removeAt (b : Block) (src : Data K) (i : Index) : Data K := src.removeAt (b.sourceIndex i)

/-- `clear` (488-495): the iterator is advanced before its element is erased. -/
def clear (b : Block) (src : Data K) : Data K :=
  (b.elems src).foldl (fun s e => b.removeAt s e.1) src

/-- `count` (497-507) -/
def count (b : Block) (src : Data K) : Nat := (b.elems src).length

/-- Assignment to a block (332-336, `priv::copyFrom` 25-30) from elements of other data -/
def assign [Zero K] (b : Block) (src : Data K) (that : List (Index × K)) : Data K :=
  that.foldl (fun s e => b.set s e.1 e.2) (b.clear src)

end Block

/-! `SparseMatrixProxy::Transpose` (534-688) -/
namespace Transpose

/-- `transposedIndex` (685-687) -/
def idx (i : Index) : Index := (i.2, i.1)

/-- `get(const Index&)` (546-548) -/
def get [Zero K] (src : Data K) (i : Index) : K := src.get (idx i)

/-- `get(r, c)` (550-552) -/
def get2 [Zero K] (src : Data K) (r c : Nat) : K := src.get (r, c)

/-- `hasIndex` (558-560) -/
def hasIndex (src : Data K) (i : Index) : Bool := src.hasIndex (idx i)

/-- `checkedGet` (562-564) -/
def checkedGet [Zero K] (src : Data K) (i : Index) : K × Bool := src.checkedGet (idx i)

/-- `at(index) = v` (566-568) -/
def set [Zero K] (src : Data K) (i : Index) (v : K) : Data K := src.set (idx i) v

/-- Elements enumerated by the iterator (577-655), in the order of the source -/
def elems (src : Data K) : List (Index × K) := src.map (fun e => (idx e.1, e.2))

/-- `m_size` of the view returned by `transposed()` (997-1002) -/
def size (m : Mat K) : Index := m.size

end Transpose

/-! `SparseMatrixProxy::Scale` (691-821) -/
namespace Scale
variable [Ring K]

/-- `get` (767-773) -/
def get (src : Data K) (a : K) (i : Index) : K := src.get i * a

/-- `checkedGet` (783-787) -/
def checkedGet (src : Data K) (a : K) (i : Index) : K × Bool :=
  let r := src.checkedGet i
  (r.1 * a, r.2)

/-- Elements enumerated by the iterator (702-764) -/
def elems (src : Data K) (a : K) : List (Index × K) := src.map (fun e => (e.1, e.2 * a))

end Scale

/-! ### Assignment from a view of the same matrix -/

/-- `m = m.transposed()`: `doAssign` (1054-1060) takes the size of the view, then
`priv::copyFrom` (25-30) clears the destination, which is the data behind the view, and
enumerates the view afterwards. -/
def assignOwnTranspose [Zero K] (m : Mat K) : Mat K :=
  ⟨Transpose.size m, Data.copyFrom m.data (Transpose.elems m.data.clear)⟩

/-- Loop of `m += m.transposed()` (916-923): the view is enumerated by an iterator of the map
that is being extended; `cur` is the key the iterator stands at, `fuel` bounds the number of
steps. After a step the iterator moves to the next greater key of the map as it is then. -/
def addOwnTransposeFrom [Ring K] : Nat → Data K → List (Index × K) → Data K
  | 0, d, _ => d
  | _, d, [] => d
  | fuel + 1, d, (i, v) :: _ =>
    let d' := d.modify (Transpose.idx i) (fun x => x + v)
    addOwnTransposeFrom fuel d' (d'.upperBound i)

/-- `m += m.transposed()`. The map never exceeds twice its initial size, so the fuel suffices. -/
def addOwnTranspose [Ring K] (m : Mat K) : Mat K :=
  ⟨m.size, addOwnTransposeFrom (2 * m.data.length + 1) m.data m.data⟩

end Verif.Sparse
