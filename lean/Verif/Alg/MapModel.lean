import Verif.Vec.Model
import Verif.Sparse.Model
import Mathlib.Algebra.Field.Basic
import Mathlib.Data.List.Sort

/-
Model of include/ode_num_int/alg/: interfaces/VectorMapping.h, DiagonalMapping.h,
interfaces/VectorBijectiveMapping.h, VectorReorderingMapping.h, VectorNarrowingMapping.h,
MappingNormalizer.h, computeJacobian.h.

Simplifications: exact arithmetic; a mapping is a function of its argument (what the destination
held before does not matter, observers only observe, pointers to the wrapped mapping are not null);
ASSERT does nothing; `std::sort` is insertion sort; square root and 1e-6 are parameters.
-/

namespace Verif.Alg

open Verif.Res

/-- `VectorMapping` (interfaces/VectorMapping.h:22-52) -/
structure Mapping (K : Type) where
  inSize : Nat
  outSize : Nat
  map : List K → Res (List K)

section
variable {K : Type} [Field K] [DecidableEq K]

/-! ### DiagonalMapping -/

/-- `DiagonalMapping::map` (DiagonalMapping.h:27-34) -/
def diagMap (d x : List K) : Res (List K) :=
  loop 0 x.length (fun i dst => do
    let a ← at' x i
    let b ← at' d i
    atSet dst i (a * b)) (List.replicate x.length 0)

/-- `DiagonalMapping::unmap` (DiagonalMapping.h:36-43) -/
def diagUnmap (d x : List K) : Res (List K) :=
  loop 0 x.length (fun i dst => do
    let a ← at' x i
    let b ← at' d i
    let q ← div a b
    atSet dst i q) (List.replicate x.length 0)

/-- The mapping with its sizes (DiagonalMapping.h:19-25) -/
def diagonal (d : List K) : Mapping K := ⟨d.length, d.length, diagMap d⟩

/-- `inv()` (interfaces/VectorBijectiveMapping.h:29-64) of a diagonal mapping -/
def diagonalInv (d : List K) : Mapping K := ⟨d.length, d.length, diagUnmap d⟩

/-! ### VectorReorderingMapping -/

/-- `order` (VectorReorderingMapping.h:148-155); every element of the destination is assigned. -/
def order (x : List K) (ord : List Nat) : Res (List K) :=
  loop 0 ord.length (fun i dst => do
    let k ← raw ord i
    let v ← at' x k
    atSet dst i v) (List.replicate ord.length 0)

/-- `unorder` (VectorReorderingMapping.h:158-165); `dst` is what the destination held before. -/
def unorder (dst x : List K) (ord : List Nat) : Res (List K) :=
  loop 0 ord.length (fun i dst => do
    let k ← raw ord i
    let v ← at' x i
    atSet dst k v) (Vec.resize dst ord.length)

/-- `VectorReorderingMapping` (VectorReorderingMapping.h:41-50, 115-121) with given orderings;
`maybeInit` does nothing. -/
def reordered (F : Mapping K) (inp out : List Nat) : Mapping K :=
  ⟨F.inSize, F.outSize, fun x => do
    let xu ← unorder [] x inp
    let dstu ← F.map xu
    order dstu out⟩

/-! ### VectorNarrowingMapping -/

/-- `std::unique`: drops an element equal to the one kept before it -/
def unique : List Nat → List Nat
  | [] => []
  | [a] => [a]
  | a :: b :: l => if a = b then unique (b :: l) else a :: unique (b :: l)

/-- `normalizedIndices` (VectorNarrowingMapping.h:132-140) -/
def normalizedIndices (l : List Nat) : List Nat := unique (l.insertionSort (· ≤ ·))

/-- `checkIndices` (VectorNarrowingMapping.h:142-148) -/
def checkIndices (l : List Nat) (size : Nat) (msg : String) : Res Unit :=
  if l.all (· < size) then .ok () else .error (.exc msg)

/-- The wrapped mapping, `m_disabledInputIndices`, `m_disabledOutputIndices`, `m_state`
(VectorNarrowingMapping.h:128-130) -/
structure Narrow (K : Type) where
  F : Mapping K
  disIn : List Nat
  disOut : List Nat
  state : List K

/-- As constructed around a mapping -/
def Narrow.new (F : Mapping K) : Narrow K := ⟨F, [], [], []⟩

/-- `setInputNarrowing` (VectorNarrowingMapping.h:29-34) -/
def Narrow.setInputNarrowing (m : Narrow K) (l : List Nat) (state : List K) : Res (Narrow K) := do
  checkIndices l m.F.inSize "VectorNarrowingMapping::setInputNarrowing() failed: invalid index"
  .ok { m with disIn := normalizedIndices l, state := state }

/-- `setOutputNarrowing` (VectorNarrowingMapping.h:40-44) -/
def Narrow.setOutputNarrowing (m : Narrow K) (l : List Nat) : Res (Narrow K) := do
  checkIndices l m.F.outSize "VectorNarrowingMapping::setOutputNarrowing() failed: invalid index"
  .ok { m with disOut := normalizedIndices l }

/-- The loop `while( true )` of `reduce` up to the assignment (VectorNarrowingMapping.h:160-168):
from the index `is` and the disabled indices not passed yet to the next enabled index and the
disabled indices then left. -/
def skip : Nat → List Nat → Nat × List Nat
  | is, [] => (is, [])
  | is, d :: ds => if d < is then skip is ds else if d = is then skip (is + 1) ds else (is, d :: ds)

/-- `reduce` (VectorNarrowingMapping.h:150-172). If there are more disabled indices than elements,
the size wraps around and `resize` throws. -/
def reduce (x : List K) (dis : List Nat) : Res (List K) :=
  if dis.isEmpty then .ok x
  else if x.length < dis.length then .error (.exc "length_error")
  else do
    let r ← loop 0 (x.length - dis.length) (fun i st => do
        let (is, ds) := skip st.1 st.2.1
        let v ← at' x is
        let dst ← atSet st.2.2 i v
        .ok (is + 1, ds, dst))
      ((0, dis, List.replicate (x.length - dis.length) 0) : Nat × List Nat × List K)
    .ok r.2.2

/-- `widenInput` (VectorNarrowingMapping.h:54-72); the loop state is the disabled indices not passed
yet, `in` and the destination. -/
def Narrow.widenInput (m : Narrow K) (src : List K) : Res (List K) :=
  if m.disIn.isEmpty then .ok src
  else do
    let r ← loop 0 m.F.inSize (fun is st => do
        let ds := st.1.dropWhile (· < is)
        if ds.head? = some is then do
          let v ← at' m.state is
          let dst ← atSet st.2.2 is v
          .ok (ds, st.2.1, dst)
        else do
          let v ← at' src st.2.1
          let dst ← atSet st.2.2 is v
          .ok (ds, st.2.1 + 1, dst))
      ((m.disIn, 0, List.replicate m.F.inSize 0) : List Nat × Nat × List K)
    .ok r.2.2

/-- `narrowInput` (VectorNarrowingMapping.h:46-52) -/
def Narrow.narrowInput (m : Narrow K) (src : List K) : Res (List K) := reduce src m.disIn

/-- `narrowOutput` (VectorNarrowingMapping.h:80-86) -/
def Narrow.narrowOutput (m : Narrow K) (src : List K) : Res (List K) := reduce src m.disOut

/-- `inputSize` (VectorNarrowingMapping.h:88-90) -/
def Narrow.inputSize (m : Narrow K) : Nat := m.F.inSize - m.disIn.length

/-- `outputSize` (VectorNarrowingMapping.h:92-94) -/
def Narrow.outputSize (m : Narrow K) : Nat := m.F.outSize - m.disOut.length

/-- `map` (VectorNarrowingMapping.h:96-118) -/
def Narrow.map (m : Narrow K) (x : List K) : Res (List K) := do
  let px ← (if m.disIn.isEmpty then .ok x else m.widenInput x : Res (List K))
  let dst ← m.F.map px
  if m.disOut.isEmpty then .ok dst else reduce dst m.disIn

/-! ### computeJacobian -/

/-- `x = x0; x[i] += dx` (computeJacobian.h:28-31) -/
def shifted (x0 : List K) (i : Nat) (dx : K) : Res (List K) := do
  let v ← at' x0 i
  atSet x0 i (v + dx)

/-- `computeJacobian` (computeJacobian.h:13-48); `dx` is 1e-6. -/
def computeJacobian (F : Mapping K) (dx : K) (x0 : List K) : Res (Sparse.Mat K) := do
  let n := F.inSize
  let f0 ← F.map x0
  loop 0 n (fun i J => do
    let x ← shifted x0 i dx
    let f ← F.map x
    loop 0 n (fun j J => do
      let a ← at' f j
      let b ← at' f0 j
      if a - b = 0 then .ok J
      else do
        let q ← div (a - b) dx
        .ok { J with data := J.data.set (j, i) q }) J) (Sparse.Mat.ofSize n n)

/-! ### MappingNormalizer -/

/-- `MappingNormalizer::map` (MappingNormalizer.h:36-44) with the diagonal `d` -/
def normalizedMap (F : Mapping K) (d x : List K) : Res (List K) := do
  let arg ← diagMap d x
  let dst ← F.map arg
  diagMap d dst

end

section
variable {K : Type} [Field K] [LinearOrder K]

/-- `normalize` (MappingNormalizer.h:46-60): the new diagonal; `sqrt` is the square root, `dx` is
1e-6. -/
def normalize (sqrt : K → K) (F : Mapping K) (dx : K) (x0 : List K) : Res (List K) := do
  let J ← computeJacobian F dx x0
  loop 0 F.inSize (fun i d => do
    let di := J.data.get (i, i)
    if di = 0 then
      .error (.exc "MappingNormalizer::normalize() failed: zero diagonal element in Jacobian")
    else do
      let q ← div 1 (sqrt |di|)
      atSet d i q) (List.replicate F.inSize 0)

end

end Verif.Alg
