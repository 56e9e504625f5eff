import Verif.Sparse.Model
import Mathlib.Data.Matrix.Mul

/-! # Specification vocabulary for the sparse matrix properties -/

namespace Verif.Sparse

variable {K : Type}

/-- Keys are enumerated in strictly increasing (row, column) order. -/
def Increasing (m : List (Index × K)) : Prop :=
  m.Pairwise (fun a b => a.1.1 < b.1.1 ∨ (a.1.1 = b.1.1 ∧ a.1.2 < b.1.2))

/-- The partial function from positions to values that a matrix stands for. -/
abbrev PMap (K : Type) := Index → Option K

/-- Calls that change a map-backed matrix. -/
inductive MOp (K : Type) where
  /-- `at(i) = v` -/ | set (i : Index) (v : K)
  /-- `at(i) += v` -/ | inc (i : Index) (v : K)
  /-- `removeAt(i)` -/ | remove (i : Index)
  /-- `clear()` -/ | clear
  /-- `resize(size)` -/ | resize (size : Index)
  /-- `makeZero()` -/ | makeZero
  /-- `m = other`, `other` has the given size and enumerates the given elements -/
  | assign (size : Index) (elems : List (Index × K))

section
variable [Ring K]

/-- The modelled effect. -/
def MOp.run (m : Mat K) : MOp K → Mat K
  | .set i v => ⟨m.size, m.data.set i v⟩
  | .inc i v => ⟨m.size, m.data.modify i (fun x => x + v)⟩
  | .remove i => ⟨m.size, m.data.removeAt i⟩
  | .clear => ⟨m.size, m.data.clear⟩
  | .resize s => m.resize s
  | .makeZero => m.makeZero
  | .assign s es => m.assign s es

/-- The effect on the partial function, as the names of the calls say. -/
def MOp.spec (s : Index × PMap K) : MOp K → Index × PMap K
  | .set i v => (s.1, fun j => if j = i then some v else s.2 j)
  | .inc i v => (s.1, fun j => if j = i then some ((s.2 i).getD 0 + v) else s.2 j)
  | .remove i => (s.1, fun j => if j = i then none else s.2 j)
  | .clear => (s.1, fun _ => none)
  | .resize z => (z, fun j => if z = s.1 ∨ (j.1 < z.1 ∧ j.2 < z.2) then s.2 j else none)
  | .makeZero => (s.1, fun j => (s.2 j).map (fun _ => 0))
  | .assign z es => (z, fun j => (es.reverse.find? (fun e => e.1 == j)).map (·.2))

end

/-- Well-formed matrix: increasing keys, all inside the declared size. -/
structure Wf (m : Mat K) : Prop where
  inc : Increasing m.data
  inside : ∀ e ∈ m.data, e.1.1 < m.size.1 ∧ e.1.2 < m.size.2

/-- The dense matrix of a sparse one. -/
def dense [Zero K] (m : Mat K) (r c : Nat) : Matrix (Fin r) (Fin c) K :=
  fun i j => m.data.get (i, j)

/-- A list as a vector of `n` components (used for lists of length at least `n`). -/
def vecOf [Zero K] (x : List K) (n : Nat) : Fin n → K := fun i => x.getD i 0

end Verif.Sparse
