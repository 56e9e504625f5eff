import Verif.LU.Model
import Mathlib.LinearAlgebra.Matrix.Determinant.Basic

/-! # Specification vocabulary for the LU properties

Independent of the packed storage: a list of entries is read as a matrix. -/

namespace Verif.LU

variable {K : Type _}

/-- Position `(r,c)` is stored in the sparse matrix. -/
def Key (es : Entries K) (r c : Nat) : Prop := ∃ v, ((r, c), v) ∈ es

/-- No position is stored twice (elements of a `std::map`). -/
def Distinct (es : Entries K) : Prop := (es.map Prod.fst).Nodup

/-- Element `(r,c)` of the matrix: the stored value, zero if none. -/
def entry [Zero K] (es : Entries K) (r c : Nat) : K :=
  match es.find? (fun e => e.1 == (r, c)) with
  | some e => e.2
  | none => 0

/-- The matrix as a Mathlib matrix. -/
def matrixOf [Zero K] (es : Entries K) (n : Nat) : Matrix (Fin n) (Fin n) K :=
  fun i j => entry es i j

/-- First `n` elements of an array as a vector (used for arrays of length at least `n`). -/
def vec [Zero K] (x : List K) (n : Nat) : Fin n → K := fun i => x.getD i 0

/-- A stencil of an `n × n` matrix in which every row has an entry on or left of the diagonal
and every column has an entry on or above it. -/
structure Stencil (n : Nat) (es : Entries K) : Prop where
  inside : ∀ r c, Key es r c → r < n ∧ c < n
  row : ∀ i, i < n → ∃ c, c ≤ i ∧ Key es i c
  col : ∀ i, i < n → ∃ r, r ≤ i ∧ Key es r i

/-- Fill condition: if column `c` has an entry in row `r` or above (`r < c`), then row `r` has
an entry in column `c` or to the right. Banded and full matrices satisfy it. -/
def Filled (es : Entries K) : Prop :=
  ∀ r c, r < c → (∃ r', r' ≤ r ∧ Key es r' c) → ∃ c', c ≤ c' ∧ Key es r c'

/-- All leading principal minors are nonzero; equivalent to Gaussian elimination without
pivoting meeting no zero pivot. -/
def MinorsNonzero [CommRing K] (es : Entries K) (n : Nat) : Prop :=
  ∀ k, k ≤ n → (matrixOf es k).det ≠ 0

/-- Every row has an entry on or right of the diagonal. -/
def DiagReach (n : Nat) (es : Entries K) : Prop := ∀ i, i < n → ∃ c, i ≤ c ∧ Key es i c

/-- Calls that a user can make on a factorizer after `setMatrix`. -/
inductive Op (K : Type) where
  | solve (b : List K)
  | hart (s y : List K)
  | prop (s y : List K)

section
variable {K : Type} [Field K] [DecidableEq K]

/-- Effect of a call on the object. -/
def Op.apply (st : Fact K) : Op K → Res (Fact K)
  | .solve b => do let r ← LU.solve st b; .ok r.1
  | .hart s y => secantUpdateHart st s y
  | .prop s y => secantUpdateProportional st s y

/-- All arrays passed to the calls have at least `n` elements. -/
def Op.Long (n : Nat) : Op K → Prop
  | .solve b => n ≤ b.length
  | .hart s y => n ≤ s.length ∧ n ≤ y.length
  | .prop s y => n ≤ s.length ∧ n ≤ y.length

/-- A history: `setMatrix(es)` followed by calls that all return normally. -/
def History (st0 : Fact K) (es : Entries K) (ops : List (Op K)) (st : Fact K) : Prop :=
  ∃ st1, setMatrix st0 es = .ok st1 ∧ ops.foldlM Op.apply st1 = (.ok st : Res _)

/-- The object represents the matrix `A`: `elementAt` returns its elements. -/
def Represents (st : Fact K) {n : Nat} (A : Matrix (Fin n) (Fin n) K) : Prop :=
  ∀ i j : Fin n, elementAt st i j = .ok (A i j)

end

end Verif.LU
