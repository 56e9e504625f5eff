import Verif.Sparse.Model

/-
Model of the text output of sparse matrices: `operator<<` and `printScilabMatrix`
(include/ode_num_int/la/SparseMatrixTemplate.h:1083-1120).

The text of an element, what `oss << v.second` writes, is an arbitrary function `fmt` of the element. Strings are lists of
characters. Arithmetic on indices is that of 32-bit `unsigned int`.
-/

namespace Verif.Sparse

open Verif.Res

variable {K : Type _}

/-- A `std::string` -/
abbrev Str := List Char

/-- `unsigned int` arithmetic: the remainder modulo 2^32 -/
def u32 (n : Nat) : Nat := n % 4294967296

/-- Position of an element in the table: `col + row*m.size().second` (SparseMatrixTemplate.h:1089, 1097, 1103) -/
def cellIndex (size i : Index) : Nat := u32 (i.2 + u32 (i.1 * size.2))

/-- The table of the texts of all elements (SparseMatrixTemplate.h:1087-1093); `elems` are the elements enumerated by `m`. -/
def cells (fmt : K → Str) (size : Index) (elems : List (Index × K)) : Res (List Str) :=
  elems.foldlM (fun es e => rawSet es (cellIndex size e.1) (fmt e.2)) (List.replicate (u32 (size.1 * size.2)) ['0'])

/-- The widths of the columns (SparseMatrixTemplate.h:1094-1100) -/
def colWidths (size : Index) (es : List Str) : Res (List Nat) :=
  (List.range size.1).foldlM (fun ws r =>
    (List.range size.2).foldlM (fun ws c => do
      let e ← raw es (cellIndex size (r, c))
      let w ← raw ws c
      rawSet ws c (max w (e.length + 1))) ws) (List.replicate size.2 0)

/-- One line (SparseMatrixTemplate.h:1102-1106) -/
def line (size : Index) (es : List Str) (ws : List Nat) (r : Nat) : Res Str :=
  (List.range size.2).foldlM (fun (s : Str) c => do
    let e ← raw es (cellIndex size (r, c))
    let w ← raw ws c
    .ok (s ++ e ++ List.replicate (w - e.length) ' ')) []

/-- `operator<<` (SparseMatrixTemplate.h:1083-1110): the lines written, each ended by `endl` -/
def print (fmt : K → Str) (size : Index) (elems : List (Index × K)) : Res (List Str) := do
  let es ← cells fmt size elems
  let ws ← colWidths size es
  (List.range size.1).foldlM (fun (ls : List Str) r => do
    let l ← line size es ws r
    .ok (ls ++ [l])) []

/-- A Scilab command: `name = zeros(r, c);` or `name(r, c) = v;` -/
inductive Cmd (K : Type _) where
  | zeros (r c : Nat)
  | assign (r c : Nat) (v : K)
  deriving DecidableEq

/-- `printScilabMatrix` (SparseMatrixTemplate.h:1112-1120): the commands written, one in a line -/
def scilab (size : Index) (elems : List (Index × K)) : List (Cmd K) :=
  .zeros size.1 size.2 :: elems.map fun e => .assign (u32 (e.1.1 + 1)) (u32 (e.1.2 + 1)) e.2

end Verif.Sparse
