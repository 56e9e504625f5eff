import Verif.Driver.Model
import Mathlib.Analysis.SpecialFunctions.Log.Base

/-
Model of include/ode_num_int/ode/OdeVarNameGenerator.h and of the table written by
OdeSolverStepSolutionColumnwiseOutput (ode_solver_output.h).

Simplifications: `log10` is the exact one; cells of the table are the values written, not their text, except
names.
-/

namespace Verif.Driver

open Verif.Res

/-- Conversion of a real number to `int`, used at OdeVarNameGenerator.h:45 -/
noncomputable def truncToInt (x : ℝ) : Int := if x < 0 then ⌈x⌉ else ⌊x⌋

/-- `ndigits` (OdeVarNameGenerator.h:44-46) -/
noncomputable def ndigits (n : Nat) : Int := 1 + max 0 (truncToInt (Real.logb 10 ((n : ℝ) + 1 / 2)))

/-- `formatUnnamedVar` (OdeVarNameGenerator.h:48-52) for a right-hand side with `n` variables; the padding is an
unsigned number. -/
noncomputable def formatUnnamedVar (n i : Nat) : List Char :=
  let pad := ((ndigits n - ndigits i) % 4294967296).toNat
  "UNNAMED_".toList ++ List.replicate pad '0' ++ formatInt i

/-- `varNameByIndex` (OdeVarNameGenerator.h:36-38) with `varName` (25-28) and `varIdByIndex` (30-34), which reads
the identifier of the variable only to throw it away; `ids` are the identifiers given by the right-hand side
(default interfaces/OdeRhs.h:72-74). -/
noncomputable def varNameByIndex (n : Nat) (ids : List Nat) (i : Nat) : Res (List Char) := do
  let _ ← raw ids i
  .ok (formatUnnamedVar n i)

/-- What OdeSolverStepSolutionColumnwiseOutput writes at the end: headings of the columns, their times, and for
every variable its index, name and values -/
structure Table (K : Type) where
  heading : List (List Char)
  times : List K
  rows : List (Nat × List Char × List K)

/-- `write` (ode_solver_output.h:571-593) for a right-hand side with `n` variables -/
noncomputable def Columns.write {K : Type} (a : Columns K) (n : Nat) (ids : List Nat) : Res (Table K) := do
  let rows ← (List.range n).mapM (fun i => do
    let name ← varNameByIndex n ids i
    let v ← a.columns.mapM (fun c => at' c.2 i)
    .ok (i, name, v))
  .ok ⟨(List.range a.columns.length).map (fun c => 'n' :: Util.dec c), a.columns.map (·.1), rows⟩

end Verif.Driver
