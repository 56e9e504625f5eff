import Verif.Basic
import Mathlib.Algebra.Field.Defs

/-
Model of `ctm::math::LUFactorizer` (include/ode_num_int/lu/LUFactorizer.h) and of
`luToMatrix` (include/ode_num_int/lu/util.h).

The packed arrays, address sequences and every read and write of the loops are kept.
Simplifications, common to all definitions below:
 * real arithmetic is exact, in an arbitrary field; a division by zero is the outcome
   `divZero` (the code continues with infinities / NaN). `factorize` and `solve` only use the
   operations, so that they can also be run with rounding (Verif/Round);
 * `unsigned int` values are natural numbers (the code is limited to packed arrays of
   fewer than 2^32 cells);
 * timing measurements are left out;
 * the macro CTM_MATH_LU_USE_MX_FAST_CACHE is not defined (line 13 has it commented out);
 * ASSERT does nothing (release build).
-/

namespace Verif.LU

open Verif.Res

/-- A sparse matrix as the sequence of its elements in iteration order:
`it->first.first`, `it->first.second`, `it->second` of the iterator range passed to
`setMatrix` (LUFactorizer.h:39-40). -/
abbrev Entries (K : Type _) := List ((Nat × Nat) × K)

/-- Data members (LUFactorizer.h:445-453). `m_r` is a scratch vector that each update
fills from scratch, it is local to the update here. -/
structure Fact (K : Type _) where
  /-- `m_p` -/ p : List Nat
  /-- `m_q` -/ q : List Nat
  /-- `m_s` -/ s : List Nat
  /-- `m_al` -/ al : List Nat
  /-- `m_au` -/ au : List Nat
  /-- `m_l` -/ l : List K
  /-- `m_u` -/ u : List K
  /-- `m_factorized` -/ factorized : Bool
  deriving DecidableEq

/-- Default constructor (LUFactorizer.h:22) -/
def Fact.empty {K : Type _} : Fact K := ⟨[], [], [], [], [], [], [], false⟩

variable {K : Type _}

/-! ### Element access -/

/-- Address computation `a[i] + (j - p[i])` (LUFactorizer.h:347, 374; also the pointer form
343-364, 388-390). Unsigned arithmetic wraps, so the value is `a[i] + j - p[i]` when that is
not negative; otherwise the address is far outside the array. -/
def adr (a p : List Nat) (i j : Nat) : Res Nat := do
  let ai ← raw a i
  let pi ← raw p i
  if ai + j < pi then .error .ub else .ok (ai + j - pi)

/-- Read of `L(r,c)` (LUFactorizer.h:343-348, pointer form 361-364) -/
def rdL (st : Fact K) (r c : Nat) : Res K := do
  let a ← adr st.al st.p r c
  raw st.l a

/-- Write through the reference `L(r,c)` (LUFactorizer.h:343-348) -/
def wrL (st : Fact K) (r c : Nat) (v : K) : Res (Fact K) := do
  let a ← adr st.al st.p r c
  let l ← rawSet st.l a v
  .ok { st with l := l }

/-- Read of `U(r,c)` (LUFactorizer.h:370-375, 392-397, pointer form 388-390) -/
def rdU (st : Fact K) (r c : Nat) : Res K := do
  let a ← adr st.au st.q c r
  raw st.u a

/-- Write through the reference `U(r,c)` (LUFactorizer.h:370-375) -/
def wrU (st : Fact K) (r c : Nat) (v : K) : Res (Fact K) := do
  let a ← adr st.au st.q c r
  let u ← rawSet st.u a v
  .ok { st with u := u }

/-- `maxpq` (LUFactorizer.h:403-405) -/
def maxpq (st : Fact K) (r c : Nat) : Res Nat := do
  let a ← raw st.p r
  let b ← raw st.q c
  .ok (max a b)

/-! ### setMatrix -/

/-- Size computation (LUFactorizer.h:44-49): number of rows and of columns -/
def extents (es : Entries K) : Nat × Nat :=
  es.foldl (fun a e => (max a.1 (e.1.1 + 1), max a.2 (e.1.2 + 1))) (0, 0)

/-- Scan of one element for `m_p`, `m_q`, `m_s` (LUFactorizer.h:72-76) -/
def scanOne (a : List Nat × List Nat × List Nat) (e : (Nat × Nat) × K) :
    Res (List Nat × List Nat × List Nat) := do
  let r := e.1.1
  let c := e.1.2
  let pr ← raw a.1 r
  let p ← rawSet a.1 r (if pr > c then c else pr)
  let qc ← raw a.2.1 c
  let q ← rawSet a.2.1 c (if qc > r then r else qc)
  let sr ← raw a.2.2 r
  let s ← rawSet a.2.2 r (if sr < c then c else sr)
  .ok (p, q, s)

/-- Initialisation and scan (LUFactorizer.h:68-77) -/
def scan (n : Nat) (es : Entries K) : Res (List Nat × List Nat × List Nat) :=
  es.foldlM scanOne (List.replicate n n, List.replicate n n, List.replicate n 0)

/-- Verification of `m_p`, `m_q` (LUFactorizer.h:80-85) -/
def verify (n : Nat) (p q : List Nat) : Res Unit :=
  loop 0 n (fun i _ => do
    let pi ← raw p i
    let qi ← raw q i
    if pi ≥ n ∨ qi ≥ n then .error (.exc "Invalid matrix stencil: the stencil is incomplete")
    else if pi > i ∨ qi > i then
      .error (.exc "Invalid matrix stencil: the stencil does not cover the diagonal")
    else .ok ()) ()

/-- Address sequence (LUFactorizer.h:93-97): rows `i, i+1, ...` with first columns `ps`,
`a` is the address of row `i`, `d` the diagonal flag. `i - p` does not wrap because
`verify` has passed. -/
def addrs (d : Nat) : Nat → Nat → List Nat → List Nat
  | _, a, [] => [a]
  | i, a, p :: ps => a :: addrs d (i + 1) (a + (i - p) + d) ps

/-- Storing one element (LUFactorizer.h:106-112) -/
def storeOne (st : Fact K) (e : (Nat × Nat) × K) : Res (Fact K) :=
  if e.1.1 ≤ e.1.2 then wrU st e.1.1 e.1.2 e.2 else wrL st e.1.1 e.1.2 e.2

/-- Outcome of `setMatrix`: the state it leaves behind and, if it threw, the exception. -/
structure SetResult (K : Type _) where
  state : Fact K
  fault : Option Fault
  deriving DecidableEq

/-- `setMatrix` (LUFactorizer.h:39-119), with the state left behind by an exception. -/
def setMatrixFull [Zero K] (st : Fact K) (es : Entries K) : SetResult K :=
  let nrc := extents es
  if nrc.1 ≠ nrc.2 then
    ⟨st, some (.exc "Invalid matrix stencil: matrix is not square")⟩
  else
    let n := nrc.1
    match scan n es with
    | .error e => ⟨st, some e⟩
    | .ok (p, q, s) =>
      match verify n p q with
      | .error e => ⟨{ st with p := p, q := q, s := s }, some e⟩
      | .ok () =>
        let al := addrs 0 0 0 p
        let au := addrs 1 0 0 q
        let st1 : Fact K :=
          { p := p, q := q, s := s, al := al, au := au
            l := List.replicate (al.getLastD 0) 0
            u := List.replicate (au.getLastD 0) 0
            factorized := st.factorized }
        match es.foldlM storeOne st1 with
        | .error e => ⟨st1, some e⟩
        | .ok st2 => ⟨{ st2 with factorized := false }, none⟩

/-- `setMatrix` as a call that returns or throws (LUFactorizer.h:39-119). -/
def setMatrix [Zero K] (st : Fact K) (es : Entries K) : Res (Fact K) :=
  match setMatrixFull st es with
  | ⟨st', none⟩ => .ok st'
  | ⟨_, some e⟩ => .error e

/-- `setLU` (LUFactorizer.h:399-401) with `setL` (350-358) and `setU` (377-385):
`none` when the position is outside the envelope. -/
def setLU (st : Fact K) (r c : Nat) (v : K) : Res (Option (Fact K)) :=
  if c < r then do
    let pr ← raw st.p r
    if c ≥ pr then do
      let st' ← wrL st r c v
      .ok (some st')
    else .ok none
  else do
    let qc ← raw st.q c
    if r ≥ qc then do
      let st' ← wrU st r c v
      .ok (some st')
    else .ok none

/-- The element loop of `setMatrixFast` (LUFactorizer.h:138-147); `none` = fall back. -/
def fastStore : Entries K → Fact K → Res (Option (Fact K))
  | [], st => .ok (some st)
  | e :: es, st => do
    match ← setLU st e.1.1 e.1.2 e.2 with
    | none => .ok none
    | some st' => fastStore es st'

/-- `setMatrixFast` (LUFactorizer.h:126-150) -/
def setMatrixFast [Zero K] (st : Fact K) (es : Entries K) : Res (Fact K) := do
  let st1 : Fact K := { st with l := st.l.map (fun _ => 0), u := st.u.map (fun _ => 0) }
  match ← fastStore es st1 with
  | none => setMatrix st1 es
  | some st2 => .ok { st2 with factorized := false }

/-! ### factorize -/

section Ops
variable [Zero K] [Sub K] [Mul K] [Div K] [DecidableEq K]

/-- L row, one element (LUFactorizer.h:418-424) -/
def factorL (i c : Nat) (st : Fact K) : Res (Fact K) := do
  let k0 ← maxpq st i c
  let st ← loop k0 c (fun k st => do
    let l ← rdL st i c
    let a ← rdL st i k
    let b ← rdU st k c
    wrL st i c (l - a * b)) st
  let l ← rdL st i c
  let d ← rdU st c c
  let v ← Res.div l d
  wrL st i c v

/-- U column, one element (LUFactorizer.h:430-435) -/
def factorU (i r : Nat) (st : Fact K) : Res (Fact K) := do
  let k0 ← maxpq st r i
  loop k0 r (fun k st => do
    let u ← rdU st r i
    let a ← rdL st r k
    let b ← rdU st k i
    wrU st r i (u - a * b)) st

/-- Diagonal element (LUFactorizer.h:439-441) -/
def factorD (i : Nat) (st : Fact K) : Res (Fact K) := do
  let k0 ← maxpq st i i
  loop k0 i (fun k st => do
    let d ← rdU st i i
    let a ← rdL st i k
    let b ← rdU st k i
    wrU st i i (d - a * b)) st

/-- One pass of the outer loop (LUFactorizer.h:414-442) -/
def factorStep (i : Nat) (st : Fact K) : Res (Fact K) := do
  let pi ← raw st.p i
  let st ← loop pi i (fun c st => factorL i c st) st
  let qi ← raw st.q i
  let st ← loop qi i (fun r st => factorU i r st) st
  factorD i st

/-- `factorize` (LUFactorizer.h:407-443) -/
def factorize (st : Fact K) : Res (Fact K) :=
  if st.factorized then .ok st
  else loop 0 st.p.length factorStep { st with factorized := true }

/-! ### solve -/

/-- Forward substitution (LUFactorizer.h:164-169) -/
def forward (st : Fact K) (x : List K) : Res (List K) :=
  loop 1 st.p.length (fun i x => do
    let pi ← raw st.p i
    loop pi i (fun k x => do
      let xi ← raw x i
      let a ← rdL st i k
      let xk ← raw x k
      rawSet x i (xi - a * xk)) x) x

/-- Backward substitution, row `i` (LUFactorizer.h:173-177) -/
def backRow (st : Fact K) (i : Nat) (x : List K) : Res (List K) := do
  let si ← raw st.s i
  let x ← loop (i + 1) (si + 1) (fun k x => do
    let qk ← raw st.q k
    if i ≥ qk then do
      let xi ← raw x i
      let a ← rdU st i k
      let xk ← raw x k
      rawSet x i (xi - a * xk)
    else .ok x) x
  let xi ← raw x i
  let d ← rdU st i i
  let v ← Res.div xi d
  rawSet x i v

/-- Backward substitution (LUFactorizer.h:172-178): `i` runs from `n-1` down to 0. -/
def backward (st : Fact K) (x : List K) : Res (List K) :=
  loop 0 st.p.length (fun j x => backRow st (st.p.length - 1 - j) x) x

/-- `solve` (LUFactorizer.h:157-179); returns the new state and the overwritten array. -/
def solve (st : Fact K) (rhs : List K) : Res (Fact K × List K) := do
  let st ← factorize st
  let x ← forward st rhs
  let x ← backward st x
  .ok (st, x)

end Ops

section Field
variable [Field K] [DecidableEq K]

/-! ### Inspection -/

/-- `safeL` (LUFactorizer.h:366-368) -/
def safeL (st : Fact K) (r c : Nat) : Res K := if r = c then .ok 1 else rdL st r c

/-- `elementAt` (LUFactorizer.h:189-214). Short-circuit evaluation is kept: `m_p[r]` is
read only if `r > c`. -/
def elementAt (st : Fact K) (r c : Nat) : Res K := do
  let inEnv ← if r > c then do
      let pr ← raw st.p r
      .ok (decide (c ≥ pr))
    else do
      let qc ← raw st.q c
      .ok (decide (r ≥ qc))
  if inEnv then
    if st.factorized then do
      let kmin ← maxpq st r c
      loop kmin (min r c + 1) (fun k acc => do
        let a ← safeL st r k
        let b ← rdU st k c
        .ok (acc + a * b)) 0
    else if r > c then rdL st r c else rdU st r c
  else .ok 0

/-- `luToMatrix` (lu/util.h:12-24): the elements written to the result, in order.
The result is a sparse matrix of size `n × n`; only non-zero values are written. -/
def luToMatrix (st : Fact K) : Res (Entries K) :=
  loop 0 st.p.length (fun r acc => do
    let c1 ← raw st.p r
    let c2 ← raw st.s r
    loop c1 (c2 + 1) (fun c acc => do
      let x ← elementAt st r c
      .ok (if x ≠ 0 then acc ++ [((r, c), x)] else acc)) acc) []

/-! ### Secant updates -/

/-- First half of a row of `secantUpdateHart` (LUFactorizer.h:249-262): `(beta, aa)`.
`rs` is `m_r[0..i)`. -/
def hartBeta (st : Fact K) (s y rs : List K) (i : Nat) : Res (K × K) := do
  let yi ← raw y i
  let pi ← raw st.p i
  let ba ← loop pi i (fun k (ba : K × K) => do
    let rk ← raw rs k
    let a ← rdL st i k
    .ok (ba.1 - a * rk, ba.2 + rk * rk)) (yi, 0)
  let si ← raw st.s i
  loop i (si + 1) (fun k (ba : K × K) => do
    let qk ← raw st.q k
    if i ≥ qk then do
      let sk ← raw s k
      let a ← rdU st i k
      .ok (ba.1 - a * sk, ba.2 + sk * sk)
    else .ok ba) ba

/-- Row of `secantUpdateHart` (LUFactorizer.h:248-285). State: matrix and `m_r[0..i)`. -/
def hartRow (s y : List K) (i : Nat) (a : Fact K × List K) : Res (Fact K × List K) := do
  let (st, rs) := a
  let (beta, aa) ← hartBeta st s y rs i
  let si ← raw st.s i
  if beta = 0 then do
    let ri ← loop i (si + 1) (fun k ri => do
      let qk ← raw st.q k
      if i ≥ qk then do
        let a ← rdU st i k
        let sk ← raw s k
        .ok (ri + a * sk)
      else .ok ri) 0
    .ok (st, rs ++ [ri])
  else do
    let factor ← Res.div beta aa
    let pi ← raw st.p i
    let st ← loop pi i (fun k st => do
      let a ← rdL st i k
      let rk ← raw rs k
      wrL st i k (a + rk * factor)) st
    let sr ← loop i (si + 1) (fun k (sr : Fact K × K) => do
      let qk ← raw sr.1.q k
      if i ≥ qk then do
        let sk ← raw s k
        let a ← rdU sr.1 i k
        let st ← wrU sr.1 i k (a + sk * factor)
        let a' ← rdU st i k
        .ok (st, sr.2 + a' * sk)
      else .ok sr) (st, 0)
    .ok (sr.1, rs ++ [sr.2])

/-- `secantUpdateHart` (LUFactorizer.h:242-286) -/
def secantUpdateHart (st : Fact K) (s y : List K) : Res (Fact K) := do
  let st ← factorize st
  let r ← loop 0 st.p.length (hartRow s y) (st, [])
  .ok r.1

/-- Row of `secantUpdateProportional` (LUFactorizer.h:294-332) -/
def propRow (s y : List K) (i : Nat) (a : Fact K × List K) : Res (Fact K × List K) := do
  let (st, rs) := a
  let beta ← raw y i
  let pi ← raw st.p i
  let cl ← loop pi i (fun k cl => do
    let a ← rdL st i k
    let rk ← raw rs k
    .ok (cl + a * rk)) 0
  let si ← raw st.s i
  let cu ← loop i (si + 1) (fun k cu => do
    let qk ← raw st.q k
    if i ≥ qk then do
      let a ← rdU st i k
      let sk ← raw s k
      .ok (cu + a * sk)
    else .ok cu) 0
  let c := cl + cu
  if beta = 0 then .ok (st, rs ++ [cu])
  else if c = 0 then
    .error (.exc "LUFactorizer::secantUpdateProportional() failed due to unexpected orthogonality")
  else do
    let factor ← Res.div beta c
    let factor := factor + 1
    let st ← loop pi i (fun k st => do
      let a ← rdL st i k
      wrL st i k (a * factor)) st
    let sr ← loop i (si + 1) (fun k (sr : Fact K × K) => do
      let qk ← raw sr.1.q k
      if i ≥ qk then do
        let a ← rdU sr.1 i k
        let st ← wrU sr.1 i k (a * factor)
        let a' ← rdU st i k
        let sk ← raw s k
        .ok (st, sr.2 + a' * sk)
      else .ok sr) (st, 0)
    .ok (sr.1, rs ++ [sr.2])

/-- `secantUpdateProportional` (LUFactorizer.h:288-333) -/
def secantUpdateProportional (st : Fact K) (s y : List K) : Res (Fact K) := do
  let st ← factorize st
  let r ← loop 0 st.p.length (propRow s y) (st, [])
  .ok r.1

end Field

end Verif.LU
