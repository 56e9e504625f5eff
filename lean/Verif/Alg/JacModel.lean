import Verif.Alg.MapModel
import Verif.LU.Model
import Mathlib.Algebra.Order.Field.Basic

/-
Model of include/ode_num_int/alg/: SparseJacobianCalculator.h, SparseJacobianProvider.h,
DefaultJacobianProvider.h, JacobianThresholdBasedTrimmer.h, JacobianWidthBasedTrimmer.h,
SimpleNewtonDescentDirection.h, ConstJacobianNewtonDescentDirection.h,
JacobianBroydenUpdateNewtonDescentDirection.h, JacobianFakeBroydenUpdateNewtonDescentDirection.h,
JacobianHartUpdateNewtonDescentDirection.h, JacobianLazyFakeBroydenUpdateNewtonDescentDirection.h.

Simplifications: exact arithmetic; observers only observe; pointers are not null; timing statistics
are left out; ASSERT does nothing; 1e-6 is the parameter `dx`. Addresses of matrix elements are
positions in the element vector.
-/

namespace Verif.Alg

open Verif.Res

/-- `SparseMatrixTemplate<SparseMatrixFastData<K>>`: size and elements -/
structure FMat (K : Type) where
  size : Sparse.Index
  data : Sparse.Fast K
  deriving DecidableEq

/-- As constructed without arguments -/
def FMat.empty {K : Type} : FMat K := ⟨(0, 0), []⟩

/-- Assignment from a matrix (SparseMatrixTemplate.h:1054-1060 with 297-304) -/
def FMat.ofMat {K : Type} (m : Sparse.Mat K) : FMat K := ⟨m.size, Sparse.Fast.copyFrom m.data⟩

/-! ### SparseJacobianCalculator -/

/-- `C2R`: a column with the rows stored in it and the positions of their elements
(SparseJacobianCalculator.h:112-117) -/
abbrev Col := Nat × List (Nat × Nat)

/-- Column layouts (SparseJacobianCalculator.h:37-52). The code counts the elements of the columns
first and fills the vectors then, here they are appended to; the same accesses are made. -/
def colRows {K : Type} (J : FMat K) : Res (List (List (Nat × Nat))) :=
  loop 0 J.data.length (fun p cr => do
    let e ← raw J.data p
    let l ← raw cr e.1.2
    rawSet cr e.1.2 (l ++ [(e.1.1, p)])) (List.replicate J.size.2 [])

/-- `addRows` (SparseJacobianCalculator.h:54-57) -/
def addRows (rows : List (Nat × Nat)) (aff : List Bool) : Res (List Bool) :=
  rows.foldlM (fun aff rp => rawSet aff rp.1 true) aff

/-- `intersects` (SparseJacobianCalculator.h:59-64) -/
def intersects (aff : List Bool) : List (Nat × Nat) → Res Bool
  | [] => .ok false
  | rp :: rows => do
    let b ← raw aff rp.1
    if b then .ok true else intersects aff rows

/-- The inner loop (SparseJacobianCalculator.h:74-83) over the columns left: the columns taken into
the group and the columns that stay. -/
def pick (cr : List (List (Nat × Nat))) : List Nat → List Bool → Res (List Col × List Nat)
  | [], _ => .ok ([], [])
  | c :: cs, aff => do
    let rows ← raw cr c
    let b ← intersects aff rows
    if b then do
      let r ← pick cr cs aff
      .ok (r.1, c :: r.2)
    else do
      let aff ← addRows rows aff
      let r ← pick cr cs aff
      .ok ((c, rows) :: r.1, r.2)

/-- The outer loop (SparseJacobianCalculator.h:66-84). Each round removes a column, so the number of
columns bounds the rounds; `fuel` is that number. -/
def groups (cr : List (List (Nat × Nat))) (nrows : Nat) : Nat → List Nat → Res (List (List Col))
  | 0, _ => .ok []
  | _, [] => .ok []
  | fuel + 1, c :: cs => do
    let rows ← raw cr c
    let aff ← addRows rows (List.replicate nrows false)
    let r ← pick cr cs aff
    let gs ← groups cr nrows fuel r.2
    .ok (((c, rows) :: r.1) :: gs)

/-- The constructor (SparseJacobianCalculator.h:24-85): `m_layout` -/
def layout {K : Type} (J : FMat K) : Res (List (List Col)) := do
  let cr ← colRows J
  groups cr J.size.1 J.size.2 (List.range J.size.2)

/-- `mappingEvaluationsRequired` (SparseJacobianCalculator.h:106-108) -/
def evaluationsRequired (lay : List (List Col)) : Nat := lay.length + 1

section
variable {K : Type} [Field K] [DecidableEq K]

/-- One group in `calculate` (SparseJacobianCalculator.h:95-102): the elements it leaves -/
def evalGroup (F : Mapping K) (x0 f0 : List K) (delta : K) (g : List Col) (d : Sparse.Fast K) :
    Res (Sparse.Fast K) := do
  let x ← g.foldlM (fun x c => do
    let v ← at' x c.1
    atSet x c.1 (v + delta)) x0
  let f ← F.map x
  g.foldlM (fun d c => c.2.foldlM (fun d rp => do
    let a ← at' f rp.1
    let b ← at' f0 rp.1
    let q ← div (a - b) delta
    let e ← raw d rp.2
    rawSet d rp.2 (e.1, q)) d) d

/-- `calculate` (SparseJacobianCalculator.h:87-104) -/
def calculate (lay : List (List Col)) (F : Mapping K) (x0 : List K) (delta : K) (J : FMat K) :
    Res (FMat K) := do
  let f0 ← F.map x0
  let d ← lay.foldlM (fun d g => evalGroup F x0 f0 delta g d) J.data
  .ok { J with data := d }

/-- `computeSparseJacobian` (SparseJacobianCalculator.h:131-138) -/
def computeSparseJacobian (J : FMat K) (F : Mapping K) (x0 : List K) (delta : K) :
    Res (FMat K) := do
  let lay ← layout J
  calculate lay F x0 delta J

/-! ### Jacobian providers -/

/-- The kinds of providers in the library -/
inductive ProvKind
  | default
  | sparse
  deriving DecidableEq

/-- A Jacobian provider: `m_J`, and the layout of `m_Jcalc` for the sparse one. `none`: `m_J` was
assigned since a nonempty layout was made, its element addresses need not be valid any more. -/
structure Prov (K : Type) where
  kind : ProvKind
  J : FMat K
  lay : Option (List (List Col))
  deriving DecidableEq

/-- As constructed (SparseJacobianProvider.h:23-25): the layout of an empty matrix has no groups. -/
def Prov.new (kind : ProvKind) : Prov K := ⟨kind, FMat.empty, some []⟩

/-- `hardReset` (interfaces/JacobianProvider.h:32, SparseJacobianProvider.h:30-32); the element vector is only
cleared, the layout is not used before it is computed again. -/
def Prov.hardReset (p : Prov K) : Prov K :=
  match p.kind with
  | .default => p
  | .sparse => { p with J := FMat.empty }

/-- `hardResetMayHelp` (interfaces/JacobianProvider.h:33-35, SparseJacobianProvider.h:34-36) -/
def Prov.hardResetMayHelp (p : Prov K) : Bool :=
  match p.kind with
  | .default => false
  | .sparse => true

/-- A trimmer, if one is set (`trimJacobian`) -/
abbrev Trimmer (K : Type) := Option (Sparse.Mat K → Res (Sparse.Mat K))

/-- `computeJacobian` (DefaultJacobianProvider.h:22-28, SparseJacobianProvider.h:38-48) -/
def Prov.compute (F : Mapping K) (dx : K) (trim : Trimmer K) (x0 : List K) (p : Prov K) :
    Res (Prov K) :=
  match p.kind, trim with
  | .default, none => do
    let J ← computeJacobian F dx x0
    .ok { p with J := FMat.ofMat J }
  | .default, some t => do
    let J ← computeJacobian F dx x0
    let J ← t J
    .ok { p with J := FMat.ofMat J }
  | .sparse, some t => do
    let J ← computeJacobian F dx x0
    let J ← t J
    .ok { p with J := FMat.ofMat J, lay := if p.lay = some [] then some [] else none }
  | .sparse, none =>
    if p.J.data.isEmpty then do
      let J ← computeJacobian F dx x0
      let lay ← layout (FMat.ofMat J)
      .ok { p with J := FMat.ofMat J, lay := some lay }
    else
      match p.lay with
      | none => .error .ub
      | some lay => do
        let J ← calculate lay F x0 dx p.J
        .ok { p with J := J }

/-! ### Rank-one updates -/

/-- `a - b` of vectors (VectorTemplate.h:435-441: a copy of `a`, then `-=`) -/
def vsub (a b : List K) : Res (List K) :=
  loop 0 a.length (fun i r => do
    let x ← at' r i
    let y ← at' b i
    atSet r i (x - y)) a

/-- `euclideanNormSquare` (VectorTemplate.h:415-421) -/
def normSq (v : List K) : K := v.foldl (fun s x => s + x * x) 0

/-- `J.at(i, j) += x` (SparseMatrixTemplate.h:234-244) -/
def fastAdd (d : Sparse.Fast K) (i : Sparse.Index) (x : K) : Res (Sparse.Fast K) :=
  match Sparse.Fast.search d i with
  | some p => do
    let e ← raw d p
    rawSet d p (e.1, e.2 + x)
  | none => .error (.exc "Element is not found")

/-- `left` (JacobianBroydenUpdateNewtonDescentDirection.h:55-56, also
JacobianFakeBroydenUpdateNewtonDescentDirection.h:54-55,
JacobianLazyFakeBroydenUpdateNewtonDescentDirection.h:70-71) -/
def updateLeft (J : FMat K) (dx df : List K) : Res (List K) := do
  let jdx ← Sparse.Mat.mulVectRight J.size J.data dx (List.replicate J.size.1 0)
  let l ← vsub df jdx
  let s ← div 1 (normSq dx)
  .ok (l.map (· * s))

/-- The update of the Jacobian (JacobianBroydenUpdateNewtonDescentDirection.h:55-64); `n` is the
number of variables. -/
def broydenUpdate (n : Nat) (J : FMat K) (dx df : List K) : Res (FMat K) := do
  let left ← updateLeft J dx df
  let d ← loop 0 n (fun i d => loop 0 n (fun j d => do
    let a ← at' left i
    let b ← at' dx j
    if a * b ≠ 0 then fastAdd d (i, j) (a * b) else .ok d) d) J.data
  .ok { J with data := d }

/-- The loop over the elements (JacobianFakeBroydenUpdateNewtonDescentDirection.h:58-59,
JacobianLazyFakeBroydenUpdateNewtonDescentDirection.h:74-75) -/
def addOuter (left dx : List K) (d : Sparse.Fast K) : Res (Sparse.Fast K) :=
  d.mapM (fun e => do
    let a ← at' left e.1.1
    let b ← at' dx e.1.2
    .ok (e.1, e.2 + a * b))

/-- The update (JacobianFakeBroydenUpdateNewtonDescentDirection.h:54-59) -/
def fakeBroydenUpdate (J : FMat K) (dx df : List K) : Res (FMat K) := do
  let left ← updateLeft J dx df
  let d ← addOuter left dx J.data
  .ok { J with data := d }

/-! ### Descent directions -/

/-- The last lines of every `computeDescentDirection`: `dir = f0; lu.solve(&*dir.begin()); dir *= -1` -/
def solveNeg (lu : LU.Fact K) (f0 : List K) : Res (LU.Fact K × List K) := do
  let r ← LU.solve lu f0
  .ok (r.1, r.2.map (· * (-1)))

/-- `if( m_lu.empty() ) m_lu.setMatrix( J ) else m_lu.setMatrixFast( J )`
(SimpleNewtonDescentDirection.h:44-47 and others); `empty` is LUFactorizer.h:25-27 -/
def setOrFast (lu : LU.Fact K) (J : FMat K) : Res (LU.Fact K) :=
  if lu.p.isEmpty then LU.setMatrix lu J.data else LU.setMatrixFast lu J.data

/-- `m_jacobianAction` (JacobianLazyFakeBroydenUpdateNewtonDescentDirection.h:127) -/
inductive Action
  | leave
  | update
  | recompute
  deriving DecidableEq

/-- Members of the descent directions, each kind uses some of them: the provider, `m_lu`, `m_xprev`
and `m_fprev` with `m_havePrev`, and of the lazy one `m_dJ`, `m_jacobianAction`,
`m_lastIterationNumber`. -/
structure Dir (K : Type) where
  prov : Prov K
  lu : LU.Fact K
  prev : Option (List K × List K)
  dJ : FMat K
  action : Action
  lastIter : Nat

/-- As constructed, with a given provider -/
def Dir.new (p : Prov K) : Dir K := ⟨p, LU.Fact.empty, none, FMat.empty, .recompute, 0⟩

/-- The kinds of descent directions in the library; the lazy one with `m_lazyIterations` -/
inductive DirKind
  | simple
  | const
  | broyden
  | fakeBroyden
  | hart
  | lazy (iterations : Nat)
  deriving DecidableEq

/-- `reset` (SimpleNewtonDescentDirection.h:22-27, ConstJacobianNewtonDescentDirection.h:22-27,
JacobianBroydenUpdateNewtonDescentDirection.h:29-34,
JacobianFakeBroydenUpdateNewtonDescentDirection.h:25-32,
JacobianHartUpdateNewtonDescentDirection.h:28-35,
JacobianLazyFakeBroydenUpdateNewtonDescentDirection.h:33-41) -/
def Dir.reset (k : DirKind) (hard : Bool) (s : Dir K) : Dir K :=
  let s1 := if hard then
      match k with
      | .broyden => { s with prov := s.prov.hardReset }
      | .lazy _ => { s with prov := s.prov.hardReset, lu := LU.Fact.empty, action := .recompute }
      | _ => { s with prov := s.prov.hardReset, lu := LU.Fact.empty }
    else s
  match k with
  | .simple | .const => s1
  | _ => { s1 with prev := none }

/-- `hardResetMayHelp` (SimpleNewtonDescentDirection.h:29-31; `true` in all others) -/
def Dir.hardResetMayHelp (k : DirKind) (s : Dir K) : Bool :=
  match k with
  | .simple => s.prov.hardResetMayHelp
  | _ => true

/-- `reportSuccess` (JacobianLazyFakeBroydenUpdateNewtonDescentDirection.h:93-97; nothing in all
others, interfaces/NewtonDescentDirection.h:58) -/
def Dir.reportSuccess (k : DirKind) (success : Bool) (s : Dir K) : Dir K :=
  match k with
  | .lazy n => { s with action := if success then
      (if s.lastIter + 1 ≤ n then .leave else .update) else .recompute }
  | _ => s

/-- `computeDescentDirection` (SimpleNewtonDescentDirection.h:33-53) -/
def Dir.simple (F : Mapping K) (dx : K) (trim : Trimmer K) (x0 f0 : List K) (s : Dir K) :
    Res (Dir K × List K) := do
  let prov ← s.prov.compute F dx trim x0
  let lu ← setOrFast s.lu prov.J
  let r ← solveNeg lu f0
  .ok ({ s with prov := prov, lu := r.1 }, r.2)

/-- `computeDescentDirection` (ConstJacobianNewtonDescentDirection.h:33-53) -/
def Dir.const (F : Mapping K) (dx : K) (trim : Trimmer K) (x0 f0 : List K) (s : Dir K) :
    Res (Dir K × List K) := do
  let s ← (if s.lu.factorized then .ok s else do
    let prov ← s.prov.compute F dx trim x0
    let lu ← LU.setMatrix s.lu prov.J.data
    .ok { s with prov := prov, lu := lu } : Res (Dir K))
  let r ← solveNeg s.lu f0
  .ok ({ s with lu := r.1 }, r.2)

/-- `computeDescentDirection` (JacobianBroydenUpdateNewtonDescentDirection.h:40-76) -/
def Dir.broyden (F : Mapping K) (dx : K) (trim : Trimmer K) (x0 f0 : List K) (s : Dir K) :
    Res (Dir K × List K) := do
  let prov ← (if s.prov.J.data.isEmpty then s.prov.compute F dx trim x0
    else match s.prev with
      | none => .ok s.prov
      | some pr => do
        let dxv ← vsub x0 pr.1
        let df ← vsub f0 pr.2
        let J ← broydenUpdate x0.length s.prov.J dxv df
        .ok { s.prov with J := J } : Res (Prov K))
  let lu ← LU.setMatrix LU.Fact.empty prov.J.data
  let r ← solveNeg lu f0
  .ok ({ s with prov := prov, prev := some (x0, f0) }, r.2)

/-- `computeDescentDirection` (JacobianFakeBroydenUpdateNewtonDescentDirection.h:38-74) -/
def Dir.fakeBroyden (F : Mapping K) (dx : K) (trim : Trimmer K) (x0 f0 : List K) (s : Dir K) :
    Res (Dir K × List K) := do
  let prov ← (if s.prov.J.data.isEmpty then s.prov.compute F dx trim x0
    else match s.prev with
      | none => .ok s.prov
      | some pr => do
        let dxv ← vsub x0 pr.1
        let df ← vsub f0 pr.2
        let J ← fakeBroydenUpdate s.prov.J dxv df
        .ok { s.prov with J := J } : Res (Prov K))
  let lu ← setOrFast s.lu prov.J
  let r ← solveNeg lu f0
  .ok ({ s with prov := prov, lu := r.1, prev := some (x0, f0) }, r.2)

/-- `computeDescentDirection` (JacobianHartUpdateNewtonDescentDirection.h:41-82) -/
def Dir.hart (F : Mapping K) (dx : K) (trim : Trimmer K) (x0 f0 : List K) (s : Dir K) :
    Res (Dir K × List K) := do
  let s ← (if s.lu.factorized then
      match s.prev with
      | none => .ok s
      | some pr => do
        let sv ← vsub x0 pr.1
        let y ← vsub f0 pr.2
        let lu ← LU.secantUpdateHart s.lu sv y
        .ok { s with lu := lu }
    else do
      let prov ← s.prov.compute F dx trim x0
      let lu ← LU.setMatrix s.lu prov.J.data
      .ok { s with prov := prov, lu := lu } : Res (Dir K))
  let r ← solveNeg s.lu f0
  .ok ({ s with lu := r.1, prev := some (x0, f0) }, r.2)

/-- `J += m_dJ` (SparseMatrixTemplate.h:916-923) on fast matrices -/
def addFast (J dJ : FMat K) : Res (FMat K) := do
  let d ← dJ.data.foldlM (fun d e => fastAdd d e.1 e.2) J.data
  .ok { J with data := d }

/-- `makeZero` (SparseMatrixTemplate.h:897-902) -/
def FMat.makeZero (J : FMat K) : FMat K := { J with data := J.data.map (fun e => (e.1, 0)) }

/-- `computeDescentDirection` (JacobianLazyFakeBroydenUpdateNewtonDescentDirection.h:47-91) -/
def Dir.lazy (F : Mapping K) (dx : K) (trim : Trimmer K) (x0 f0 : List K) (it : Nat) (s : Dir K) :
    Res (Dir K × List K) := do
  let s : Dir K := { s with lastIter := it }
  let recalc := it = 0 ∧ (s.prov.J.data.isEmpty ∨ s.action = .recompute)
  let s ← (if recalc then do
      let prov ← s.prov.compute F dx trim x0
      let lu ← setOrFast s.lu prov.J
      .ok { s with prov := prov, dJ := prov.J.makeZero, lu := lu }
    else match s.prev with
      | none => .ok s
      | some pr => do
        let dxv ← vsub x0 pr.1
        let df ← vsub f0 pr.2
        let left ← updateLeft s.prov.J dxv df
        let d ← addOuter left dxv s.dJ.data
        .ok { s with dJ := { s.dJ with data := d } } : Res (Dir K))
  let s ← (if it = 0 ∧ s.action = .update then do
      let J ← addFast s.prov.J s.dJ
      let lu ← LU.setMatrixFast s.lu J.data
      .ok { s with prov := { s.prov with J := J }, dJ := s.dJ.makeZero, lu := lu }
    else .ok s : Res (Dir K))
  let r ← solveNeg s.lu f0
  .ok ({ s with lu := r.1, prev := some (x0, f0) }, r.2)

/-- `computeDescentDirection` by kind -/
def Dir.direction (k : DirKind) (F : Mapping K) (dx : K) (trim : Trimmer K) (x0 f0 : List K)
    (it : Nat) (s : Dir K) : Res (Dir K × List K) :=
  match k with
  | .simple => s.simple F dx trim x0 f0
  | .const => s.const F dx trim x0 f0
  | .broyden => s.broyden F dx trim x0 f0
  | .fakeBroyden => s.fakeBroyden F dx trim x0 f0
  | .hart => s.hart F dx trim x0 f0
  | .lazy _ => s.lazy F dx trim x0 f0 it

end

/-! ### Trimmers -/

section
variable {K : Type} [Field K] [LinearOrder K]

/-- `trimJacobian` (JacobianThresholdBasedTrimmer.h:23-40) -/
def thresholdTrim (threshold : K) (J : Sparse.Mat K) : Sparse.Mat K :=
  if threshold = 0 then J
  else
    let jmax := J.data.foldl (fun m e => max m |e.2|) 0
    if jmax = 0 then J
    else
      let absThreshold := threshold * jmax
      ⟨J.size, J.data.foldl (fun d e =>
        if e.1.1 = e.1.2 ∨ |e.2| ≥ absThreshold then d.set e.1 e.2 else d) []⟩

end

/-- Conversion to a 32-bit `int` (two's complement) -/
def toInt32 (a : Int) : Int := (a + 2147483648) % 4294967296 - 2147483648

section
variable {K : Type} [Field K]

/-- `trimJacobian` (JacobianWidthBasedTrimmer.h:21-32); `width` is a 32-bit unsigned number, the row and
column numbers are 32-bit unsigned numbers, `std::abs` of the least `int` is undefined. -/
def widthTrim (width : Nat) (J : Sparse.Mat K) : Res (Sparse.Mat K) :=
  if width = 0 then .ok J
  else do
    let d ← J.data.foldlM (fun d e =>
      let k := toInt32 ((e.1.1 : Int) - e.1.2)
      if k = -2147483648 then .error .ub
      else if |k| < toInt32 width then .ok (Sparse.Data.set d e.1 e.2) else .ok d) []
    .ok ⟨J.size, d⟩

end

end Verif.Alg
