import Verif.RK.Solver
import Verif.Alg.NewtonModel

/-
Numbers with infinities and not-a-number, and what the library does with them: the maximum norm of
VectorTemplate.h, OdeStepSizeSimpleController.h, SimpleErrorEstimator.h, SimpleNewtonLinearSearch.h and
NewtonIterationPerformerImpl.h. The explicit solvers are those of `Verif.RK.Solver`, whose definitions do not
say what the arithmetic is; `NewtonSolver::run` is that of `Verif.Alg.NewtonModel`.

Simplifications:
 * operations on numbers are exact and never overflow; infinities and not-a-number come from the right-hand
   side, from the mapping, from the linear solver, or from a division by zero;
 * zero has no sign: a divisor zero is taken as positive zero. All divisors in the code modelled here are norms,
   sums of squares and step sizes;
 * vectors have the number of components of the state (asserted in the code).
-/

namespace Verif.Special

/-- Values of `double` -/
inductive Fl (K : Type) where
  | num (a : K)
  | inf (neg : Bool)
  | nan
  deriving DecidableEq

namespace Fl

section
variable {K : Type} [Field K] [LinearOrder K]

instance : Zero (Fl K) := ⟨num 0⟩
instance : One (Fl K) := ⟨num 1⟩
instance : NatCast (Fl K) := ⟨fun n => num n⟩

/-- IEEE 754 negation -/
def neg : Fl K → Fl K
  | num a => num (-a)
  | inf s => inf !s
  | nan => nan

instance : Neg (Fl K) := ⟨neg⟩

/-- IEEE 754 addition -/
def add : Fl K → Fl K → Fl K
  | nan, _ => nan
  | _, nan => nan
  | num a, num b => num (a + b)
  | inf s, inf t => if s = t then inf s else nan
  | inf s, num _ => inf s
  | num _, inf t => inf t

instance : Add (Fl K) := ⟨add⟩

/-- IEEE 754 subtraction -/
def sub (x y : Fl K) : Fl K := x + -y

instance : Sub (Fl K) := ⟨sub⟩

/-- Sign of a number, zero being positive -/
def sgn (a : K) : Bool := decide (a < 0)

/-- IEEE 754 multiplication -/
def mul : Fl K → Fl K → Fl K
  | nan, _ => nan
  | _, nan => nan
  | num a, num b => num (a * b)
  | inf s, inf t => inf (s != t)
  | inf s, num b => if b = 0 then nan else inf (s != sgn b)
  | num a, inf t => if a = 0 then nan else inf (sgn a != t)

instance : Mul (Fl K) := ⟨mul⟩

/-- IEEE 754 division -/
def div : Fl K → Fl K → Fl K
  | nan, _ => nan
  | _, nan => nan
  | num a, num b => if b = 0 then (if a = 0 then nan else inf (sgn a)) else num (a / b)
  | inf _, inf _ => nan
  | inf s, num b => inf (s != sgn b)
  | num _, inf _ => num 0

instance : Div (Fl K) := ⟨div⟩

/-- IEEE 754 comparison `<`: false if one side is not a number -/
def lt : Fl K → Fl K → Prop
  | num a, num b => a < b
  | num _, inf t => t = false
  | inf s, num _ => s = true
  | inf s, inf t => s = true ∧ t = false
  | _, _ => False

instance : LT (Fl K) := ⟨lt⟩

instance : DecidableLT (Fl K) := fun x y => by
  change Decidable (lt x y)
  cases x <;> cases y <;> unfold lt <;> infer_instance

/-- IEEE 754 comparison `<=`: false if one side is not a number -/
def le : Fl K → Fl K → Prop
  | num a, num b => a ≤ b
  | num _, inf t => t = false
  | inf s, num _ => s = true
  | inf s, inf t => s = true ∨ t = false
  | _, _ => False

instance : LE (Fl K) := ⟨le⟩

instance : DecidableLE (Fl K) := fun x y => by
  change Decidable (le x y)
  cases x <;> cases y <;> unfold le <;> infer_instance

/-- `std::fabs` (VectorTemplate.h:403) -/
def abs : Fl K → Fl K
  | num a => num |a|
  | inf _ => inf false
  | nan => nan

/-- `std::max( a, b )` (VectorTemplate.h:403): the second if it is greater, otherwise the first -/
def max (a b : Fl K) : Fl K := if a < b then b else a

/-- `std::pow` (OdeStepSizeSimpleController.h:39) with a positive exponent; `pow` is the function on
numbers -/
def pow (pw : K → K → K) : Fl K → Fl K → Fl K
  | num a, num y => num (pw a y)
  | inf false, num _ => inf false
  | _, _ => nan

end

end Fl

open Fl

section
variable {K : Type} [Field K] [LinearOrder K]

/-- State vectors (VectorTemplate.h:300-301) -/
abbrev V (K : Type) (n : Nat) := Fin n → Fl K

/-- `infNorm` (VectorTemplate.h:399-405) -/
def infNorm {n : Nat} (v : V K n) : Fl K := (List.ofFn v).foldl (fun r x => Fl.max r x.abs) 0

/-- `euclideanNormSquare` (VectorTemplate.h:415-421) -/
def normSq {n : Nat} (v : V K n) : Fl K := (List.ofFn v).foldl (fun s x => s + x * x) 0

/-! ### Step size controller -/

/-- `controlStepSize` (OdeStepSizeSimpleController.h:32-60) -/
def control (c : RK.CtlParams K) (pw : K → K → K) (h err order : Fl K) : RK.CtlResult (Fl K) :=
  if err = 0 then ⟨h, true, false⟩
  else
    let p := Fl.pow pw (num c.tolerance / err) (1 / (order + 1))
    let pd := p * num c.insurance
    if 1 ≤ p then
      let over := (0 : Fl K) < num c.maxThreshold ∧ num c.maxThreshold < pd * h
      let pd := if over then num c.maxThreshold / h else pd
      if over ∧ pd < 1 then ⟨h, true, false⟩
      else if (0 : Fl K) < num c.incMin ∧ pd < num c.incMin then ⟨h, true, false⟩
      else
        let pd := if (0 : Fl K) < num c.incMax ∧ num c.incMax < pd then num c.incMax else pd
        ⟨h * pd, true, true⟩
    else if 1 - num RK.geomEps < p then ⟨h, true, false⟩
    else
      let pd := if (0 : Fl K) < num c.decMax ∧ pd < num c.decMax then num c.decMax else pd
      ⟨h * pd, false, true⟩

/-! ### Newton iterations -/

variable {n : Nat}

/-- `x += dir * beta` (VectorTemplate.h:341-347 with the scaled copy, 358-362, or the scaled view,
389-391 of `dir`) -/
def addScaled (x dir : V K n) (beta : Fl K) : V K n := fun i => x i + dir i * beta

/-- Variables of `lineSearch`: `f_f0Best`, `alphaBest`, `*residual`
(SimpleNewtonLinearSearch.h:30-33) -/
structure Search (K : Type) (n : Nat) where
  best : Fl K
  alphaBest : Fl K
  residual : V K n

/-- The loop over truncations (SimpleNewtonLinearSearch.h:48-59 and 63-74), `left` rounds at most; also
whether it was left by `break` -/
def truncations (F : V K n → V K n) (dir x0 : V K n) (f0Norm2 : Fl K) : Nat → Fl K → Search K n →
    Search K n × Bool
  | 0, _, s => (s, false)
  | left + 1, alpha, s =>
    let f := F (addScaled x0 dir alpha)
    let q := normSq f / f0Norm2
    let s := if q < s.best then ⟨q, alpha, f⟩ else s
    if s.best < num (4 / 5) then (s, true)
    else truncations F dir x0 f0Norm2 left (alpha * num (1 / 2)) s

/-- `lineSearch` (SimpleNewtonLinearSearch.h:24-81): the ratio and the residual written; `limit` is
`m_maxStepTruncations`, `res` the residual before. `f_f0Best` is never not-a-number, so `==` is equality. -/
def lineSearch (F : V K n → V K n) (limit : Nat) (dir x0 f0 res : V K n) : Fl K × V K n :=
  let f0Norm2 := normSq f0
  let r := truncations F dir x0 f0Norm2 limit 1 ⟨1, 1, res⟩
  if r.2 = false ∧ r.1.best = 1 then
    let r := truncations F dir x0 f0Norm2 limit (-1) { r.1 with alphaBest := -1 }
    if r.2 = false ∧ r.1.best = 1 then (0, r.1.residual)
    else (r.1.alphaBest, r.1.residual)
  else (r.1.alphaBest, r.1.residual)

/-- Members of SimpleErrorEstimator (SimpleErrorEstimator.h:137-144) -/
structure Est (K : Type) (n : Nat) where
  absTol : Fl K
  relTol : Fl K
  absMax : Fl K
  relMax : Fl K
  current : V K n
  absError : Fl K
  relError : Fl K

/-- `reset` (SimpleErrorEstimator.h:32-37) -/
def Est.reset (guess : V K n) (e : Est K n) : Est K n :=
  { e with current := guess, absError := 0, relError := 0 }

/-- `setCurrentSolution` (SimpleErrorEstimator.h:39-47) -/
def Est.setCurrentSolution (solution residual : V K n) (e : Est K n) : Est K n :=
  { e with
    relError := if 0 < infNorm e.current then infNorm (solution - e.current) / infNorm e.current else 0
    current := solution
    absError := infNorm residual }

/-- `currentStatus` (SimpleErrorEstimator.h:49-58) -/
def Est.status (e : Est K n) : Alg.Status :=
  if e.absError ≤ e.absTol ∧ e.relError ≤ e.relTol then .converged
  else if 0 < e.absMax ∧ e.absMax ≤ e.absError then .diverged
  else if 0 < e.relMax ∧ e.relMax ≤ e.relError then .diverged
  else .proceed

/-- The components of an iteration performer: the mapping, the operations of the descent direction with
states `D`, and the limit of the line search (NewtonIterationPerformerImpl.h:18-22,
SimpleNewtonLinearSearch.h:93) -/
structure Parts (D K : Type) (n : Nat) where
  F : V K n → V K n
  dirReset : Bool → D → D
  direction : V K n → V K n → Nat → D → D × V K n
  hardResetMayHelp : D → Bool
  reportSuccess : Bool → D → D
  limit : Nat

/-- Members of NewtonIterationPerformerImpl (NewtonIterationPerformerImpl.h:74-78), the error estimator and
the state of the descent direction -/
structure Perf (D K : Type) (n : Nat) where
  x : V K n
  f : V K n
  fValid : Bool
  ratio : Fl K
  est : Est K n
  dir : D

variable {D : Type}

/-- `reset` (NewtonIterationPerformerImpl.h:33-38) -/
def Perf.reset (P : Parts D K n) (hard : Bool) (s : Perf D K n) : Perf D K n :=
  { s with ratio := 1, est := s.est.reset s.x, dir := P.dirReset hard s.dir }

/-- `setInitialGuess` (NewtonIterationPerformerImpl.h:26-31) -/
def Perf.setInitialGuess (P : Parts D K n) (guess : V K n) (hard : Bool) (s : Perf D K n) : Perf D K n :=
  ({ s with x := guess, fValid := false } : Perf D K n).reset P hard

/-- `currentResidual` (NewtonIterationPerformerImpl.h:60-67) -/
def Perf.currentResidual (P : Parts D K n) (s : Perf D K n) : Perf D K n :=
  if s.fValid then s else { s with f := P.F s.x, fValid := true }

/-- `iteration` (NewtonIterationPerformerImpl.h:40-54); the ratio is never not-a-number, so `==` is
equality. -/
def Perf.iteration (P : Parts D K n) (it : Nat) (s : Perf D K n) : Perf D K n × Alg.Status :=
  let s := s.currentResidual P
  let d := P.direction s.x s.f it s.dir
  let r := lineSearch P.F P.limit d.2 s.x s.f s.f
  let x := addScaled s.x d.2 r.1
  let est := s.est.setCurrentSolution x r.2
  let status := if r.1 = 0 ∧ est.status = .proceed then .diverged else est.status
  ({ s with x := x, f := r.2, ratio := r.1, est := est, dir := d.1 }, status)

/-- The solver with an iteration performer as above and no regularization strategy (NewtonSolver.h:48-97);
`observers` look at the performer -/
def Parts.env (P : Parts D K n) (observers : Nat → Perf D K n → Bool) :
    Alg.Env (Perf D K n) (V K n) where
  iteration it s := .ok (s.iteration P it)
  observers k s := .ok (s, observers k s)
  adjust s := .ok (s, false)
  reset hard s := .ok (s.reset P hard)
  setInitialGuess x hard s := .ok (s.setInitialGuess P x hard)
  solution s := s.x
  hardResetMayHelp s := P.hardResetMayHelp s.dir
  reportSuccess b s := .ok { s with dir := P.reportSuccess b s.dir }

end

end Verif.Special
