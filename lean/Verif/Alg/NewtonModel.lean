import Verif.Alg.JacModel

/-
Model of include/ode_num_int/alg/: SimpleNewtonLinearSearch.h, SimpleErrorEstimator.h,
NewtonIterationPerformerImpl.h, NewtonSolver.h.

Simplifications: exact arithmetic, except that a quotient with denominator zero is an infinity or not
a number as in the code and compares accordingly; observers of the line search and of the error
estimator only observe; pointers are not null; the string of the current status is left out.
-/

namespace Verif.Alg

open Verif.Res

section
variable {K : Type} [Field K] [LinearOrder K]

/-- `x += dir * beta` (VectorTemplate.h:341-347 with the scaled copy, 358-362, or the scaled view,
389-391 of `dir`) -/
def addScaled (x dir : List K) (beta : K) : Res (List K) :=
  loop 0 x.length (fun i r => do
    let a ← at' r i
    let b ← at' dir i
    atSet r i (a + b * beta)) x

/-- `infNorm` (VectorTemplate.h:399-404) -/
def infNorm (v : List K) : K := v.foldl (fun m x => max m |x|) 0

/-! ### Line search -/

/-- Variables of `lineSearch`: `f_f0Best`, `alphaBest`, `*residual`, and the number of evaluations
made (`iteration`) -/
structure Search (K : Type) where
  best : K
  alphaBest : K
  residual : List K
  evaluations : Nat
  deriving DecidableEq

/-- The loop over truncations (SimpleNewtonLinearSearch.h:48-59 and 63-74), `left` rounds at most; also
whether it was left by `break`. If `f0Norm2` is zero the quotient is infinite or not a number: neither is
less than anything. -/
def truncations (F : Mapping K) (dir x0 : List K) (f0Norm2 : K) : Nat → K → Search K →
    Res (Search K × Bool)
  | 0, _, s => .ok (s, false)
  | left + 1, alpha, s => do
    let x ← addScaled x0 dir alpha
    let f ← F.map x
    let s := if f0Norm2 ≠ 0 ∧ normSq f / f0Norm2 < s.best
      then ⟨normSq f / f0Norm2, alpha, f, s.evaluations + 1⟩
      else { s with evaluations := s.evaluations + 1 }
    if s.best < 4 / 5 then .ok (s, true)
    else truncations F dir x0 f0Norm2 left (alpha / 2) s

/-- `lineSearch` (SimpleNewtonLinearSearch.h:24-81): the ratio, the residual written and the number of
evaluations; `limit` is `m_maxStepTruncations`, `res` the residual before. -/
def lineSearch (F : Mapping K) (limit : Nat) (dir x0 f0 res : List K) : Res (K × List K × Nat) := do
  let f0Norm2 := normSq f0
  let r ← truncations F dir x0 f0Norm2 limit 1 ⟨1, 1, res, 0⟩
  if r.2 = false ∧ r.1.best = 1 then do
    let r ← truncations F dir x0 f0Norm2 limit (-1) { r.1 with alphaBest := -1 }
    if r.2 = false ∧ r.1.best = 1 then .ok (0, r.1.residual, r.1.evaluations)
    else .ok (r.1.alphaBest, r.1.residual, r.1.evaluations)
  else .ok (r.1.alphaBest, r.1.residual, r.1.evaluations)

/-! ### Error estimator -/

/-- `ErrorEstimator::Status` -/
inductive Status
  | converged
  | proceed
  | diverged
  deriving DecidableEq

/-- Members of SimpleErrorEstimator (SimpleErrorEstimator.h:137-144) -/
structure Est (K : Type) where
  absTol : K
  relTol : K
  absMax : K
  relMax : K
  current : List K
  absError : K
  relError : K
  deriving DecidableEq

/-- `reset` (SimpleErrorEstimator.h:32-37) -/
def Est.reset (guess : List K) (e : Est K) : Est K :=
  { e with current := guess, absError := 0, relError := 0 }

/-- `setCurrentSolution` (SimpleErrorEstimator.h:39-47) -/
def Est.setCurrentSolution (solution residual : List K) (e : Est K) : Res (Est K) := do
  let dx ← vsub solution e.current
  let xnorm := infNorm e.current
  .ok { e with
    relError := if xnorm > 0 then infNorm dx / xnorm else 0
    current := solution
    absError := infNorm residual }

/-- `currentStatus` (SimpleErrorEstimator.h:49-58) -/
def Est.status (e : Est K) : Status :=
  if e.absError ≤ e.absTol ∧ e.relError ≤ e.relTol then .converged
  else if e.absMax > 0 ∧ e.absError ≥ e.absMax then .diverged
  else if e.relMax > 0 ∧ e.relError ≥ e.relMax then .diverged
  else .proceed

/-! ### Iteration performer -/

/-- The components of an iteration performer that its user can choose: the mapping, the operations of the
descent direction with states `D`, and the line search, given the direction, the point, the residual and
the vector the new residual is written to. -/
structure Parts (D K : Type) where
  F : Mapping K
  dirReset : Bool → D → D
  direction : List K → List K → Nat → D → Res (D × List K)
  hardResetMayHelp : D → Bool
  reportSuccess : Bool → D → D
  search : List K → List K → List K → List K → Res (K × List K)

/-- Members of NewtonIterationPerformerImpl (NewtonIterationPerformerImpl.h:74-78; `m_hardResetTried` is
never read), the error estimator and the state of the descent direction -/
structure Perf (D K : Type) where
  x : List K
  f : List K
  fValid : Bool
  ratio : K
  est : Est K
  dir : D

variable {D : Type}

/-- `reset` (NewtonIterationPerformerImpl.h:33-38) -/
def Perf.reset (P : Parts D K) (hard : Bool) (s : Perf D K) : Perf D K :=
  { s with ratio := 1, est := s.est.reset s.x, dir := P.dirReset hard s.dir }

/-- `setInitialGuess` (NewtonIterationPerformerImpl.h:26-31) -/
def Perf.setInitialGuess (P : Parts D K) (guess : List K) (hard : Bool) (s : Perf D K) : Perf D K :=
  ({ s with x := guess, fValid := false } : Perf D K).reset P hard

/-- `currentResidual` (NewtonIterationPerformerImpl.h:60-67) -/
def Perf.currentResidual (P : Parts D K) (s : Perf D K) : Res (Perf D K) :=
  if s.fValid then .ok s
  else do
    let f ← P.F.map s.x
    .ok { s with f := f, fValid := true }

/-- `iteration` (NewtonIterationPerformerImpl.h:40-54) -/
def Perf.iteration (P : Parts D K) (it : Nat) (s : Perf D K) : Res (Perf D K × Status) := do
  let s ← s.currentResidual P
  let d ← P.direction s.x s.f it s.dir
  let r ← P.search d.2 s.x s.f s.f
  let x ← addScaled s.x d.2 r.1
  let est ← s.est.setCurrentSolution x r.2
  let status := if r.1 = 0 ∧ est.status = .proceed then .diverged else est.status
  .ok ({ s with x := x, f := r.2, ratio := r.1, est := est, dir := d.1 }, status)

/-! ### Solver -/

/-- `NewtonSolverInterface::Status` -/
inductive RunStatus
  | converged
  | diverged
  | terminated
  | limitExceeded
  deriving DecidableEq

end

/-- What `NewtonSolver::run` calls, over states `σ` of everything: the iteration performer, the iteration
observers (NewtonSolver.h:61; true: stop), the regularization strategy (NewtonSolver.h:106-110) and the
descent direction. -/
structure Env (σ X : Type) where
  iteration : Nat → σ → Res (σ × Status)
  observers : Nat → σ → Res (σ × Bool)
  adjust : σ → Res (σ × Bool)
  reset : Bool → σ → Res σ
  setInitialGuess : X → Bool → σ → Res σ
  solution : σ → X
  hardResetMayHelp : σ → Bool
  reportSuccess : Bool → σ → Res σ

/-- The loop `for( ; !breakLoop && iterationNumber<m_iterationCountLimit; ++iterationNumber )`
(NewtonSolver.h:59-84): what `run` returns if it returns there, and the iteration number. `it` plus `left`
is the iteration count limit. -/
def Env.iterations {σ X : Type} (E : Env σ X) (tried : Bool) (bias : Nat) :
    Nat → Nat → σ → Res (σ × Option RunStatus × Nat)
  | 0, it, s => .ok (s, none, it)
  | left + 1, it, s => do
    let r ← E.iteration it s
    let o ← E.observers ((it + bias) % 4294967296) r.1
    if o.2 then .ok (o.1, some .terminated, it)
    else do
      let a ← E.adjust o.1
      match r.2 with
      | .converged =>
        if a.2 then E.iterations tried bias left (it + 1) a.1
        else do
          let s ← E.reportSuccess true a.1
          .ok (s, some .converged, it)
      | .proceed => E.iterations tried bias left (it + 1) a.1
      | .diverged =>
        if a.2 then E.iterations tried bias left (it + 1) a.1
        else do
          let s ← E.reportSuccess false a.1
          if tried then .ok (s, some .diverged, it)
          else .ok (s, none, it + 1)

/-- `run` (NewtonSolver.h:48-97); the loop `while( true )` makes two rounds at most and is unrolled. -/
def Env.run {σ X : Type} (E : Env σ X) (limit : Nat) (s : σ) : Res (σ × RunStatus) := do
  let s ← E.reset false s
  let x0 := E.solution s
  let r ← E.iterations false 0 limit 0 s
  match r.2.1 with
  | some st => .ok (r.1, st)
  | none =>
    if E.hardResetMayHelp r.1 then do
      let s ← E.setInitialGuess x0 true r.1
      let r ← E.iterations true r.2.2 limit 0 s
      match r.2.1 with
      | some st => .ok (r.1, st)
      | none => do
        let s ← E.reportSuccess false r.1
        .ok (s, .limitExceeded)
    else do
      let s ← E.reportSuccess false r.1
      .ok (s, .limitExceeded)

section
variable {K D : Type} [Field K] [LinearOrder K]

/-- The solver with an iteration performer as above, no regularization strategy, and observers that are
given the number and look at the performer -/
def Parts.env (P : Parts D K) (observers : Nat → Perf D K → Res Bool) : Env (Perf D K) (List K) where
  iteration it s := s.iteration P it
  observers n s := do
    let b ← observers n s
    .ok (s, b)
  adjust s := .ok (s, false)
  reset hard s := .ok (s.reset P hard)
  setInitialGuess x hard s := .ok (s.setInitialGuess P x hard)
  solution s := s.x
  hardResetMayHelp s := P.hardResetMayHelp s.dir
  reportSuccess b s := .ok { s with dir := P.reportSuccess b s.dir }

/-- The library's components: a descent direction of kind `k` without a trimmer (the increment of the
finite differences is `dx`) and the simple line search with the given limit -/
def parts (k : DirKind) (F : Mapping K) (dx : K) (truncationLimit : Nat) : Parts (Dir K) K where
  F := F
  dirReset hard s := s.reset k hard
  direction x0 f0 it s := s.direction k F dx none x0 f0 it
  hardResetMayHelp s := s.hardResetMayHelp k
  reportSuccess b s := s.reportSuccess k b
  search dir x0 f0 res := do
    let r ← lineSearch F truncationLimit dir x0 f0 res
    .ok (r.1, r.2.1)

end

end Verif.Alg
