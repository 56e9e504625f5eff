import Verif.Driver.RunProps
import Verif.Extrap.Model
import Verif.Ros.Model

/-
The solvers of the library as solvers of `solveOde` (OdeSolverConfiguration.h:337-358): what they show, and the calls of the
post-observers during `doStep`, each with what the solver shows at the time of the call. OdeSolverExplicitRK is in RunProps.lean.

Loops that end only when a step is accepted make at most `fuel` passes here; a loop that needs more counts as a fault, so that
statements on runs that return are statements on runs of the code.
-/

namespace Verif.Driver

open Verif.Res

section
variable {K V E S Q D : Type}

/-- The call recorded last in the log of observer calls, if it is one of a post-observer -/
def noteOf (t : K) (x : V) (log : List (RK.Obs K)) : List (Note K V) :=
  match log with
  | .post h a ch tr _ :: _ => [⟨t, x, h, a, ch, tr⟩]
  | _ => []

/-- Passes of the loop of `doStep` (OdeSolverExplicitEmbeddedRK.h:76-150, OdeSolverExtrapolator.h:91-204), given what one pass does and what it tells the post-observers at its end -/
def passes (attempt : S → Res (RK.Attempt S)) (note : S → List (Note K V)) : Nat → S → List (Note K V) × Res S
  | 0, _ => ([], .error (.exc "more passes needed"))
  | fuel + 1, s =>
    match attempt s with
    | .error e => ([], .error e)
    | .ok (.thrown msg _) => ([], .error (.exc msg))
    | .ok (.accepted s') => (note s', .ok s')
    | .ok (.rejected s') =>
      let r := passes attempt note fuel s'
      (note s' ++ r.1, r.2)

/-- OdeSolverExplicitEmbeddedRK (OdeSolverExplicitEmbeddedRK.h:74-151) -/
def emb [Zero K] [Add K] [Mul K] [NatCast K] [DecidableEq K] [LT K] [DecidableLT K] [LE K] [DecidableLE K] [Zero V] [Add V]
    [Sub V] [SMul K V] (m : RK.EmbMethod K V E) (fuel : Nat) : Solver K V (RK.FixedSt K V E) where
  hasRhs _ := true
  time s := s.t
  state s := s.x
  doStep := passes (·.attempt m) (fun s => noteOf s.t s.x s.log) fuel

variable [Field K] [LinearOrder K]

/-- OdeSolverExtrapolator (OdeSolverExtrapolator.h:89-205) -/
def extrapolator [AddCommGroup V] [Module K V] (m : Extrap.ExMethod K V E S Q) (fuel : Nat) :
    Solver K V (Extrap.ExSt K V E S Q) where
  hasRhs _ := true
  time s := s.t
  state s := s.x
  doStep := passes (·.attempt m) (fun s => noteOf s.t s.x s.log) fuel

/-- OdeSolverGragg (OdeSolverGragg.h:39-49, 64-124); what it shows as its state is smoothed if so set. -/
def gragg [AddCommGroup V] [Module K V] (m : Extrap.GrMethod K V E) : Solver K V (Extrap.GrSt K V E) where
  hasRhs _ := true
  time s := s.t
  state s := s.initialState m
  doStep s :=
    match s.doStep m with
    | .ok s' => (noteOf s'.t (s'.initialState m) s'.log, .ok s')
    | .error e => ([], .error e)

/-- OdeSolverRosenbrock_W1 (OdeSolverRosenbrock_W1.h:57-106) -/
def w1 (M : Ros.Method K E) : Solver K (List K) (Ros.St K E) where
  hasRhs _ := true
  time s := s.t
  state s := s.x
  doStep s :=
    match s.doStep1 M with
    | .ok s' => (noteOf s'.t s'.x s'.log, .ok s')
    | .error e => ([], .error e)

/-- Passes of the loop of `doStep` of SW2(4) (OdeSolverRosenbrock_SW2_4.h:71-184): `initStep` is called in the first one only. -/
def sw24Passes (M : Ros.Method K E) : Nat → Bool → Ros.St K E → List (Note K (List K)) × Res (Ros.St K E)
  | 0, _, _ => ([], .error (.exc "more passes needed"))
  | fuel + 1, first, s =>
    let s := { s with log := .pre (some s.h) :: s.log }
    match (if first then s.initStep2 M else .ok s : Res (Ros.St K E)) with
    | .error e => ([], .error e)
    | .ok s =>
      match s.attempt M with
      | .error e => ([], .error e)
      | .ok (.thrown msg _) => ([], .error (.exc msg))
      | .ok (.accepted s') => (noteOf s'.t s'.x s'.log, .ok s')
      | .ok (.rejected s') =>
        let r := sw24Passes M fuel false s'
        (noteOf s'.t s'.x s'.log ++ r.1, r.2)

/-- OdeSolverRosenbrock_SW2_4 (OdeSolverRosenbrock_SW2_4.h:67-185) -/
def sw24 (M : Ros.Method K E) (fuel : Nat) : Solver K (List K) (Ros.St K E) where
  hasRhs _ := true
  time s := s.t
  state s := s.x
  doStep := sw24Passes M fuel true

/-- OdeSolverImplicitEuler (OdeSolverImplicitEuler.h:78-159): the post-observers are called once, at the end (145-151). The step
counts as accepted and its size as unchanged, which are the defaults of the argument (interfaces/OdeSolver.h:28-34). -/
def implicitEuler (M : Implicit.IMethod D K E) : Solver K (List K) (Implicit.ISolver D K E) where
  hasRhs _ := true
  time s := s.map.t0
  state s := s.map.x0
  doStep s :=
    match s.doStep M with
    | .ok (s', tr) => ([⟨s'.map.t0, s'.map.x0, s.hInit, true, false, tr⟩], .ok s')
    | .error e => ([], .error e)

end

end Verif.Driver
