import Verif.Basic
import Mathlib.Algebra.Module.Defs
import Mathlib.Data.Rat.Defs

/-
Model of include/ode_num_int/ode/ExplicitRKHelper.h, the tableaux of the explicit solvers, and
the stepping of OdeSolverExplicitRK.h.

Simplifications, common to all definitions:
 * arithmetic is exact;
 * state vectors are elements of a module over the scalars, i.e. all vectors have the number of
   components of the state (asserted in the code);
 * the right-hand side is a function of time and state; hooks `beforeStep`, `beforeStep2` do
   nothing (they do nothing in the interface) and timers are left out.
-/

namespace Verif.RK

open Verif.Res

/-- `ExplicitRKHelper::Coefficients` (ExplicitRKHelper.h:19-36) -/
structure Coefficients (R : Type) where
  a : List R
  b : List R
  c : List R
  lastK : Int

/-- `ExplicitRKHelper::Output` (ExplicitRKHelper.h:38-58) -/
structure Output (V : Type) where
  k : List V
  x2 : List V
  buf : V

section
variable {R V : Type} [Zero R] [Add R] [Mul R] [DecidableEq R] [Add V] [SMul R V]

/-- Inner loop of `compute` (73-75): `for i < stage: if *a != 0: buf += k[i]*(h * *a); ++a`.
The state is (buf, position of the pointer `a`). -/
def stageArg (a : List R) (k : List V) (h : R) (stage : Nat) (x1 : V) (pos : Nat) :
    Res (V × Nat) :=
  loop 0 stage (fun i (s : V × Nat) => do
    let av ← raw a s.2
    if av ≠ 0 then do
      let ki ← raw k i
      .ok (s.1 + (h * av) • ki, s.2 + 1)
    else .ok (s.1, s.2 + 1)) (x1, pos)

/-- Body of the stage loop (71-77); the state is (output, position of the pointer `a`). -/
def stageStep (co : Coefficients R) (rhs : R → V → V) (x1 : V) (t1 h : R) (stage : Nat)
    (s : Output V × Nat) : Res (Output V × Nat) := do
  let (buf, pos) ← stageArg co.a s.1.k h stage x1 s.2
  let c ← raw co.c (stage - 1)
  let k ← rawSet s.1.k stage (rhs (t1 + h * c) buf)
  .ok ({ s.1 with k := k, buf := buf }, pos)

/-- Loop over `b` for one output (87-91) -/
def combine (b : List R) (k : List V) (h : R) (stages : Nat) (x1 : V) (pos : Nat) :
    Res (V × Nat) :=
  loop 0 stages (fun i (s : V × Nat) => do
    let bv ← raw b s.2
    if bv ≠ 0 then do
      let ki ← raw k i
      .ok (s.1 + (h * bv) • ki, s.2 + 1)
    else .ok (s.1, s.2 + 1)) (x1, pos)

/-- Body of the loop over outputs (80-93); the state is (output, position of the pointer `b`).
The comparison of the unsigned `ix` with the int index is modelled on mathematical integers. -/
def outputStep (co : Coefficients R) (stages : Nat) (x1 : V) (h : R) (ix : Nat)
    (s : Output V × Nat) : Res (Output V × Nat) :=
  if (ix : Int) = co.lastK then do
    let old ← raw s.1.x2 ix
    let x2 ← rawSet s.1.x2 ix s.1.buf
    .ok ({ s.1 with x2 := x2, buf := old }, s.2 + stages)
  else do
    let (v, pos) ← combine co.b s.1.k h stages x1 s.2
    let x2 ← rawSet s.1.x2 ix v
    .ok ({ s.1 with x2 := x2 }, pos)

/-- `ExplicitRKHelper::compute` (60-94) -/
def compute (o : Output V) (co : Coefficients R) (rhs : R → V → V) (x1 : V) (t1 h : R) :
    Res (Output V) := do
  let stages := o.k.length
  let x2Count := o.x2.length
  let k ← rawSet o.k 0 (rhs t1 x1)
  let (o, _) ← loop 1 stages (stageStep co rhs x1 t1 h) ({ o with k := k }, 0)
  let (o, _) ← loop 0 x2Count (outputStep co stages x1 h) (o, 0)
  .ok o

end

/-! ### Tableaux

Coefficients are the exact quotients written in the source, not their floating-point values. -/

/-- OdeSolverExplicitEuler.h:20-33 -/
def euler : Coefficients ℚ := ⟨[], [1], [], -1⟩

/-- OdeSolverRK4.h:20-36 -/
def rk4 : Coefficients ℚ where
  a := [1/2,
        0, 1/2,
        0, 0, 1]
  b := [1/6, 1/3, 1/3, 1/6]
  c := [1/2, 1/2, 1]
  lastK := -1

/-- OdeSolverDOPRI45.h:20-41 -/
def dopri45 : Coefficients ℚ where
  a := [1/5,
        3/40, 9/40,
        44/45, -56/15, 32/9,
        19372/6561, -25360/2187, 64448/6561, -212/729,
        9017/3168, -355/33, 46732/5247, 49/176, -5103/18656,
        35/384, 0, 500/1113, 125/192, -2187/6784, 11/84]
  b := [35/384, 0, 500/1113, 125/192, -2187/6784, 11/84, 0,
        5179/57600, 0, 7571/16695, 393/640, -92097/339200, 187/2100, 1/40]
  c := [1/5, 3/10, 4/5, 8/9, 1, 1]
  lastK := 0

/-- OdeSolverDOPRI56.h:20-42 -/
def dopri56 : Coefficients ℚ where
  a := [1/10,
        -2/81, 20/81,
        615/1372, -270/343, 1053/1372,
        3243/5500, -54/55, 50949/71500, 4998/17875,
        -26492/37125, 72/55, 2808/23375, -24206/37125, 338/459,
        5561/2376, -35/11, -24117/31603, 899983/200772, -5225/1836, 3925/4056,
        465467/266112, -2945/1232, -5610201/14158144, 10513573/3212352, -424325/205632,
          376225/454272, 0]
  b := [61/864, 0, 98415/321776, 16807/146016, 1375/7344, 1375/5408, -37/1120, 1/10,
        821/10800, 0, 19683/71825, 175273/912600, 395/3672, 785/2704, 3/50, 0]
  c := [1/10, 2/9, 3/7, 3/5, 4/5, 1, 1]
  lastK := -1

/-- OdeSolverDOPRI78.h:20-47 -/
def dopri78 : Coefficients ℚ where
  a := [1/18,
        1/48, 1/16,
        1/32, 0, 3/32,
        5/16, 0, -75/64, 75/64,
        3/80, 0, 0, 3/16, 3/20,
        29443841/614563906, 0, 0, 77736538/692538347, -28693883/1125000000, 23124283/1800000000,
        16016141/946692911, 0, 0, 61564180/158732637, 22789713/633445777, 545815736/2771057229,
        -180193667/1043307555,
        39632708/573591083, 0, 0, -433636366/683701615, -421739975/2616292301,
        100302831/723423059, 790204164/839813087, 800635310/3783071287,
        246121993/1340847787, 0, 0, -37695042795/15268766246, -309121744/1061227803,
        -12992083/490766935, 6005943493/2108947869, 393006217/1396673457, 123872331/1001029789,
        -1028468189/846180014, 0, 0, 8478235783/508512852, 1311729495/1432422823,
        -10304129995/1701304382, -48777925059/3047939560, 15336726248/1032824649,
        -45442868181/3398467696, 3065993473/597172653,
        185892177/718116043, 0, 0, -3185094517/667107341, -477755414/1098053517,
        -703635378/230739211, 5731566787/1027545527, 5232866602/850066563,
        -4093664535/808688257, 3962137247/1805957418, 65686358/487910083,
        403863854/491063109, 0, 0, -5068492393/434740067, -411421997/543043805,
        652783627/914296604, 11173962825/925320556, -13158990841/6184727034,
        3936647629/1978049680, -160528059/685178525, 248638103/1413531060, 0]
  b := [14005451/335480064, 0, 0, 0, 0, -59238493/1068277825, 181606767/758867731,
        561292985/797845732, -1041891430/1371343529, 760417239/1151165299, 118820643/751138087,
        -528747749/2220607170, 1/4,
        13451932/455176623, 0, 0, 0, 0, -808719846/976000145, 1757004468/5645159321,
        656045339/265891186, -3867574721/1518517206, 465885868/322736535, 53011238/667516719,
        2/45, 0]
  c := [1/18, 1/12, 1/8, 5/16, 3/8, 59/400, 93/200, 5490023248/9719169821, 13/20,
        1201146811/1299019798, 1, 1]
  lastK := -1

end Verif.RK
