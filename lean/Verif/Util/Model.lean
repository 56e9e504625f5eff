import Verif.Basic
import Mathlib.Algebra.Order.Floor.Ring
import Mathlib.Algebra.Order.Ring.Rat

/-
Model of the small utilities:
  include/ode_num_int/util/ErrorStats.h
  include/ode_num_int/timing/TimingStats.h
  include/ode_num_int/util/m_inline.h
  include/ode_num_int/util/sys_time.h
-/

namespace Verif.Util

/-! ### ErrorStats -/

/-- `class ErrorStats<X>` (util/ErrorStats.h:12-102).
The four data members. `X` is the vector type `V`; the operations used by the class
(`+=`, `sqr`, `fabs`, `max`) are componentwise (la/VectorTemplate.h:469-520), so `X` is
any ring with a lattice order, e.g. `Fin n → ℚ` with the pointwise operations.
`unsigned int m_sampleCount` is a `Nat` (no wrap after 2^32 samples). -/
structure ErrorStats (X : Type _) where
  errorMax : X
  errorSum : X
  errorSquareSum : X
  sampleCount : Nat
  deriving DecidableEq

namespace ErrorStats

variable {X : Type _} [CommRing X] [Lattice X]

/-- `explicit ErrorStats(const Y& zero)` (util/ErrorStats.h:21-27); the only caller passes
a zero vector (ode/util/RichardsonErrorCalculator.h:42). -/
def ofZero (zero : X) : ErrorStats X := ⟨zero, zero, zero, 0⟩

/-- `addSample` (util/ErrorStats.h:72-79). `std::fabs` is `|·|`, `math::sqr` is `e*e`. -/
def addSample (s : ErrorStats X) (error : X) : ErrorStats X :=
  let e := |error|
  { sampleCount := s.sampleCount + 1
    errorMax := e ⊔ s.errorMax
    errorSum := s.errorSum + e
    errorSquareSum := s.errorSquareSum + e * e }

/-- `operator+=` (util/ErrorStats.h:81-88), also `operator+` (90-95). -/
def merge (s that : ErrorStats X) : ErrorStats X :=
  { errorMax := s.errorMax ⊔ that.errorMax
    errorSum := s.errorSum + that.errorSum
    errorSquareSum := s.errorSquareSum + that.errorSquareSum
    sampleCount := s.sampleCount + that.sampleCount }

/-- A sequence of `addSample` calls. -/
def addSamples (s : ErrorStats X) (xs : List X) : ErrorStats X := xs.foldl addSample s

end ErrorStats

/-- `errorMeanValue` (util/ErrorStats.h:52-58), one component.
The division `1. / m_sampleCount` by zero samples is the outcome `divZero`. -/
def errorMeanValue {K : Type _} [Field K] [Lattice K] (s : ErrorStats K) : Res K :=
  if s.sampleCount = 0 then .error .divZero
  else .ok (s.errorSum * (1 / (s.sampleCount : K)))

/-- `errorMeanSqareDev` (util/ErrorStats.h:60-66), one component, without the final
`std::sqrt` (the model returns the radicand). -/
def errorMeanSqareDevSq {K : Type _} [Field K] [Lattice K] (s : ErrorStats K) : Res K :=
  if s.sampleCount = 0 then .error .divZero
  else .ok ((s.errorSum * s.errorSum + s.errorSquareSum) * (1 / (s.sampleCount : K)))

/-! ### TimingStats -/

/-- `class TimingStats` (timing/TimingStats.h:14-46). Ticks and counts are `Nat`
(no wrap-around). -/
structure TimingStats where
  time : Nat
  count : Nat
  deriving DecidableEq, Repr

namespace TimingStats

/-- default constructor (timing/TimingStats.h:17) -/
def init : TimingStats := ⟨0, 0⟩

/-- `add` (timing/TimingStats.h:38-41) -/
def add (s : TimingStats) (t : Nat) : TimingStats := ⟨s.time + t, s.count + 1⟩

/-- `operator+=` (timing/TimingStats.h:18-22) and `operator+` (23-27) -/
def merge (s that : TimingStats) : TimingStats := ⟨s.time + that.time, s.count + that.count⟩

/-- `averageTime` (timing/TimingStats.h:35-37), integer division. -/
def averageTime (s : TimingStats) : Nat := if s.count > 0 then s.time / s.count else 0

end TimingStats

/-! ### m_inline.h -/

/-- `inline unsigned int modp(int x, unsigned int m)` (util/m_inline.h:53-64).
`x` is meant in `[-2^31, 2^31)`, `m` in `[0, 2^32)`. `x % 0` is undefined behaviour, and so
is the negation of `INT_MIN`. For negative `x`, `-x` is converted to unsigned without
change. `m - (-x)%m` cannot wrap. -/
def modp (x : Int) (m : Nat) : Res Nat :=
  if m = 0 then .error .ub
  else if x < 0 then
    if x = -2147483648 then .error .ub
    else
      let xx := m - (-x).toNat % m
      .ok (if xx = m then 0 else xx)
  else .ok (x.toNat % m)

/-- `inline double modd(double x, double period, double bias)` (util/m_inline.h:67-73). -/
def modd {K : Type _} [Field K] [LinearOrder K] [IsStrictOrderedRing K] [FloorRing K]
    (x period bias : K) : Res K :=
  let x1 := x - bias
  if period = 0 then .error .divZero
  else
    let x2 := x1 - (⌊x1 / period⌋ : K) * period
    .ok (x2 + bias)

/-- `roundi` (util/m_inline.h:46-50); `static_cast<int>` of a non-negative value is the
floor. The range of `int` is not modelled. -/
def roundi {K : Type _} [Field K] [LinearOrder K] [IsStrictOrderedRing K] [FloorRing K]
    (x : K) : Int :=
  if 0 ≤ x then ⌊x + 1 / 2⌋ else -⌊-x + 1 / 2⌋

namespace Cubic

variable {K : Type _} [CommRing K]

/-- util/m_inline.h:76 -/ def f00 (t : K) : K := 1 + t*t*(t*2 - 3)
/-- util/m_inline.h:77 -/ def f01 (t : K) : K := t*t*(3 - t*2)
/-- util/m_inline.h:78 -/ def f10 (t : K) : K := t*(1 + t*(t - 2))
/-- util/m_inline.h:79 -/ def f11 (t : K) : K := t*t*(t - 1)
/-- util/m_inline.h:81 -/ def df00 (t : K) : K := t*(t*6 - 6)
/-- util/m_inline.h:82 -/ def df01 (t : K) : K := t*(6 - t*6)
/-- util/m_inline.h:83 -/ def df10 (t : K) : K := 1 + t*(3*t - 4)
/-- util/m_inline.h:84 -/ def df11 (t : K) : K := t*(3*t - 2)
/-- util/m_inline.h:86 -/ def d2f00 (t : K) : K := t*12 - 6
/-- util/m_inline.h:87 -/ def d2f01 (t : K) : K := 6 - t*12
/-- util/m_inline.h:88 -/ def d2f10 (t : K) : K := 6*t - 4
/-- util/m_inline.h:89 -/ def d2f11 (t : K) : K := 6*t - 2

/-- `CalcCubicPolynom` (util/m_inline.h:109-110) -/
def poly (f0 df0 f1 df1 t : K) : K :=
  f0 + t * (df0 + t * (3*(f1-f0) - 2*df0 - df1 + t * (df1 + df0 + 2*(f0-f1))))
/-- `CalcCubicPolynomD` (util/m_inline.h:112-113) -/
def polyD (f0 df0 f1 df1 t : K) : K :=
  df0 + t * (6*(f1-f0) - 4*df0 - 2*df1 + t * (3*(df1+df0) + 6*(f0-f1)))
/-- `CalcCubicPolynomD2` (util/m_inline.h:115-116) -/
def polyD2 (f0 df0 f1 df1 t : K) : K :=
  6*(f1-f0) - 4*df0 - 2*df1 + t * (6*(df1+df0) + 12*(f0-f1))
/-- `CalcCubicPolynomD3` (util/m_inline.h:118-119); the argument `t` is not used -/
def polyD3 (f0 df0 f1 df1 _t : K) : K := 6*(df1+df0) + 12*(f0-f1)

/-- A two-argument basis function: `g(x/L)*L^a/L^b`; `a`, `b` are the powers of `L` that
multiply and divide (util/m_inline.h:91-104: 91,92 `f00,f01`: (0,0); 93,94 `f10,f11`: (1,0);
96,97 `df00,df01`: (0,1); 98,99 `df10,df11`: (0,0); 101,102 `d2f00,d2f01`: (0,2);
103,104 `d2f10,d2f11`: (0,1)). `L = 0` is a division by zero. -/
def scaled {F : Type _} [Field F] [DecidableEq F] (g : F → F) (a b : Nat) (x L : F) : Res F :=
  if L = 0 then .error .divZero else .ok (g (x / L) * L ^ a / L ^ b)

end Cubic

/-! ### sys_time.h -/

/-- 32-bit truncation of `unsigned int` results. -/
def u32 (x : Nat) : Nat := x % 4294967296

/-- The three numbers printed by `FormatTimeSpanSec(unsigned long sec)`
(util/sys_time.h:74-84). `sec` is a 64-bit unsigned long, the three locals are 32-bit
`unsigned int`: `timeHr` is truncated on assignment, `60*timeHr`, `+ timeMin` and `60*(...)`
are computed modulo 2^32, the final subtraction modulo 2^64 and then truncated. -/
def timeParts (sec : Nat) : Nat × Nat × Nat :=
  let timeHr := u32 (sec / 3600)
  let timeMin := u32 ((sec / 60) % 60)
  let sub := u32 (60 * u32 (u32 (60 * timeHr) + timeMin))
  let timeSec := u32 ((sec + (18446744073709551616 - sub)) % 18446744073709551616)
  (timeHr, timeMin, timeSec)

/-- Decimal digits of an unsigned number, `oss << n`. -/
def dec (n : Nat) : List Char := Nat.toDigits 10 n

/-- `std::setw(w) << std::setfill('0')`: pad on the left to at least `w` characters. -/
def padLeft (w : Nat) (s : List Char) : List Char := List.replicate (w - s.length) '0' ++ s

/-- `FormatTimeSpanSec` (util/sys_time.h:74-84). -/
def formatTimeSpanSec (sec : Nat) : List Char :=
  let (h, m, s) := timeParts sec
  dec h ++ [':'] ++ padLeft 2 (dec m) ++ [':'] ++ padLeft 2 (dec s)

/-- `FormatTimeSpanMsec` (util/sys_time.h:86-91). -/
def formatTimeSpanMsec (msec : Nat) : List Char :=
  formatTimeSpanSec (msec / 1000) ++ ['.'] ++ padLeft 3 (dec (msec % 1000))

end Verif.Util
