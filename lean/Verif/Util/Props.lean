import Verif.Util.Lemmas
import Mathlib.Algebra.Order.BigOperators.Group.List
import Mathlib.Algebra.Order.Pi
import Mathlib.Algebra.Polynomial.Derivative
import Mathlib.Algebra.Polynomial.Eval.Defs
import Mathlib.Order.Bounds.Basic
import Mathlib.Data.Int.ModEq
import Mathlib.Data.Rat.Floor
import Mathlib.Data.Fin.VecNotation
import Mathlib.Tactic.FieldSimp
import Mathlib.Tactic.NormNum

/-! # Properties of the utilities: C54, C55, C56, C57, C60 -/

namespace Verif.Util

/-! ### C54: statistics of a sample sequence -/

section C54
variable {X : Type _} [CommRing X] [Lattice X]

/-- Specification: `s` is the statistics of the samples `xs`. -/
structure IsStatsOf (s : ErrorStats X) (xs : List X) : Prop where
  count : s.sampleCount = xs.length
  sum : s.errorSum = (xs.map (fun x => |x|)).sum
  square : s.errorSquareSum = (xs.map (fun x => |x| * |x|)).sum
  /-- the maximum is the least upper bound of zero and the absolute values -/
  max : IsLUB (insert 0 {a | ∃ x ∈ xs, a = |x|}) s.errorMax

/-- C54: adding the samples one by one to a zero-initialised object gives count, sum of
absolute values, sum of squares and maximum of absolute values. -/
theorem C54_stats (xs : List X) : IsStatsOf ((ErrorStats.ofZero (0 : X)).addSamples xs) xs where
  count := by simp [ErrorStats.addSamples_count, ErrorStats.ofZero]
  sum := by simp [ErrorStats.addSamples_sum, ErrorStats.ofZero]
  square := by simp [ErrorStats.addSamples_sq, ErrorStats.ofZero]
  max := by
    have key := ErrorStats.addSamples_max_le (ErrorStats.ofZero (0 : X)) xs
    constructor
    · have h := (key _).1 le_rfl
      rintro a (rfl | ⟨x, hx, rfl⟩)
      · exact h.1
      · exact h.2 x hx
    · intro b hb
      refine (key b).2 ⟨hb (Set.mem_insert _ _), fun x hx => hb (Set.mem_insert_of_mem _ ⟨x, hx, rfl⟩)⟩

/-- Statistics are determined by the samples. -/
theorem IsStatsOf.unique {s t : ErrorStats X} {xs : List X} (hs : IsStatsOf s xs)
    (ht : IsStatsOf t xs) : s = t := by
  cases s; cases t
  simp only [ErrorStats.mk.injEq]
  exact ⟨hs.max.unique ht.max, hs.sum.trans ht.sum.symm, hs.square.trans ht.square.symm,
    hs.count.trans ht.count.symm⟩

/-- C54: merging the statistics of two sample sequences gives the statistics of their
concatenation. -/
theorem C54_merge {s t : ErrorStats X} {xs ys : List X} (hs : IsStatsOf s xs)
    (ht : IsStatsOf t ys) : IsStatsOf (s.merge t) (xs ++ ys) where
  count := by simp [ErrorStats.merge, hs.count, ht.count]
  sum := by simp [ErrorStats.merge, hs.sum, ht.sum]
  square := by simp [ErrorStats.merge, hs.square, ht.square]
  max := by
    have e : (insert 0 {a | ∃ x ∈ xs ++ ys, a = |x|} : Set X)
        = insert 0 {a | ∃ x ∈ xs, a = |x|} ∪ insert 0 {a | ∃ x ∈ ys, a = |x|} := by
      ext a
      simp only [List.mem_append, Set.mem_insert_iff, Set.mem_ofPred_eq, Set.mem_union]
      constructor
      · rintro (h | ⟨x, hx | hx, h⟩)
        · exact .inl (.inl h)
        · exact .inl (.inr ⟨x, hx, h⟩)
        · exact .inr (.inr ⟨x, hx, h⟩)
      · rintro ((h | ⟨x, hx, h⟩) | (h | ⟨x, hx, h⟩))
        · exact .inl h
        · exact .inr ⟨x, .inl hx, h⟩
        · exact .inl h
        · exact .inr ⟨x, .inr hx, h⟩
    rw [e]
    exact hs.max.union ht.max

/-- A two-component instance (the class is used with vectors). -/
example : IsStatsOf (X := Fin 2 → ℚ) ⟨![3, 2], ![4, 2], ![10, 4], 2⟩ [![1, 0], ![-3, 2]] := by
  have h := C54_stats (X := Fin 2 → ℚ) [![1, 0], ![-3, 2]]
  have e : ((ErrorStats.ofZero (0 : Fin 2 → ℚ)).addSamples [![1, 0], ![-3, 2]])
      = ⟨![3, 2], ![4, 2], ![10, 4], 2⟩ := by
    simp only [ErrorStats.addSamples, List.foldl, ErrorStats.addSample, ErrorStats.ofZero,
      ErrorStats.mk.injEq]
    refine ⟨?_, ?_, ?_, trivial⟩ <;> decide +kernel
  rw [e] at h; exact h

end C54

section Mean
/-- C54: the mean is sum of absolute values over count; without samples it is a division
by zero. -/
theorem C54_mean {K : Type _} [Field K] [LinearOrder K] (xs : List K) :
    errorMeanValue ((ErrorStats.ofZero (0 : K)).addSamples xs)
      = if xs = [] then .error .divZero
        else .ok ((xs.map (fun x => |x|)).sum / (xs.length : K)) := by
  have h := C54_stats xs
  unfold errorMeanValue
  rw [h.count, h.sum]
  by_cases hx : xs = []
  · simp [hx]
  · simp [hx, div_eq_mul_inv]

variable {K : Type _} [Field K] [LinearOrder K] [IsStrictOrderedRing K]

/-- mean of squared deviations from the mean -/
def variance (xs : List K) : K :=
  let m := xs.sum / (xs.length : K)
  (xs.map (fun x => (x - m) ^ 2)).sum / (xs.length : K)

theorem sum_sq_dev (m : K) (xs : List K) :
    (xs.map (fun x => (x - m) ^ 2)).sum
      = (xs.map (fun x => x * x)).sum - 2 * m * xs.sum + xs.length * m ^ 2 := by
  induction xs with
  | nil => simp
  | cons x xs ih => simp [ih]; ring

/-- C55 is false: for two samples equal to 1 the deviation is 0, the reported value is
`sqrt 3`. -/
theorem C55_false :
    errorMeanSqareDevSq ((ErrorStats.ofZero (0 : ℚ)).addSamples [1, 1]) = .ok 3
      ∧ variance ([1, 1] : List ℚ) = 0 := by
  constructor
  · decide +kernel
  · norm_num [variance]

/-- C55, what holds instead: the reported value is the standard deviation of the absolute
errors exactly when all samples are zero. -/
theorem C55_only_zero_partial (xs : List K) (hx : xs ≠ []) :
    errorMeanSqareDevSq ((ErrorStats.ofZero (0 : K)).addSamples xs)
        = .ok (variance (xs.map (fun x => |x|)))
      ↔ ∀ x ∈ xs, x = 0 := by
  have h := C54_stats xs
  have hn : (0 : K) < (xs.length : K) := by
    exact_mod_cast List.length_pos_iff.2 hx
  unfold errorMeanSqareDevSq
  rw [h.count, h.sum, h.square, if_neg (by simpa using hx)]
  unfold variance
  simp only [sum_sq_dev]
  simp only [List.length_map, List.map_map, Function.comp_def]
  set S := (xs.map (fun x => |x|)).sum with hS
  set Q := (xs.map (fun x => |x| * |x|)).sum
  have hSnn : 0 ≤ S := List.sum_nonneg (by simp)
  constructor
  · intro heq
    have heq := Except.ok.inj heq
    have h0 : S * S * ((xs.length : K) + 1) = 0 := by
      field_simp at heq
      nlinarith [heq]
    have hS0 : S = 0 := by
      rcases mul_eq_zero.1 h0 with h1 | h1
      · exact mul_self_eq_zero.1 h1
      · linarith
    intro x hx
    have := List.all_zero_of_le_zero_le_of_sum_eq_zero (l := xs.map (fun x => |x|)) (by simp) hS0
      (List.mem_map_of_mem hx)
    simpa using this
  · intro hz
    have e1 : S = 0 := by
      rw [hS]; apply List.sum_eq_zero; intro y hy
      obtain ⟨x, hx, rfl⟩ := List.mem_map.1 hy; simp [hz x hx]
    congr 1
    rw [e1]; simp [div_eq_mul_inv]

example : errorMeanSqareDevSq ((ErrorStats.ofZero (0 : ℚ)).addSamples [0, 0])
    = .ok (variance ([0, 0] : List ℚ)) := by
  have := (C55_only_zero_partial ([0, 0] : List ℚ) (by simp)).2 (by simp)
  simpa using this

end Mean

/-- C54: timing statistics are additive over sequences of measurements. -/
theorem C54_timing (xs ys : List Nat) :
    (xs ++ ys).foldl TimingStats.add .init
        = (xs.foldl TimingStats.add .init).merge (ys.foldl TimingStats.add .init)
    ∧ xs.foldl TimingStats.add .init = ⟨xs.sum, xs.length⟩ := by
  have key : ∀ (zs : List Nat) (s : TimingStats),
      zs.foldl TimingStats.add s = ⟨s.time + zs.sum, s.count + zs.length⟩ := by
    intro zs
    induction zs with
    | nil => intro s; rfl
    | cons z zs ih => intro s; simp [ih, TimingStats.add]; omega
  simp [key, TimingStats.merge, TimingStats.init]

/-- C54: the average never exceeds the longest measurement and is 0 without measurements. -/
theorem C54_timing_average (xs : List Nat) (b : Nat) (hb : ∀ x ∈ xs, x ≤ b) :
    (xs.foldl TimingStats.add .init).averageTime = xs.sum / xs.length
    ∧ (xs.foldl TimingStats.add .init).averageTime ≤ b := by
  rw [(C54_timing xs []).2]
  have hs : xs.sum ≤ xs.length * b := by
    induction xs with
    | nil => simp
    | cons x xs ih =>
      have h1 := ih (fun y hy => hb y (List.mem_cons_of_mem _ hy))
      have h2 := hb x List.mem_cons_self
      simp [Nat.succ_mul]; omega
  unfold TimingStats.averageTime
  simp only
  by_cases h : xs.length > 0
  · simp only [h, if_true, true_and]
    exact Nat.div_le_of_le_mul hs
  · have : xs.length = 0 := by omega
    simp [this]

example : ([4, 7] : List Nat).foldl TimingStats.add .init = ⟨11, 2⟩ := by decide

/-! ### C56: remainders -/

/-- C56: for every `int` value except the most negative one and every positive modulus,
`modp` returns the representative in `[0, m)` of the residue class. -/
theorem C56_modp (x : Int) (m : Nat) (hm : 1 ≤ m) (hx : -2147483648 < x) :
    ∃ r, modp x m = .ok r ∧ r < m ∧ (r : Int) ≡ x [ZMOD m] := by
  unfold modp
  rw [if_neg (by omega)]
  by_cases hneg : x < 0
  · rw [if_pos hneg, if_neg (by omega)]
    refine ⟨_, rfl, ?_, ?_⟩
    · have := Nat.mod_lt (-x).toNat (show 0 < m by omega)
      split <;> omega
    · have hlt := Nat.mod_lt (-x).toNat (show 0 < m by omega)
      have hx' : x = -((-x).toNat : Int) := by omega
      have hdvd : (m : Int) ∣ ((-x).toNat : Int) - (((-x).toNat % m : Nat) : Int) := by
        refine ⟨(((-x).toNat / m : Nat) : Int), ?_⟩
        have := Nat.div_add_mod (-x).toNat m
        have h2 : (m : Int) * (((-x).toNat / m : Nat) : Int) + (((-x).toNat % m : Nat) : Int)
            = ((-x).toNat : Int) := by exact_mod_cast this
        linarith
      apply Int.modEq_iff_dvd.2
      obtain ⟨k, hk⟩ := hdvd
      split
      · rename_i h
        have h0 : (-x).toNat % m = 0 := by omega
        refine ⟨-k, ?_⟩
        rw [h0] at hk
        push_cast at hk ⊢
        linarith
      · refine ⟨-k - 1, ?_⟩
        have : ((m - (-x).toNat % m : Nat) : Int) = m - (((-x).toNat % m : Nat) : Int) := by omega
        rw [this]
        linarith
  · rw [if_neg hneg]
    refine ⟨_, rfl, Nat.mod_lt _ (by omega), ?_⟩
    apply Int.modEq_iff_dvd.2
    refine ⟨((x.toNat / m : Nat) : Int), ?_⟩
    have := Nat.div_add_mod x.toNat m
    have hx' : x = (x.toNat : Int) := by omega
    have h2 : (m : Int) * ((x.toNat / m : Nat) : Int) + ((x.toNat % m : Nat) : Int) = x := by
      rw [hx']; exact_mod_cast this
    linarith

example : modp (-7) 5 = .ok 3 := by decide
example : modp (-10) 5 = .ok 0 := by decide

/-- The excluded inputs are undefined behaviour in the code. -/
theorem C56_modp_undefined : (∀ x, modp x 0 = .error .ub)
    ∧ ∀ m, 1 ≤ m → modp (-2147483648) m = .error .ub := by
  constructor
  · intro x; simp [modp]
  · intro m hm; simp [modp]; try omega

/-- C56: `modd` lands in `[bias, bias+period)` and changes `x` by an integer number of
periods. -/
theorem C56_modd {K : Type _} [Field K] [LinearOrder K] [IsStrictOrderedRing K] [FloorRing K]
    (x p b : K) (hp : 0 < p) :
    ∃ r, modd x p b = .ok r ∧ b ≤ r ∧ r < b + p ∧ ∃ k : ℤ, x = r + k * p := by
  unfold modd
  simp only [if_neg hp.ne']
  refine ⟨_, rfl, ?_, ?_, ⌊(x - b) / p⌋, by ring⟩
  · have := Int.floor_le ((x - b) / p)
    rw [le_div_iff₀ hp] at this
    linarith
  · have := Int.lt_floor_add_one ((x - b) / p)
    rw [div_lt_iff₀ hp] at this
    linarith

example : modd (-1/2 : ℚ) 2 3 = .ok (7/2) := by decide +kernel

/-- C56: `roundi` returns an integer at distance at most one half. -/
theorem C56_roundi {K : Type _} [Field K] [LinearOrder K] [IsStrictOrderedRing K] [FloorRing K]
    (x : K) : |x - (roundi x : K)| ≤ 1 / 2 := by
  unfold roundi
  split
  · have h1 := Int.floor_le (x + 1/2)
    have h2 := Int.lt_floor_add_one (x + 1/2)
    rw [abs_le]; constructor <;> linarith
  · have h1 := Int.floor_le (-x + 1/2)
    have h2 := Int.lt_floor_add_one (-x + 1/2)
    push_cast
    rw [abs_le]; constructor <;> linarith

example : roundi (-5/2 : ℚ) = -3 := by decide +kernel

/-! ### C57: cubic interpolation -/

section C57
open Polynomial Cubic

/-- C57: end values of the cubic and of its derivative function. -/
theorem C57_ends {R : Type _} [CommRing R] (f0 d0 f1 d1 : R) :
    poly f0 d0 f1 d1 0 = f0 ∧ poly f0 d0 f1 d1 1 = f1
    ∧ polyD f0 d0 f1 d1 0 = d0 ∧ polyD f0 d0 f1 d1 1 = d1 := by
  unfold poly polyD
  refine ⟨by ring, by ring, by ring, by ring⟩

/-- C57: the functions `D`, `D2`, `D3` are the successive derivatives, stated for the
formal polynomial obtained by running the code on the indeterminate. -/
theorem C57_derivatives {R : Type _} [CommRing R] (f0 d0 f1 d1 : R) :
    derivative (poly (C f0) (C d0) (C f1) (C d1) X) = polyD (C f0) (C d0) (C f1) (C d1) X
    ∧ derivative (polyD (C f0) (C d0) (C f1) (C d1) X) = polyD2 (C f0) (C d0) (C f1) (C d1) X
    ∧ derivative (polyD2 (C f0) (C d0) (C f1) (C d1) X) = polyD3 (C f0) (C d0) (C f1) (C d1) X := by
  unfold poly polyD polyD2 polyD3
  simp only [derivative_add, derivative_mul, derivative_sub, derivative_C, derivative_X,
    derivative_ofNat]
  refine ⟨by ring, by ring, by ring⟩

/-- Running the code on polynomials and evaluating is running the code on numbers. -/
theorem C57_eval {R : Type _} [CommRing R] (f0 d0 f1 d1 t : R) :
    (poly (C f0) (C d0) (C f1) (C d1) X).eval t = poly f0 d0 f1 d1 t
    ∧ (polyD (C f0) (C d0) (C f1) (C d1) X).eval t = polyD f0 d0 f1 d1 t
    ∧ (polyD2 (C f0) (C d0) (C f1) (C d1) X).eval t = polyD2 f0 d0 f1 d1 t
    ∧ (polyD3 (C f0) (C d0) (C f1) (C d1) X).eval t = polyD3 f0 d0 f1 d1 t := by
  unfold poly polyD polyD2 polyD3
  simp

/-- C57: the basis functions reproduce the cubic and their `d`, `d2` variants its
derivatives. -/
theorem C57_basis {R : Type _} [CommRing R] (f0 d0 f1 d1 t : R) :
    f0 * f00 t + f1 * f01 t + d0 * f10 t + d1 * f11 t = poly f0 d0 f1 d1 t
    ∧ f0 * df00 t + f1 * df01 t + d0 * df10 t + d1 * df11 t = polyD f0 d0 f1 d1 t
    ∧ f0 * d2f00 t + f1 * d2f01 t + d0 * d2f10 t + d1 * d2f11 t = polyD2 f0 d0 f1 d1 t := by
  unfold poly polyD polyD2 f00 f01 f10 f11 df00 df01 df10 df11 d2f00 d2f01 d2f10 d2f11
  refine ⟨by ring, by ring, by ring⟩

/-- C57: on an interval of length `L ≠ 0` the scaled basis interpolates values at `0`, `L`
and slopes at `0`, `L`. -/
theorem C57_scaled {F : Type _} [Field F] [DecidableEq F] (f0 d0 f1 d1 L : F) (hL : L ≠ 0) :
    (∃ a b c d, scaled f00 0 0 0 L = .ok a ∧ scaled f01 0 0 0 L = .ok b
      ∧ scaled f10 1 0 0 L = .ok c ∧ scaled f11 1 0 0 L = .ok d
      ∧ f0 * a + f1 * b + d0 * c + d1 * d = f0)
    ∧ (∃ a b c d, scaled f00 0 0 L L = .ok a ∧ scaled f01 0 0 L L = .ok b
      ∧ scaled f10 1 0 L L = .ok c ∧ scaled f11 1 0 L L = .ok d
      ∧ f0 * a + f1 * b + d0 * c + d1 * d = f1)
    ∧ (∃ a b c d, scaled df00 0 1 0 L = .ok a ∧ scaled df01 0 1 0 L = .ok b
      ∧ scaled df10 0 0 0 L = .ok c ∧ scaled df11 0 0 0 L = .ok d
      ∧ f0 * a + f1 * b + d0 * c + d1 * d = d0)
    ∧ (∃ a b c d, scaled df00 0 1 L L = .ok a ∧ scaled df01 0 1 L L = .ok b
      ∧ scaled df10 0 0 L L = .ok c ∧ scaled df11 0 0 L L = .ok d
      ∧ f0 * a + f1 * b + d0 * c + d1 * d = d1) := by
  unfold scaled
  simp only [if_neg hL, Except.ok.injEq]
  refine ⟨⟨_, _, _, _, rfl, rfl, rfl, rfl, ?_⟩, ⟨_, _, _, _, rfl, rfl, rfl, rfl, ?_⟩,
    ⟨_, _, _, _, rfl, rfl, rfl, rfl, ?_⟩, ⟨_, _, _, _, rfl, rfl, rfl, rfl, ?_⟩⟩
  all_goals
    simp only [f00, f01, f10, f11, df00, df01, df10, df11, zero_div, div_self hL]
    field_simp
    ring

example : poly (2 : ℚ) 1 5 (-1) (1/2) = 15/4 := by norm_num [poly]

end C57

/-! ### C60: time span text -/

/-- Reading back a text `h:mm:ss`: the value denoted by the digits. -/
def readTime (h m s : List Char) : Nat :=
  3600 * Nat.ofDigitChars 10 h 0 + 60 * Nat.ofDigitChars 10 m 0 + Nat.ofDigitChars 10 s 0

/-- C60: for spans below 2^32 hours the text is `h:mm:ss` with two-digit minutes and
seconds below 60, and it denotes the given number of seconds. -/
theorem C60_format (sec : Nat) (hs : sec < 3600 * 4294967296) :
    ∃ h m s : List Char, formatTimeSpanSec sec = h ++ [':'] ++ m ++ [':'] ++ s
      ∧ (∀ c ∈ h ++ m ++ s, c.isDigit = true) ∧ m.length = 2 ∧ s.length = 2
      ∧ Nat.ofDigitChars 10 m 0 < 60 ∧ Nat.ofDigitChars 10 s 0 < 60
      ∧ readTime h m s = sec := by
  refine ⟨dec (sec / 3600), padLeft 2 (dec (sec / 60 % 60)), padLeft 2 (dec (sec % 60)), ?_, ?_, ?_, ?_, ?_, ?_, ?_⟩
  · simp [formatTimeSpanSec, timeParts_eq hs]
  · intro c hc
    simp only [List.mem_append] at hc
    have hp : ∀ n, c ∈ padLeft 2 (dec n) → c.isDigit = true := by
      intro n hn
      unfold padLeft at hn
      rcases List.mem_append.1 hn with h | h
      · rw [List.eq_of_mem_replicate h]; decide
      · exact dec_isDigit h
    rcases hc with (h | h) | h
    · exact dec_isDigit h
    · exact hp _ h
    · exact hp _ h
  · exact padLeft_length (dec_length_le (by omega) (by omega))
  · exact padLeft_length (dec_length_le (by omega) (by omega))
  · rw [ofDigitChars_padLeft]; omega
  · rw [ofDigitChars_padLeft]; omega
  · unfold readTime
    rw [ofDigitChars_padLeft, ofDigitChars_padLeft]
    have : Nat.ofDigitChars 10 (dec (sec / 3600)) 0 = sec / 3600 := Nat.ofDigitChars_ten_toDigits
    rw [this]; omega

/-- C60: different spans have different texts. -/
theorem C60_injective (a b : Nat) (ha : a < 3600 * 4294967296) (hb : b < 3600 * 4294967296)
    (h : formatTimeSpanSec a = formatTimeSpanSec b) : a = b := by
  simp only [formatTimeSpanSec, timeParts_eq ha, timeParts_eq hb, List.append_assoc] at h
  have h1 := split_first (colon_not_mem_dec _) (colon_not_mem_dec _)
    (by simpa [List.append_assoc] using h)
  have e1 := dec_inj h1.1
  have h2 := h1.2
  have hl : ∀ n, n < 100 → (padLeft 2 (dec n)).length = 2 := fun n hn =>
    padLeft_length (dec_length_le (by omega) (by omega))
  have h3 := List.append_inj h2 (by rw [hl _ (by omega), hl _ (by omega)])
  have e2 := padLeft_dec_inj h3.1
  have h4 := h3.2
  have e3 := padLeft_dec_inj (by simpa using h4)
  omega

example : formatTimeSpanSec 3725 = "1:02:05".toList := by decide +kernel

/-- Outside that range the 32-bit hour counter wraps and two spans share a text. -/
theorem C60_wraps : formatTimeSpanSec (3600 * 4294967296) = formatTimeSpanSec 0 := by
  decide +kernel

/-- C60: the millisecond text determines the number of milliseconds. -/
theorem C60_msec_injective (a b : Nat) (ha : a < 3600000 * 4294967296)
    (hb : b < 3600000 * 4294967296) (h : formatTimeSpanMsec a = formatTimeSpanMsec b) : a = b := by
  unfold formatTimeSpanMsec at h
  have hl : ∀ n, n < 1000 → (padLeft 3 (dec n)).length = 3 := fun n hn =>
    padLeft_length (dec_length_le (by omega) (by omega))
  have h3 := List.append_inj' h (by rw [hl _ (by omega), hl _ (by omega)])
  have e1 := padLeft_dec_inj h3.2
  have h4 := List.append_inj' h3.1 rfl
  have e2 := C60_injective _ _ (by omega) (by omega) h4.1
  omega

example : formatTimeSpanMsec 3725007 = "1:02:05.007".toList := by decide +kernel

end Verif.Util
