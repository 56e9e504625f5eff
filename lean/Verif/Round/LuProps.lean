import Verif.Round.LuErr
import Verif.Round.TimeProps
import Verif.LU.Props
import Mathlib.Data.Rat.Floor
import Mathlib.Tactic.FieldSimp

/-! # C127: LUFactorizer with rounded arithmetic -/

set_option linter.unusedSectionVars false

namespace Verif.Round

open Verif.Res Verif.LU Finset

variable {K : Type} [Field K] [LinearOrder K] [IsStrictOrderedRing K] {r : K → K} {u : K}

/-- The matrix given to `setMatrix`, as exact numbers -/
def exactOf (es : Entries (Rd r)) (i j : Nat) : K := (entry es i j).val

/-- Component of a vector as an exact number -/
def exactAt (b : List (Rd r)) (i : Nat) : K := (b.getD i 0).val

/-- `L` is unit lower triangular, `U` upper triangular, and their other elements are the numbers the object
stores, zero where it stores none. -/
structure Factors (st : Fact (Rd r)) (n : Nat) (L U : Nat → Nat → K) : Prop where
  diag : ∀ i, L i i = 1
  lower : ∀ i k, i < k → L i k = 0
  upper : ∀ i k, k < i → U i k = 0
  storedL : ∀ i k, i < n → k < i → L i k = 0 ∨ rdL st i k = .ok ⟨L i k⟩
  storedU : ∀ i k, k < n → i ≤ k → U i k = 0 ∨ rdU st i k = .ok ⟨U i k⟩

/-- Element of the product of the absolute values of two matrices -/
def absProd (n : Nat) (L U : Nat → Nat → K) (i j : Nat) : K := ∑ k ∈ range n, |L i k| * |U k j|

theorem filled_of {n : Nat} {es : Entries (Rd r)} (hS : Stencil n es) (hf : Filled es) :
    ∀ i k, i < k → k < (stenOf hS).n → (stenOf hS).q k ≤ i → k ≤ (stenOf hS).s i := by
  intro i k hik hk hq
  have hk : k < n := hk
  have := (qOf_le (n := n) (es := es) (show i < n by omega)).1 hq
  exact (sOf_ge (by omega)).2 (hf i k hik this)

theorem zero_of {n : Nat} {es : Entries (Rd r)} (hS : Stencil n es) {i c : Nat} (hi : i < (stenOf hS).n)
    (hc : c < (stenOf hS).n) (h : c < i ∧ c < (stenOf hS).p i ∨ i ≤ c ∧ i < (stenOf hS).q c) : (entry es i c).val = 0 := by
  have hi : i < n := hi
  have hc : c < n := hc
  rw [entry_of_not_key, Rd.val_zero]
  intro hk
  rcases h with ⟨h1, h2⟩ | ⟨h1, h2⟩
  · have : pOf n es i ≤ c := (pOf_le (by omega)).2 ⟨c, le_refl _, hk⟩
    have h2 : c < pOf n es i := h2
    omega
  · have : qOf n es c ≤ i := (qOf_le (by omega)).2 ⟨i, le_refl _, hk⟩
    have h2 : i < qOf n es c := h2
    omega

/-- A residual bounded by a matrix times the absolute values of the solution comes from a change of the matrix
that is bounded by the same matrix. -/
theorem nearby_row {n : Nat} {W a x : Nat → K} {b c : K} (hW : ∀ j, 0 ≤ W j)
    (h : |b - ∑ j ∈ range n, a j * x j| ≤ c * ∑ j ∈ range n, W j * |x j|) (hc : 0 ≤ c) :
    ∃ d : Nat → K, (∀ j, |d j| ≤ c * W j) ∧ ∑ j ∈ range n, (a j + d j) * x j = b := by
  set w := ∑ j ∈ range n, W j * |x j|
  have hw : 0 ≤ w := sum_nonneg fun j _ => mul_nonneg (hW j) (abs_nonneg _)
  set t := b - ∑ j ∈ range n, a j * x j with ht
  rcases hw.eq_or_lt with h0 | h0
  · refine ⟨fun _ => 0, fun j => by rw [abs_zero]; exact mul_nonneg hc (hW j), ?_⟩
    rw [← h0, mul_zero] at h
    have := abs_nonpos_iff.1 h
    simp only [add_zero]
    rw [ht] at this
    exact (sub_eq_zero.1 this).symm
  · refine ⟨fun j => t / w * W j * (if 0 ≤ x j then 1 else -1), fun j => ?_, ?_⟩
    · have h1 : |(if 0 ≤ x j then (1 : K) else -1)| = 1 := by split <;> simp
      rw [abs_mul, h1, mul_one, abs_mul, abs_of_nonneg (hW j), abs_div, abs_of_pos h0]
      refine mul_le_mul_of_nonneg_right ?_ (hW j)
      rw [div_le_iff₀ h0]
      exact h
    · have e : ∀ j, (a j + t / w * W j * (if 0 ≤ x j then 1 else -1)) * x j = a j * x j + t / w * (W j * |x j|) := by
        intro j
        split
        · rename_i hj; rw [abs_of_nonneg hj]; ring
        · rename_i hj; rw [abs_of_neg (not_le.1 hj)]; ring
      simp only [e]
      rw [sum_add_distrib, ← mul_sum, div_mul_cancel₀ _ h0.ne', ht]
      ring

/-- C127 (`_partial`: the change of the matrix is bounded by the stored factors, not by the matrix itself, which
would be false, see `C127_false`; and the fill condition is needed, see `C127_unfilled_false`): with every
operation rounded, with unit roundoff `u < 1`, when `solve` returns, the product of the stored factors is the matrix
up to `γ |L| |U|` and the returned vector is the exact solution of a system whose matrix differs from the given
one by at most `(3γ + γ²) |L| |U|`, element by element, where `γ = (1 + u/(1-u))^n - 1`. -/
theorem C127_backward_partial (hr : Rounds r u) (hu : u < 1) (st0 : Fact (Rd r)) (es : Entries (Rd r)) {n : Nat} (hS : Stencil n es)
    (hd : Distinct es) (hf : Filled es) (b : List (Rd r)) (hb : n ≤ b.length) {st st' : Fact (Rd r)} {x : List (Rd r)}
    (h1 : setMatrix st0 es = .ok st) (h2 : solve st b = .ok (st', x)) :
    ∃ L U : Nat → Nat → K, Factors st' n L U
      ∧ (∀ i < n, ∀ j < n, |exactOf es i j - ∑ k ∈ range n, L i k * U k j| ≤
          ((1 + u / (1 - u)) ^ n - 1) * absProd n L U i j)
      ∧ ∃ D : Nat → Nat → K,
          (∀ i < n, ∀ j < n, |D i j| ≤
            (3 * ((1 + u / (1 - u)) ^ n - 1) + ((1 + u / (1 - u)) ^ n - 1) ^ 2) * absProd n L U i j)
          ∧ ∀ i < n, ∑ j ∈ range n, (exactOf es i j + D i j) * exactAt x j = exactAt b i := by
  obtain ⟨st1, e1, hR⟩ := setMatrix_rep hS hd st0
  rw [h1] at e1
  cases e1
  have hp := solve_ops hR b hb
  rw [h2] at hp
  obtain ⟨hR', y, z, hpiv, hF, hB, hz, -⟩ := hp
  simp only at hR' hz
  set E := stenOf hS with hE
  have hn : E.n = n := rfl
  have hgam : (1 + u / (1 - u)) ^ n - 1 = gam u E.n := rfl
  have hx : ∀ j < n, exactAt x j = (z j).val := by
    intro j hj
    unfold exactAt
    rw [hz, List.getD_eq_getElem?_getD, List.getElem?_map, List.getElem?_range (by omega)]
    rfl
  have hg := gam_nonneg hr hu E.n
  have hfac := fun i (hi : i < E.n) c (hc : c < E.n) =>
    factor_err hr hu (E := E) (A := entry es) (fun i c hi hc h => zero_of hS hi hc h) hpiv hi hc
  rw [hgam]
  refine ⟨lowM E (luVal E (entry es)), upM E (luVal E (entry es)), ⟨?_, ?_, ?_, ?_, ?_⟩, hfac, ?_⟩
  · intro i; unfold lowM; rw [if_neg (by omega), if_pos rfl]
  · intro i k h; unfold lowM; rw [if_neg (by omega), if_neg (by omega)]
  · intro i k h; unfold upM; rw [if_neg (by omega)]
  · intro i k hi hk
    unfold lowM
    by_cases h : E.p i ≤ k
    · right
      rw [if_pos ⟨hk, h⟩]
      exact hR'.rdL hi hk h
    · left
      rw [if_neg (by omega), if_neg (by omega)]
  · intro i k hk hi
    unfold upM
    by_cases h : E.q k ≤ i
    · right
      rw [if_pos ⟨hi, h⟩]
      exact hR'.rdU hk hi h
    · left
      rw [if_neg (by omega)]
  · have hres : ∀ i < n, |exactAt b i - ∑ c ∈ range n, exactOf es i c * exactAt x c| ≤
        (3 * gam u E.n + gam u E.n ^ 2) *
          ∑ j ∈ range n, absProd n (lowM E (luVal E (entry es))) (upM E (luVal E (entry es))) i j * |exactAt x j| := by
      intro i hi
      have := residual_err (n := n) (A := exactOf es) (L := lowM E (luVal E (entry es))) (U := upM E (luVal E (entry es)))
        (b := exactAt b) (y := fun k => (y k).val) (x := fun k => (z k).val) hg hfac
        (fun i hi => fwd_err hr hu hF hi) (fun i hi => bwd_err hr hu hB (filled_of hS hf) hi) hi
      have ex : ∑ c ∈ range n, exactOf es i c * exactAt x c = ∑ c ∈ range n, exactOf es i c * (z c).val :=
        sum_congr rfl fun c hc => by rw [hx c (mem_range.1 hc)]
      rw [ex]
      refine this.trans (le_of_eq ?_)
      congr 1
      unfold absProd
      simp only [mul_sum, sum_mul]
      rw [sum_comm]
      refine sum_congr rfl fun c hc => sum_congr rfl fun k _ => ?_
      rw [hx c (mem_range.1 hc)]
      ring
    have hrow : ∀ i, ∃ d : Nat → K, i < n → (∀ j, |d j| ≤ (3 * gam u E.n + gam u E.n ^ 2) *
          absProd n (lowM E (luVal E (entry es))) (upM E (luVal E (entry es))) i j)
        ∧ ∑ j ∈ range n, (exactOf es i j + d j) * exactAt x j = exactAt b i := by
      intro i
      by_cases hi : i < n
      · obtain ⟨d, hd1, hd2⟩ := nearby_row
          (W := absProd n (lowM E (luVal E (entry es))) (upM E (luVal E (entry es))) i)
          (fun j => sum_nonneg fun k _ => by positivity) (hres i hi) (by positivity)
        exact ⟨d, fun _ => ⟨hd1, hd2⟩⟩
      · exact ⟨fun _ => 0, fun h => absurd h hi⟩
    choose D hD using hrow
    exact ⟨D, fun i hi j _ => (hD i hi).1 j, fun i hi => (hD i hi).2⟩

/-- C127 (`_partial`, as above): when moreover no stored factor is negative and `γ < 1`, the returned vector is the
exact solution of a system whose matrix differs by a small part of each of its elements. -/
theorem C127_nonneg_partial (hr : Rounds r u) (hu : u < 1) (st0 : Fact (Rd r)) (es : Entries (Rd r)) {n : Nat} (hS : Stencil n es)
    (hd : Distinct es) (hf : Filled es) (b : List (Rd r)) (hb : n ≤ b.length) {st st' : Fact (Rd r)} {x : List (Rd r)}
    (h1 : setMatrix st0 es = .ok st) (h2 : solve st b = .ok (st', x))
    (hg : (1 + u / (1 - u)) ^ n - 1 < 1)
    (hL : ∀ i k v, i < n → k < i → rdL st' i k = .ok v → 0 ≤ v.val) (hU : ∀ i k v, k < n → i ≤ k → rdU st' i k = .ok v → 0 ≤ v.val) :
    ∃ D : Nat → Nat → K,
      (∀ i < n, ∀ j < n, |D i j| ≤
        (3 * ((1 + u / (1 - u)) ^ n - 1) + ((1 + u / (1 - u)) ^ n - 1) ^ 2) / (1 - ((1 + u / (1 - u)) ^ n - 1)) * |exactOf es i j|)
      ∧ ∀ i < n, ∑ j ∈ range n, (exactOf es i j + D i j) * exactAt x j = exactAt b i := by
  obtain ⟨L, U, hF, hfac, D, hD, hsol⟩ := C127_backward_partial hr hu st0 es hS hd hf b hb h1 h2
  refine ⟨D, fun i hi j hj => (hD i hi j hj).trans ?_, hsol⟩
  have hg0 : 0 ≤ (1 + u / (1 - u)) ^ n - 1 := gam_nonneg hr hu n
  set g := (1 + u / (1 - u)) ^ n - 1
  have hLn : ∀ k < n, 0 ≤ L i k := by
    intro k hk
    rcases Nat.lt_trichotomy i k with h | h | h
    · rw [hF.lower i k h]
    · rw [← h, hF.diag]; exact zero_le_one
    · rcases hF.storedL i k hi h with e | e
      · rw [e]
      · exact hL i k _ hi h e
  have hUn : ∀ k < n, 0 ≤ U k j := by
    intro k hk
    rcases Nat.lt_or_ge j k with h | h
    · rw [hF.upper k j h]
    · rcases hF.storedU k j hj h with e | e
      · rw [e]
      · exact hU k j _ hj h e
  have e1 : ∑ k ∈ range n, L i k * U k j = absProd n L U i j := by
    refine sum_congr rfl fun k hk => ?_
    rw [abs_of_nonneg (hLn k (mem_range.1 hk)), abs_of_nonneg (hUn k (mem_range.1 hk))]
  have h3 := hfac i hi j hj
  rw [e1] at h3
  have h4 : 0 ≤ absProd n L U i j := sum_nonneg fun k _ => by positivity
  have h5 : (1 - g) * absProd n L U i j ≤ |exactOf es i j| := by
    have h6 := abs_sub_abs_le_abs_sub (absProd n L U i j) (exactOf es i j)
    rw [abs_sub_comm, abs_of_nonneg h4] at h6
    linarith
  rw [div_mul_eq_mul_div, le_div_iff₀ (by linarith), mul_assoc, mul_comm (absProd n L U i j)]
  exact mul_le_mul_of_nonneg_left h5 (by positivity)

/-- C127: for every accepted matrix, whatever the rounding, `solve` returns or divides by zero. -/
theorem C127_returns_or_divides (st0 : Fact (Rd r)) (es : Entries (Rd r)) {n : Nat} (hS : Stencil n es)
    (hd : Distinct es) (b : List (Rd r)) (hb : n ≤ b.length) :
    ∃ st, setMatrix st0 es = .ok st ∧ ((∃ st' x, solve st b = .ok (st', x)) ∨ solve st b = .error .divZero) := by
  obtain ⟨st, h1, h2⟩ := setMatrix_rep hS hd st0
  refine ⟨st, h1, ?_⟩
  have hp := solve_ops h2 b hb
  cases hs : solve st b with
  | ok v => exact .inl ⟨v.1, v.2, rfl⟩
  | error e =>
    rw [hs] at hp
    rw [hp.1]
    exact .inr rfl

/-! ### Where it fails -/

/-- Numbers with 53 binary digits -/
abbrev Dbl : Type := Rd (binary (K := ℚ) 53)

/-- The matrix with rows (2^-60, 1) and (1, 1), whose first element is small -/
def smallPivot : Entries Dbl := [((0, 0), ⟨1 / 2 ^ 60⟩), ((0, 1), ⟨1⟩), ((1, 0), ⟨1⟩), ((1, 1), ⟨1⟩)]

theorem full_stencil {R : Type} (a b c d : R) : Stencil 2 [((0, 0), a), ((0, 1), b), ((1, 0), c), ((1, 1), d)] := by
  refine ⟨?_, ?_, ?_⟩
  · rintro i j ⟨v, hv⟩
    simp only [List.mem_cons, Prod.mk.injEq, List.not_mem_nil, or_false] at hv
    omega
  · intro i hi
    interval_cases i
    · exact ⟨0, le_refl _, a, by simp⟩
    · exact ⟨0, by omega, c, by simp⟩
  · intro i hi
    interval_cases i
    · exact ⟨0, le_refl _, a, by simp⟩
    · exact ⟨0, by omega, b, by simp⟩

theorem full_filled {R : Type} (a b c d : R) : Filled [((0, 0), a), ((0, 1), b), ((1, 0), c), ((1, 1), d)] := by
  intro i j hij h
  obtain ⟨k, hk, v, hv⟩ := h
  simp only [List.mem_cons, Prod.mk.injEq, List.not_mem_nil, or_false] at hv
  have : i = 0 ∧ j = 1 := by omega
  obtain ⟨rfl, rfl⟩ := this
  exact ⟨1, le_refl _, b, by simp⟩

/-- C127 relative to the matrix is false: with 53 binary digits, the vector returned for a matrix with a small first
element solves no system whose matrix has elements closer than by their own size, and the matrix is well
conditioned (all its elements and those of its inverse are below 2). -/
theorem C127_false : ∃ (es : Entries Dbl) (b x : List Dbl) (st0 st st' : Fact Dbl),
    Stencil 2 es ∧ Distinct es ∧ Filled es ∧ b.length = 2 ∧ setMatrix st0 es = .ok st ∧ solve st b = .ok (st', x)
    ∧ (∃ J : Matrix (Fin 2) (Fin 2) ℚ, (Matrix.of fun i j : Fin 2 => exactOf es i j) * J = 1 ∧ ∀ i j, |J i j| < 2)
    ∧ ¬ ∃ D : Nat → Nat → ℚ, (∀ i < 2, ∀ j < 2, |D i j| < |exactOf es i j|)
        ∧ ∀ i < 2, ∑ j ∈ range 2, (exactOf es i j + D i j) * exactAt x j = exactAt b i := by
  have hd : Distinct smallPivot := by unfold Distinct; decide
  obtain ⟨st, h1, h2⟩ := C127_returns_or_divides Fact.empty smallPivot (full_stencil _ _ _ _) hd [⟨1⟩, ⟨2⟩] (by decide)
  have hr : ((setMatrix Fact.empty smallPivot).bind (fun st => solve st [⟨1⟩, ⟨2⟩])).map (fun r => r.2) = .ok [⟨0⟩, ⟨1⟩] := by
    decide +kernel
  rw [h1] at hr
  simp only [Except.bind] at hr
  rcases h2 with ⟨st', x, h2⟩ | h2
  · rw [h2] at hr
    have hx : x = [⟨0⟩, ⟨1⟩] := Except.ok.inj hr
    refine ⟨smallPivot, [⟨1⟩, ⟨2⟩], x, Fact.empty, st, st', full_stencil _ _ _ _, hd, full_filled _ _ _ _, rfl, h1, h2, ?_, ?_⟩
    · refine ⟨!![-(1 / (1 - 1 / 2 ^ 60)), 1 / (1 - 1 / 2 ^ 60); 1 / (1 - 1 / 2 ^ 60), -(1 / 2 ^ 60 / (1 - 1 / 2 ^ 60))], ?_, ?_⟩
      · ext i j
        fin_cases i <;> fin_cases j <;>
          simp [Matrix.mul_apply, Fin.sum_univ_two, exactOf, entry, smallPivot] <;> norm_num
      · intro i j
        fin_cases i <;> fin_cases j <;> norm_num [abs_lt]
    · rintro ⟨D, h3, h4⟩
      have h5 := h4 1 (by omega)
      have h6 := h3 1 (by omega) 1 (by omega)
      rw [hx] at h5
      simp [sum_range_succ, exactOf, exactAt, entry, smallPivot] at h5 h6
      have := (abs_lt.1 h6).2
      linarith
  · rw [h2] at hr
    cases hr

/-- The matrix of `C01_false`: the last column reaches up to the first row, the second row does not reach the
last column. -/
def unfilled : Entries Dbl := [((0, 0), ⟨1⟩), ((0, 2), ⟨1⟩), ((1, 0), ⟨1⟩), ((1, 1), ⟨1⟩), ((2, 2), ⟨1⟩)]

theorem unfilled_stencil : Stencil 3 unfilled := by
  refine ⟨?_, ?_, ?_⟩
  · rintro i j ⟨v, hv⟩
    simp only [unfilled, List.mem_cons, Prod.mk.injEq, List.not_mem_nil, or_false] at hv
    omega
  · intro i hi
    interval_cases i
    · exact ⟨0, le_refl _, ⟨1⟩, by simp [unfilled]⟩
    · exact ⟨0, by omega, ⟨1⟩, by simp [unfilled]⟩
    · exact ⟨2, by omega, ⟨1⟩, by simp [unfilled]⟩
  · intro i hi
    interval_cases i
    · exact ⟨0, le_refl _, ⟨1⟩, by simp [unfilled]⟩
    · exact ⟨1, by omega, ⟨1⟩, by simp [unfilled]⟩
    · exact ⟨0, by omega, ⟨1⟩, by simp [unfilled]⟩

/-- C127 without the fill condition is false: the vector returned solves no system whose matrix differs by at most
a quarter of `|L| |U|`, although nothing is rounded in this run. -/
theorem C127_unfilled_false : ∃ (es : Entries Dbl) (b x : List Dbl) (st0 st st' : Fact Dbl),
    Stencil 3 es ∧ Distinct es ∧ b.length = 3 ∧ setMatrix st0 es = .ok st ∧ solve st b = .ok (st', x)
    ∧ ∀ L U, Factors st' 3 L U → ¬ ∃ D : Nat → Nat → ℚ, (∀ i < 3, ∀ j < 3, |D i j| ≤ 1 / 4 * absProd 3 L U i j)
        ∧ ∀ i < 3, ∑ j ∈ range 3, (exactOf es i j + D i j) * exactAt x j = exactAt b i := by
  have hd : Distinct unfilled := by unfold Distinct; decide
  obtain ⟨st, h1, h2⟩ := C127_returns_or_divides Fact.empty unfilled unfilled_stencil hd [⟨0⟩, ⟨0⟩, ⟨1⟩] (by decide)
  have hr : ((setMatrix Fact.empty unfilled).bind (fun st => solve st [⟨0⟩, ⟨0⟩, ⟨1⟩])).map (fun r => r.2) =
      .ok [⟨-1⟩, ⟨0⟩, ⟨1⟩] := by decide +kernel
  have e1 : ((setMatrix Fact.empty unfilled).bind (fun st => solve st [⟨0⟩, ⟨0⟩, ⟨1⟩])).bind (fun r => rdL r.1 1 0) =
      .ok ⟨1⟩ := by decide +kernel
  have e2 : ((setMatrix Fact.empty unfilled).bind (fun st => solve st [⟨0⟩, ⟨0⟩, ⟨1⟩])).bind (fun r => rdU r.1 0 0) =
      .ok ⟨1⟩ := by decide +kernel
  have e3 : ((setMatrix Fact.empty unfilled).bind (fun st => solve st [⟨0⟩, ⟨0⟩, ⟨1⟩])).bind (fun r => rdU r.1 0 2) =
      .ok ⟨1⟩ := by decide +kernel
  have e4 : ((setMatrix Fact.empty unfilled).bind (fun st => solve st [⟨0⟩, ⟨0⟩, ⟨1⟩])).bind (fun r => rdU r.1 1 2) =
      .ok ⟨-1⟩ := by decide +kernel
  rw [h1] at hr e1 e2 e3 e4
  simp only [Except.bind] at hr e1 e2 e3 e4
  rcases h2 with ⟨st', x, h2⟩ | h2
  · rw [h2] at hr e1 e2 e3 e4
    simp only at e1 e2 e3 e4
    have hx := Except.ok.inj hr
    simp only at hx
    refine ⟨unfilled, _, x, Fact.empty, st, st', unfilled_stencil, hd, rfl, h1, h2, ?_⟩
    rintro L U hF ⟨D, h3, h4⟩
    have up : ∀ {a : ℚ} {q : Res Dbl} {v : ℚ}, |v| ≤ 1 → q = .ok ⟨v⟩ → (a = 0 ∨ q = .ok ⟨a⟩) → |a| ≤ 1 := by
      rintro a q v hv hq (h | h)
      · rw [h]; norm_num
      · rw [hq] at h
        have : v = a := congrArg Rd.val (Except.ok.inj h)
        rw [← this]; exact hv
    have l10 := up (by norm_num) e1 (hF.storedL 1 0 (by omega) (by omega))
    have u00 := up (by norm_num) e2 (hF.storedU 0 0 (by omega) (by omega))
    have u02 := up (by norm_num) e3 (hF.storedU 0 2 (by omega) (by omega))
    have u12 := up (by norm_num) e4 (hF.storedU 1 2 (by omega) (by omega))
    have a10 := h3 1 (by omega) 0 (by omega)
    have a12 := h3 1 (by omega) 2 (by omega)
    have h5 := h4 1 (by omega)
    rw [hx] at h5
    simp [sum_range_succ, exactOf, exactAt, entry, unfilled] at h5
    simp [absProd, sum_range_succ, hF.diag, hF.lower 1 2, hF.upper 1 0, hF.upper 2 0] at a10 a12
    have m1 := mul_le_mul l10 u00 (abs_nonneg _) zero_le_one
    have m2 := mul_le_mul l10 u02 (abs_nonneg _) zero_le_one
    have b1 := abs_le.1 (a10.trans (show _ ≤ (1 / 4 : ℚ) by linarith))
    have b2 := abs_le.1 (a12.trans (show _ ≤ (1 / 2 : ℚ) by linarith))
    linarith [b1.1, b2.2]
  · rw [h2] at hr
    cases hr

/-- The hypotheses of `C127_backward_partial` and `C127_nonneg_partial` are met by a matrix whose factors are
rounded, with rows (3, 1) and (1, 3): the computed solution is not the exact one, and it is the solution of a system
whose matrix differs by less than 2^-48 in each element. -/
example : ∃ (st st' : Fact Dbl) (x : List Dbl) (D : Nat → Nat → ℚ),
    setMatrix Fact.empty [((0, 0), ⟨3⟩), ((0, 1), ⟨1⟩), ((1, 0), ⟨1⟩), ((1, 1), ⟨3⟩)] = .ok st
    ∧ solve st [⟨1⟩, ⟨1⟩] = .ok (st', x) ∧ x ≠ [⟨1 / 4⟩, ⟨1 / 4⟩]
    ∧ (∀ i < 2, ∀ j < 2, |D i j| < 1 / 2 ^ 48)
    ∧ (3 + D 0 0) * exactAt x 0 + (1 + D 0 1) * exactAt x 1 = 1
    ∧ (1 + D 1 0) * exactAt x 0 + (3 + D 1 1) * exactAt x 1 = 1 := by
  have hd : Distinct ([((0, 0), ⟨3⟩), ((0, 1), ⟨1⟩), ((1, 0), ⟨1⟩), ((1, 1), ⟨3⟩)] : Entries Dbl) := by
    unfold Distinct; decide
  obtain ⟨st, h1, h2⟩ := C127_returns_or_divides Fact.empty _ (full_stencil (R := Dbl) ⟨3⟩ ⟨1⟩ ⟨1⟩ ⟨3⟩) hd [⟨1⟩, ⟨1⟩] (by decide)
  have hr : ((setMatrix Fact.empty ([((0, 0), ⟨3⟩), ((0, 1), ⟨1⟩), ((1, 0), ⟨1⟩), ((1, 1), ⟨3⟩)] : Entries Dbl)).bind
      (fun st => solve st [⟨1⟩, ⟨1⟩])).map (fun r => r.2 != [⟨1 / 4⟩, ⟨1 / 4⟩]) = .ok true := by decide +kernel
  have e1 : ((setMatrix Fact.empty ([((0, 0), ⟨3⟩), ((0, 1), ⟨1⟩), ((1, 0), ⟨1⟩), ((1, 1), ⟨3⟩)] : Entries Dbl)).bind
      (fun st => solve st [⟨1⟩, ⟨1⟩])).bind (fun r => (rdL r.1 1 0).map (fun v => decide (0 ≤ v.val))) = .ok true := by
    decide +kernel
  have e2 : ∀ k < 2, ∀ i ≤ k, ((setMatrix Fact.empty ([((0, 0), ⟨3⟩), ((0, 1), ⟨1⟩), ((1, 0), ⟨1⟩), ((1, 1), ⟨3⟩)] : Entries Dbl)).bind
      (fun st => solve st [⟨1⟩, ⟨1⟩])).bind (fun r => (rdU r.1 i k).map (fun v => decide (0 ≤ v.val))) = .ok true := by
    decide +kernel
  rw [h1] at hr e1 e2
  simp only [Except.bind] at hr e1 e2
  rcases h2 with ⟨st', x, h2⟩ | h2
  · rw [h2] at hr e1 e2
    simp only at e1 e2
    obtain ⟨D, hD, hs⟩ := C127_nonneg_partial (binary_rounds 53) (by norm_num) Fact.empty _
      (full_stencil (R := Dbl) ⟨3⟩ ⟨1⟩ ⟨1⟩ ⟨3⟩) hd (full_filled _ _ _ _) [⟨1⟩, ⟨1⟩] (by decide) h1 h2 (by norm_num)
      (by
        intro i k v hi hk hv
        obtain ⟨rfl, rfl⟩ : i = 1 ∧ k = 0 := by omega
        rw [hv] at e1
        exact of_decide_eq_true (Except.ok.inj e1))
      (by
        intro i k v hk hi hv
        have := e2 k hk i hi
        rw [hv] at this
        exact of_decide_eq_true (Except.ok.inj this))
    refine ⟨st, st', x, D, h1, h2, ?_, ?_, ?_, ?_⟩
    · exact bne_iff_ne.1 (Except.ok.inj hr)
    · intro i hi j hj
      refine (hD i hi j hj).trans_lt ?_
      interval_cases i <;> interval_cases j <;> simp [exactOf, entry] <;> norm_num
    · have := hs 0 (by omega)
      simp [sum_range_succ, exactOf, entry] at this
      rw [this]
      rfl
    · have := hs 1 (by omega)
      simp [sum_range_succ, exactOf, entry] at this
      rw [this]
      rfl
  · rw [h2] at hr
    cases hr

end Verif.Round
