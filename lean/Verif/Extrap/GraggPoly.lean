import Verif.Extrap.Poly
import Mathlib.Algebra.Polynomial.Taylor
import Mathlib.Algebra.CharZero.Infinite

/-! # Elementary weights of the Gragg method are polynomials of fixed parity -/

namespace Verif.Extrap

open scoped BigOperators
open Finset Polynomial Verif.RK

theorem Lead.shift {d : Nat} {a : ℝ} {p : ℝ[X]} (hp : Lead d a p) (r : ℝ) :
    Lead d a (taylor r p) := by
  refine ⟨by rw [natDegree_taylor]; exact hp.1, ?_⟩
  rcases Nat.lt_or_ge p.natDegree d with h | h
  · rw [coeff_eq_zero_of_natDegree_lt (by rw [natDegree_taylor]; exact h), ← hp.2,
      coeff_eq_zero_of_natDegree_lt h]
  · have e : p.natDegree = d := le_antisymm hp.1 h
    rw [← hp.2, ← e, coeff_taylor_natDegree]
    rfl

theorem Lead.smul {d : Nat} {a : ℝ} {p : ℝ[X]} (hp : Lead d a p) (r : ℝ) :
    Lead d (r * a) (C r * p) :=
  ⟨(natDegree_C_mul_le _ _).trans hp.1, by rw [coeff_C_mul, hp.2]⟩

theorem Lead.add {d : Nat} {a b : ℝ} {p q : ℝ[X]} (hp : Lead d a p) (hq : Lead d b q) :
    Lead d (a + b) (p + q) :=
  ⟨(natDegree_add_le p q).trans (max_le hp.1 hq.1), by rw [coeff_add, hp.2, hq.2]⟩

/-- `p(-x) = (-1)^d p(x)` -/
def Parity (d : Nat) (p : ℝ[X]) : Prop := ∀ x, p.eval (-x) = (-1) ^ d * p.eval x

theorem Lead.reflect {d : Nat} {a : ℝ} {p : ℝ[X]} (hp : Lead d a p) :
    Lead d ((-1) ^ d * a) (p.comp (C (-1) * X)) := by
  refine ⟨?_, ?_⟩
  · rw [natDegree_le_iff_coeff_eq_zero]
    intro N hN
    rw [comp_C_mul_X_coeff, coeff_eq_zero_of_natDegree_lt (lt_of_le_of_lt hp.1 hN), zero_mul]
  · rw [comp_C_mul_X_coeff, hp.2, mul_comm]

theorem eval_reflect (p : ℝ[X]) (x : ℝ) : (p.comp (C (-1) * X)).eval x = p.eval (-x) := by
  simp

/-- Only powers of the parity of `d` occur. -/
theorem Parity.coeff {d : Nat} {p : ℝ[X]} (hp : Parity d p) (j : Nat) (hj : (d + j) % 2 = 1) :
    p.coeff j = 0 := by
  have h : p.comp (C (-1) * X) = C ((-1) ^ d) * p := by
    apply Polynomial.funext
    intro x
    rw [eval_reflect, hp x, eval_mul, eval_C]
  have h2 := congrArg (fun q => q.coeff j) h
  simp only [comp_C_mul_X_coeff, coeff_C_mul] at h2
  have h3 : ((-1 : ℝ)) ^ (d + j) = -1 := Odd.neg_one_pow (Nat.odd_iff.2 hj)
  have h4 : ((-1 : ℝ)) ^ d * (-1) ^ d = 1 := by
    rw [← mul_pow]; norm_num
  have h5 : ((-1 : ℝ)) ^ d * (p.coeff j * (-1) ^ j) = p.coeff j := by
    rw [h2, ← mul_assoc, h4, one_mul]
  have h6 : ((-1 : ℝ)) ^ (d + j) * p.coeff j = p.coeff j := by
    rw [pow_add]
    linear_combination h5
  rw [h3] at h6
  linarith

/-- Central summation, with value zero at `x₀` when the result is even. -/
theorem central (d : Nat) (p : ℝ[X]) (a : ℝ) (hp : Lead d a p) (hpar : Parity d p) (x₀ : ℝ) :
    ∃ q : ℝ[X], Lead (d + 1) (a / (d + 1)) q ∧ Parity (d + 1) q ∧
      (∀ x, q.eval (x + 1 / 2) - q.eval (x - 1 / 2) = p.eval x) ∧
      (d % 2 = 1 → q.eval x₀ = 0) := by
  obtain ⟨q0, h1, h2⟩ := antidifference d p a hp
  have h3 : Lead (d + 1) (a / (d + 1)) (taylor (1 / 2) q0) := h1.shift _
  have h4 : ∀ x, (taylor (1 / 2) q0).eval (x + 1 / 2) - (taylor (1 / 2) q0).eval (x - 1 / 2)
      = p.eval x := by
    intro x
    rw [taylor_eval, taylor_eval, ← h2 x]
    congr 2
    · ring
    · ring
  generalize taylor (1 / 2) q0 = q1 at h3 h4
  have hone : ((-1 : ℝ)) ^ (d + 1) * (-1) ^ (d + 1) = 1 := by rw [← mul_pow]; norm_num
  obtain ⟨q2, hq2⟩ : ∃ q2 : ℝ[X], q2 = C (1 / 2) * q1
      + C (1 / 2) * (C ((-1) ^ (d + 1)) * q1.comp (C (-1) * X)) := ⟨_, rfl⟩
  have hev : ∀ x, q2.eval x = 1 / 2 * q1.eval x + 1 / 2 * ((-1) ^ (d + 1) * q1.eval (-x)) := by
    intro x
    rw [hq2]
    simp only [eval_add, eval_mul, eval_C, eval_reflect]
  have hL2 : Lead (d + 1) (a / (d + 1)) q2 := by
    have := (h3.smul (1 / 2)).add ((h3.reflect.smul ((-1) ^ (d + 1))).smul (1 / 2))
    rw [← mul_assoc ((-1 : ℝ) ^ (d + 1)), hone, one_mul, ← add_mul] at this
    norm_num at this
    rw [hq2]
    simpa using this
  have hP2 : Parity (d + 1) q2 := by
    intro x
    rw [hev, hev, neg_neg]
    linear_combination (-1 / 2 * q1.eval (-x)) * hone
  have hD2 : ∀ x, q2.eval (x + 1 / 2) - q2.eval (x - 1 / 2) = p.eval x := by
    intro x
    rw [hev, hev]
    have e1 := h4 x
    have e2 := h4 (-x)
    rw [hpar x] at e2
    have e3 : -(x + 1 / 2) = -x - 1 / 2 := by ring
    have e4 : -(x - 1 / 2) = -x + 1 / 2 := by ring
    rw [e3, e4]
    have hone' : ((-1 : ℝ)) ^ (d + 1) * (-1) ^ d = -1 := by
      rw [pow_succ, mul_right_comm, ← mul_pow]; norm_num
    linear_combination (1 / 2) * e1 - (1 / 2) * ((-1) ^ (d + 1)) * e2 - (1 / 2) * p.eval x * hone'
  by_cases hd : d % 2 = 1
  · have heven : ((-1 : ℝ)) ^ (d + 1) = 1 := Even.neg_one_pow (Nat.even_iff.2 (by omega))
    refine ⟨q2 + C (-q2.eval x₀), hL2.add_low (e := 0) (by simp) (by omega), ?_, ?_, ?_⟩
    · intro x
      rw [eval_add, eval_add, eval_C, eval_C, hP2 x, heven]
      ring
    · intro x
      rw [eval_add, eval_add, eval_C, eval_C, ← hD2 x]
      ring
    · intro _; simp
  · exact ⟨q2, hL2, hP2, hD2, fun h => absurd h hd⟩

theorem Parity.mul {d e : Nat} {p q : ℝ[X]} (hp : Parity d p) (hq : Parity e q) :
    Parity (d + e) (p * q) := by
  intro x
  rw [eval_mul, eval_mul, hp x, hq x, pow_add]
  ring

/-- An odd polynomial vanishes at zero. -/
theorem Parity.zero {d : Nat} {p : ℝ[X]} (hp : Parity d p) (hd : d % 2 = 1) : p.eval 0 = 0 := by
  have := hp 0
  rw [Odd.neg_one_pow (Nat.odd_iff.2 hd), neg_zero] at this
  linarith

/-- Coefficients of the Gragg method with `n` steps as a Runge-Kutta method, in units of the small
step: stage `2k` belongs to `U_k`, stage `2k+1` to `W_{k+1/2}`. -/
noncomputable def grA (i j : Nat) : ℝ :=
  if i % 2 = 0 then (if j % 2 = 1 then 1 else 0)
  else if j = 0 then 1 / 2 else if j % 2 = 0 then 1 else 0

theorem sum_pairs {M : Type} [AddCommMonoid M] (k : Nat) (F : Nat → M) :
    ∑ j ∈ range (2 * k), F j = ∑ i ∈ range k, (F (2 * i) + F (2 * i + 1)) := by
  induction k with
  | zero => rfl
  | succ k ih =>
    rw [show 2 * (k + 1) = 2 * k + 1 + 1 by omega, sum_range_succ, sum_range_succ, ih,
      sum_range_succ, add_assoc]

theorem grA_even {M : Type} [AddCommGroup M] [Module ℝ M] (k : Nat) (F : Nat → M) :
    ∑ j ∈ range (2 * k), grA (2 * k) j • F j = ∑ i ∈ range k, F (2 * i + 1) := by
  rw [sum_pairs]
  refine sum_congr rfl (fun i _ => ?_)
  have h1 : grA (2 * k) (2 * i) = 0 := by
    rw [grA, if_pos (by omega), if_neg (by omega)]
  have h2 : grA (2 * k) (2 * i + 1) = 1 := by
    rw [grA, if_pos (by omega), if_pos (by omega)]
  rw [h1, h2, zero_smul, zero_add, one_smul]

theorem grA_odd {M : Type} [AddCommGroup M] [Module ℝ M] (k : Nat) (F : Nat → M) :
    ∑ j ∈ range (2 * k + 1), grA (2 * k + 1) j • F j
      = (1 / 2 : ℝ) • F 0 + ∑ i ∈ range k, F (2 * i + 2) := by
  have h0 : grA (2 * k + 1) 0 = 1 / 2 := by rw [grA, if_neg (by omega), if_pos rfl]
  rw [sum_range_succ', h0, add_comm, sum_pairs]
  congr 1
  refine sum_congr rfl (fun i _ => ?_)
  have h1 : grA (2 * k + 1) (2 * i + 1) = 0 := by
    rw [grA, if_neg (by omega), if_neg (by omega), if_neg (by omega)]
  have h2 : grA (2 * k + 1) (2 * i + 1 + 1) = 1 := by
    rw [grA, if_neg (by omega), if_neg (by omega), if_pos (by omega)]
  rw [h1, h2, zero_smul, zero_add, one_smul]

/-- Sums of both kinds of stages. -/
theorem gr_sums (d : Nat) (a : ℝ) (Pu Pw : ℝ[X]) (hu : Lead d a Pu) (hw : Lead d a Pw)
    (pu : Parity d Pu) (pw : Parity d Pw) :
    ∃ Qu Qw : ℝ[X], Lead (d + 1) (a / (d + 1)) Qu ∧ Lead (d + 1) (a / (d + 1)) Qw ∧
      Parity (d + 1) Qu ∧ Parity (d + 1) Qw ∧ Qu.eval 0 = 0 ∧
      (∀ x, Qw.eval (x + 1 / 2) - Qw.eval (x - 1 / 2) = Pu.eval x) ∧
      (d % 2 = 1 → Qw.eval (1 / 2) = 0) ∧
      (∀ k : Nat, ∑ i ∈ range k, Pw.eval ((i : ℝ) + 1 / 2) = Qu.eval (k : ℝ)) ∧
      (∀ k : Nat, 1 / 2 * Pu.eval 0 + ∑ i ∈ range k, Pu.eval ((i : ℝ) + 1)
        = Qw.eval ((k : ℝ) + 1 / 2)) := by
  obtain ⟨Qu, a1, a2, a3, a4⟩ := central d Pw a hw pw 0
  obtain ⟨Qw, b1, b2, b3, b4⟩ := central d Pu a hu pu (1 / 2)
  have hQu0 : Qu.eval 0 = 0 := by
    by_cases hd : d % 2 = 1
    · exact a4 hd
    · exact a2.zero (by omega)
  have hQw0 : Qw.eval (1 / 2) = 1 / 2 * Pu.eval 0 := by
    by_cases hd : d % 2 = 1
    · rw [b4 hd, pu.zero hd, mul_zero]
    · have e1 := b3 0
      have e2 := b2 (1 / 2)
      rw [Odd.neg_one_pow (Nat.odd_iff.2 (by omega))] at e2
      rw [zero_add, zero_sub, e2] at e1
      linarith
  refine ⟨Qu, Qw, a1, b1, a2, b2, hQu0, b3, b4, ?_, ?_⟩
  · intro k
    induction k with
    | zero => simp [hQu0]
    | succ k ih =>
      rw [sum_range_succ, ih]
      have := a3 ((k : ℝ) + 1 / 2)
      rw [show (k : ℝ) + 1 / 2 + 1 / 2 = k + 1 by ring, show (k : ℝ) + 1 / 2 - 1 / 2 = k by ring] at this
      push_cast
      linarith
  · intro k
    induction k with
    | zero => simp only [range_zero, sum_empty, add_zero, Nat.cast_zero, zero_add]; exact hQw0.symm
    | succ k ih =>
      rw [sum_range_succ, ← add_assoc, ih]
      have := b3 ((k : ℝ) + 1)
      rw [show (k : ℝ) + 1 - 1 / 2 = k + 1 / 2 by ring] at this
      push_cast
      linarith

theorem size_cast (t : Tree) : ((t.size - 1 : Nat) : ℝ) + 1 = t.size := by
  have : t.size - 1 + 1 = t.size := by have := Tree.size_pos t; omega
  exact_mod_cast congrArg (Nat.cast (R := ℝ)) this

theorem eta_gr (t : Tree) : ∃ Pu Pw : ℝ[X],
    Lead (t.size - 1) (Tree.exactG t) Pu ∧ Lead (t.size - 1) (Tree.exactG t) Pw ∧
      Parity (t.size - 1) Pu ∧ Parity (t.size - 1) Pw ∧
      (∀ k : Nat, Tree.eta grA t (2 * k) = Pu.eval (k : ℝ)) ∧
      (∀ k : Nat, Tree.eta grA t (2 * k + 1) = Pw.eval ((k : ℝ) + 1 / 2)) := by
  induction t with
  | leaf =>
    refine ⟨1, 1, ⟨by simp [Tree.size], by simp [Tree.size, Tree.exactG]⟩,
      ⟨by simp [Tree.size], by simp [Tree.size, Tree.exactG]⟩, ?_, ?_, ?_, ?_⟩
    · intro x; simp [Tree.size]
    · intro x; simp [Tree.size]
    · intro k; simp [Tree.eta]
    · intro k; simp [Tree.eta]
  | graft c u ihc ihu =>
    obtain ⟨Pu, Pw, c1, c2, c3, c4, c5, c6⟩ := ihc
    obtain ⟨Ru, Rw, d1, d2, d3, d4, d5, d6⟩ := ihu
    obtain ⟨Qu, Qw, q1, q2, q3, q4, _, _, _, q5, q6⟩ := gr_sums _ _ Pu Pw c1 c2 c3 c4
    have hcs := Tree.size_pos c
    have hus := Tree.size_pos u
    rw [size_cast, Nat.sub_add_cancel hcs] at q1 q2
    rw [Nat.sub_add_cancel hcs] at q3 q4
    have e : (Tree.graft c u).size - 1 = c.size + (u.size - 1) := by
      simp only [Tree.size]; omega
    rw [e]
    refine ⟨Qu * Ru, Qw * Rw, q1.mul d1, q2.mul d2, q3.mul d3, q4.mul d4, ?_, ?_⟩
    · intro k
      rw [Tree.eta, d5 k, eval_mul]
      congr 1
      have := grA_even (M := ℝ) k (fun j => Tree.eta grA c j)
      simp only [smul_eq_mul] at this
      rw [this, ← q5]
      exact sum_congr rfl (fun i _ => c6 i)
    · intro k
      rw [Tree.eta, d6 k, eval_mul]
      congr 1
      have := grA_odd (M := ℝ) k (fun j => Tree.eta grA c j)
      simp only [smul_eq_mul] at this
      rw [this, ← q6]
      congr 1
      · have := c5 0
        simp only [mul_zero, Nat.cast_zero] at this
        rw [this]
      · refine sum_congr rfl (fun i _ => ?_)
        have := c5 (i + 1)
        push_cast at this
        rw [← this]
        rfl

/-- A polynomial of fixed parity without constant term, divided by the power of its degree:
a polynomial in the square of the inverse. -/
theorem parity_div_pow {d M : Nat} {a : ℝ} {q : ℝ[X]} (hq : Lead d a q) (hp : Parity d q)
    (h0 : q.eval 0 = 0) (hM : d ≤ 2 * M) : ∃ c : Nat → ℝ, c 0 = a ∧
      ∀ x : ℝ, x ≠ 0 → (1 / x) ^ d * q.eval x = ∑ j ∈ range M, ((1 / x) ^ 2) ^ j * c j := by
  refine ⟨fun j => if 2 * j ≤ d then q.coeff (d - 2 * j) else 0, by simp [hq.2], fun x hx => ?_⟩
  rw [eval_div_pow hq hx]
  have h1 : ∀ j ∈ range (2 * M), j ∉ range (d + 1) →
      (1 / x) ^ j * (if j ≤ d then q.coeff (d - j) else 0) = 0 := by
    intro j _ hj
    rw [mem_range] at hj
    rw [if_neg (by omega), mul_zero]
  have h2 : ∑ j ∈ range (d + 1), (1 / x) ^ j * q.coeff (d - j)
      = ∑ j ∈ range (2 * M), (1 / x) ^ j * (if j ≤ d then q.coeff (d - j) else 0) := by
    by_cases hlt : d + 1 ≤ 2 * M
    · rw [← sum_subset (range_mono hlt) h1]
      refine sum_congr rfl (fun j hj => ?_)
      rw [mem_range] at hj
      rw [if_pos (by omega)]
    · have e : d = 2 * M := by omega
      rw [sum_range_succ, Nat.sub_self, coeff_zero_eq_eval_zero, h0, mul_zero, add_zero, ← e]
      refine sum_congr rfl (fun j hj => ?_)
      rw [mem_range] at hj
      rw [if_pos (by omega)]
  rw [h2, sum_pairs]
  refine sum_congr rfl (fun j _ => ?_)
  have h3 : (if 2 * j + 1 ≤ d then q.coeff (d - (2 * j + 1)) else 0) = 0 := by
    split
    · exact hp.coeff _ (by omega)
    · rfl
  rw [h3, mul_zero, add_zero, pow_mul]

/-- Output weights of the Gragg method: for `U_n`, and for the average of `U_n` and `V_n`. -/
noncomputable def grB (smooth : Bool) (n j : Nat) : ℝ :=
  if smooth then
    (1 / 2) * grA (2 * n) j + (1 / 2) * (if j = 2 * n then 1 / 2 else grA (2 * n - 1) j)
  else if j = 2 * n then 0 else grA (2 * n) j

theorem grB_sum {M : Type} [AddCommGroup M] [Module ℝ M] (smooth : Bool) (n : Nat) (hn : 0 < n)
    (F : Nat → M) :
    ∑ j ∈ range (2 * n + 1), grB smooth n j • F j
      = if smooth then (1 / 2 : ℝ) • (∑ i ∈ range n, F (2 * i + 1)) + (1 / 2 : ℝ) •
          ((1 / 2 : ℝ) • F 0 + ∑ i ∈ range (n - 1), F (2 * i + 2) + (1 / 2 : ℝ) • F (2 * n))
        else ∑ i ∈ range n, F (2 * i + 1) := by
  have hev : grA (2 * n) (2 * n) = 0 := by rw [grA, if_pos (by omega), if_neg (by omega)]
  cases smooth with
  | false =>
    simp only [grB, Bool.false_eq_true, if_false]
    rw [sum_range_succ, if_pos rfl, zero_smul, add_zero, ← grA_even n F]
    refine sum_congr rfl (fun j hj => ?_)
    rw [mem_range] at hj
    rw [if_neg (by omega)]
  | true =>
    simp only [grB, if_true, add_smul, sum_add_distrib]
    congr 1
    · rw [sum_range_succ, hev, mul_zero, zero_smul, add_zero, ← grA_even n F, smul_sum]
      exact sum_congr rfl (fun j _ => (smul_smul _ _ _).symm)
    · rw [sum_range_succ, if_pos rfl, smul_add, smul_smul]
      congr 1
      have := grA_odd (n - 1) F
      rw [show 2 * (n - 1) + 1 = 2 * n - 1 by omega] at this
      rw [← this, smul_sum]
      have hsplit : 2 * n = 2 * n - 1 + 1 := by omega
      rw [show range (2 * n) = range (2 * n - 1 + 1) by rw [← hsplit], sum_range_succ]
      have hz : grA (2 * n - 1) (2 * n - 1) = 0 := by
        rw [grA, if_neg (by omega), if_neg (by omega), if_neg (by omega)]
      rw [if_neg (by omega), hz, mul_zero, zero_smul, add_zero]
      refine sum_congr rfl (fun j hj => ?_)
      rw [mem_range] at hj
      rw [if_neg (by omega), smul_smul]

/-- Elementary weights of the Gragg method with `n` steps of size `1/n`. -/
theorem weight_gr (smooth : Bool) (M : Nat) (t : Tree) (ht : t.size ≤ 2 * M) :
    ∃ c : Nat → ℝ, c 0 = Tree.exact t ∧ ∀ n : Nat, 0 < n →
      Tree.weight (fun i j => (1 / n : ℝ) * grA i j) (fun j => (1 / n : ℝ) * grB smooth n j)
        (2 * n + 1) t = ∑ j ∈ range M, ((1 / n : ℝ) ^ 2) ^ j * c j := by
  obtain ⟨Pu, Pw, c1, c2, c3, c4, c5, c6⟩ := eta_gr t
  obtain ⟨Qu, Qw, q1, q2, q3, q4, q0, qd, qh, q5, q6⟩ := gr_sums _ _ Pu Pw c1 c2 c3 c4
  have hts := Tree.size_pos t
  rw [size_cast, Nat.sub_add_cancel hts] at q1 q2
  rw [Nat.sub_add_cancel hts] at q3 q4
  obtain ⟨Qv, hQv⟩ : ∃ Qv : ℝ[X], Qv = C (1 / 2) * taylor (1 / 2) Qw
      + C (1 / 2) * taylor (-(1 / 2)) Qw := ⟨_, rfl⟩
  have hve : ∀ x, Qv.eval x = 1 / 2 * Qw.eval (x + 1 / 2) + 1 / 2 * Qw.eval (x - 1 / 2) := by
    intro x
    rw [hQv]
    simp only [eval_add, eval_mul, eval_C, taylor_eval, sub_eq_add_neg]
  have hvL : Lead t.size (Tree.exactG t / t.size) Qv := by
    have := ((q2.shift (1 / 2)).smul (1 / 2)).add ((q2.shift (-(1 / 2))).smul (1 / 2))
    rw [← add_mul] at this
    norm_num at this
    rw [hQv]
    simpa using this
  have hvP : Parity t.size Qv := by
    intro x
    rw [hve, hve]
    have e1 := q4 (x + 1 / 2)
    have e2 := q4 (x - 1 / 2)
    rw [show -(x + 1 / 2) = -x - 1 / 2 by ring] at e1
    rw [show -(x - 1 / 2) = -x + 1 / 2 by ring] at e2
    rw [e1, e2]
    ring
  have hv0 : Qv.eval 0 = 0 := by
    by_cases hd : t.size % 2 = 1
    · exact hvP.zero hd
    · rw [hve, zero_add, zero_sub, q4 (1 / 2), qh (by omega)]
      ring
  obtain ⟨Q, hQ⟩ : ∃ Q : ℝ[X], Q = if smooth then C (1 / 2) * Qu + C (1 / 2) * Qv else Qu := ⟨_, rfl⟩
  have hQL : Lead t.size (Tree.exact t) Q := by
    rw [hQ, Tree.exact]
    split
    · have := (q1.smul (1 / 2)).add (hvL.smul (1 / 2))
      rw [← add_mul] at this
      norm_num at this
      simpa using this
    · exact q1
  have hQP : Parity t.size Q := by
    rw [hQ]
    split
    · intro x
      simp only [eval_add, eval_mul, eval_C]
      rw [q3 x, hvP x]
      ring
    · exact q3
  have hQ0 : Q.eval 0 = 0 := by
    rw [hQ]
    split
    · simp only [eval_add, eval_mul, eval_C]
      rw [q0, hv0]
      ring
    · exact q0
  obtain ⟨c, hc0, hc⟩ := parity_div_pow hQL hQP hQ0 ht
  refine ⟨c, hc0, fun n hn => ?_⟩
  have hn' : (n : ℝ) ≠ 0 := by exact_mod_cast (by omega : n ≠ 0)
  rw [← hc n hn', Tree.weight]
  have h1 : ∀ j, (1 / n : ℝ) * grB smooth n j * Tree.eta (fun i j => (1 / n : ℝ) * grA i j) t j
      = (1 / n : ℝ) ^ t.size * (grB smooth n j • Tree.eta grA t j) := by
    intro j
    rw [Tree.eta_scale, smul_eq_mul]
    obtain ⟨k, hk⟩ : ∃ k, t.size = k + 1 := ⟨t.size - 1, by omega⟩
    rw [hk, Nat.add_sub_cancel, pow_succ]
    ring
  rw [sum_congr rfl (fun j _ => h1 j), ← mul_sum, grB_sum smooth n hn]
  congr 1
  have hU : ∑ i ∈ range n, Tree.eta grA t (2 * i + 1) = Qu.eval (n : ℝ) := by
    rw [← q5]
    exact sum_congr rfl (fun i _ => c6 i)
  have hW : (1 / 2 : ℝ) • Tree.eta grA t 0 + ∑ i ∈ range (n - 1), Tree.eta grA t (2 * i + 2)
      = Qw.eval ((n : ℝ) - 1 / 2) := by
    have h2 := q6 (n - 1)
    have h3 : ((n - 1 : Nat) : ℝ) + 1 / 2 = (n : ℝ) - 1 / 2 := by
      rw [Nat.cast_sub (by omega)]
      push_cast
      ring
    rw [h3] at h2
    rw [← h2, smul_eq_mul]
    congr 1
    · have := c5 0
      simp only [mul_zero, Nat.cast_zero] at this
      rw [this]
    · refine sum_congr rfl (fun i _ => ?_)
      have := c5 (i + 1)
      push_cast at this
      rw [← this]
      rfl
  rw [hQ]
  cases smooth with
  | false => simp only [Bool.false_eq_true, if_false]; exact hU
  | true =>
    simp only [if_true]
    rw [hU, hW, c5 n, ← qd]
    simp only [smul_eq_mul, eval_add, eval_mul, eval_C]
    rw [hve]
    ring

end Verif.Extrap
