import Verif.RK.Orders
import Mathlib.Algebra.Polynomial.Eval.Degree
import Mathlib.Algebra.Polynomial.Degree.Operations
import Mathlib.Algebra.Polynomial.AlgebraMap
import Mathlib.Algebra.Polynomial.Roots
import Mathlib.Algebra.Polynomial.Derivative
import Mathlib.Data.Real.Basic
import Mathlib.Tactic.FieldSimp
import Mathlib.Tactic.LinearCombination

/-! # Elementary weights of iterated methods are polynomials in the number of steps -/

namespace Verif.Extrap

open scoped BigOperators
open Finset Polynomial Verif.RK

/-- Degree at most `d`, coefficient `a` at the power `d`. -/
def Lead (d : Nat) (a : ℝ) (p : ℝ[X]) : Prop := p.natDegree ≤ d ∧ p.coeff d = a

theorem Lead.mul {d e : Nat} {a b : ℝ} {p q : ℝ[X]} (hp : Lead d a p) (hq : Lead e b q) :
    Lead (d + e) (a * b) (p * q) :=
  ⟨natDegree_mul_le.trans (Nat.add_le_add hp.1 hq.1), by
    rw [coeff_mul_add_eq_of_natDegree_le hp.1 hq.1, hp.2, hq.2]⟩

theorem Lead.add_low {d e : Nat} {a : ℝ} {p q : ℝ[X]} (hp : Lead d a p) (hq : q.natDegree ≤ e)
    (he : e < d) : Lead d a (p + q) :=
  ⟨(natDegree_add_le p q).trans (max_le hp.1 (by omega)), by
    rw [coeff_add, hp.2, coeff_eq_zero_of_natDegree_lt (by omega), add_zero]⟩

theorem Lead.sum {d : Nat} (s : Nat) (b : Nat → ℝ) (a : ℝ) (p : Nat → ℝ[X])
    (hp : ∀ l, l < s → Lead d a (p l)) :
    Lead d ((∑ l ∈ range s, b l) * a) (∑ l ∈ range s, C (b l) * p l) := by
  refine ⟨natDegree_sum_le_of_forall_le _ _ (fun l hl => ?_), ?_⟩
  · exact (natDegree_C_mul_le _ _).trans (hp l (mem_range.1 hl)).1
  · rw [finsetSum_coeff, sum_mul]
    refine sum_congr rfl (fun l hl => ?_)
    rw [coeff_C_mul, (hp l (mem_range.1 hl)).2]

/-- The forward difference lowers the degree. -/
theorem diff_X_pow (d : Nat) :
    Lead d (d + 1 : ℝ) (((X : ℝ[X]) + 1) ^ (d + 1) - X ^ (d + 1)) := by
  induction d with
  | zero => refine ⟨?_, ?_⟩ <;> simp
  | succ d ih =>
    have e : ((X : ℝ[X]) + 1) ^ (d + 1 + 1) - X ^ (d + 1 + 1)
        = X * ((X + 1) ^ (d + 1) - X ^ (d + 1)) + (X + 1) ^ (d + 1) := by ring
    have h1 : Lead (d + 1) (1 : ℝ) (((X : ℝ[X]) + 1) ^ (d + 1)) := by
      have hm := monic_X_add_C (1 : ℝ)
      rw [C_1] at hm
      have hdeg : (((X : ℝ[X]) + 1) ^ (d + 1)).natDegree = d + 1 := by
        rw [hm.natDegree_pow, ← C_1, natDegree_X_add_C, mul_one]
      refine ⟨hdeg.le, ?_⟩
      have := (hm.pow (d + 1)).coeff_natDegree
      rwa [hdeg] at this
    refine ⟨?_, ?_⟩
    · rw [e]
      refine (natDegree_add_le _ _).trans (max_le ?_ h1.1)
      refine natDegree_mul_le.trans ?_
      have := ih.1
      rw [natDegree_X]
      omega
    · rw [e, coeff_add, coeff_X_mul, ih.2, h1.2]
      push_cast
      ring

/-- Summation of polynomials. -/
theorem antidifference (d : Nat) : ∀ (p : ℝ[X]) (a : ℝ), Lead d a p →
    ∃ q : ℝ[X], Lead (d + 1) (a / (d + 1)) q ∧ ∀ x, q.eval (x + 1) - q.eval x = p.eval x := by
  induction d using Nat.strong_induction_on with
  | _ d ih =>
    intro p a hp
    have hd : (d + 1 : ℝ) ≠ 0 := by positivity
    obtain ⟨q0, hq0⟩ : ∃ q0 : ℝ[X], q0 = C (a / (d + 1)) * X ^ (d + 1) := ⟨_, rfl⟩
    have hq0L : Lead (d + 1) (a / (d + 1)) q0 := by
      rw [hq0]
      exact ⟨natDegree_C_mul_X_pow_le _ _, by simp⟩
    obtain ⟨r, hr⟩ : ∃ r : ℝ[X], r = p - C (a / (d + 1)) * ((X + 1) ^ (d + 1) - X ^ (d + 1)) := ⟨_, rfl⟩
    have hrd : r.natDegree ≤ d := by
      rw [hr]
      refine (natDegree_sub_le _ _).trans (max_le hp.1 ?_)
      exact (natDegree_C_mul_le _ _).trans (diff_X_pow d).1
    have hrc : r.coeff d = 0 := by
      rw [hr, coeff_sub, hp.2, coeff_C_mul, (diff_X_pow d).2]
      field_simp
      ring
    have hq0e : ∀ x, q0.eval (x + 1) - q0.eval x = p.eval x - r.eval x := by
      intro x
      rw [hr, hq0]
      simp only [eval_mul, eval_C, eval_pow, eval_X, eval_sub, eval_add, eval_one]
      ring
    rcases Nat.eq_zero_or_pos d with h0 | hpos
    · subst h0
      refine ⟨q0, hq0L, fun x => ?_⟩
      have : r = 0 := by
        rw [eq_C_of_natDegree_le_zero hrd, hrc, C_0]
      rw [hq0e, this, eval_zero, sub_zero]
    · have hr2 : Lead (d - 1) (r.coeff (d - 1)) r := by
        refine ⟨?_, rfl⟩
        rw [natDegree_le_iff_coeff_eq_zero]
        intro N hN
        rcases Nat.lt_or_ge d N with h | h
        · exact coeff_eq_zero_of_natDegree_lt (by omega)
        · have : N = d := by omega
          rw [this, hrc]
      obtain ⟨q1, h1, h2⟩ := ih (d - 1) (by omega) r _ hr2
      refine ⟨q0 + q1, hq0L.add_low h1.1 (by omega), fun x => ?_⟩
      rw [eval_add, eval_add]
      linear_combination hq0e x + h2 x

/-- Sums of values of a polynomial. -/
theorem summation (d : Nat) (p : ℝ[X]) (a : ℝ) (hp : Lead d a p) :
    ∃ q : ℝ[X], Lead (d + 1) (a / (d + 1)) q ∧ q.eval 0 = 0 ∧
      ∀ n : Nat, ∑ i ∈ range n, p.eval (i : ℝ) = q.eval (n : ℝ) := by
  obtain ⟨q, h1, h2⟩ := antidifference d p a hp
  refine ⟨q + C (-q.eval 0), h1.add_low (e := 0) (by simp) (by omega), by simp, fun n => ?_⟩
  induction n with
  | zero => simp
  | succ n ih =>
    rw [sum_range_succ, ih]
    simp only [eval_add, eval_C]
    have := h2 n
    push_cast
    linarith

/-! ### Iterated Runge-Kutta methods -/

/-- Coefficients of `n` steps of a method as one step with stage `i * s + l` being stage `l` of
step `i`, in units of the small step. -/
def iterA (s : Nat) (a : Nat → Nat → ℝ) (b : Nat → ℝ) (i j : Nat) : ℝ :=
  if j / s < i / s then b (j % s) else a (i % s) (j % s)

theorem sum_blocks {M : Type} [AddCommMonoid M] (s i l : Nat) (F : Nat → M) :
    ∑ j ∈ range (i * s + l), F j
      = (∑ i' ∈ range i, ∑ l' ∈ range s, F (i' * s + l')) + ∑ l' ∈ range l, F (i * s + l') := by
  rw [sum_range_add]
  congr 1
  induction i with
  | zero => simp
  | succ i ih => rw [Nat.succ_mul, sum_range_add, ih, sum_range_succ]

theorem block_div {s i l : Nat} (hl : l < s) : (i * s + l) / s = i := by
  rw [Nat.mul_comm, Nat.mul_add_div (by omega), Nat.div_eq_of_lt hl, Nat.add_zero]

theorem block_mod {s i l : Nat} (hl : l < s) : (i * s + l) % s = l := by
  rw [Nat.mul_comm, Nat.mul_add_mod, Nat.mod_eq_of_lt hl]

theorem iterA_row {M : Type} [AddCommGroup M] [Module ℝ M] (s : Nat) (a : Nat → Nat → ℝ)
    (b : Nat → ℝ) {i l : Nat} (hl : l < s) (F : Nat → M) :
    ∑ j ∈ range (i * s + l), iterA s a b (i * s + l) j • F j
      = (∑ i' ∈ range i, ∑ l' ∈ range s, b l' • F (i' * s + l'))
        + ∑ l' ∈ range l, a l l' • F (i * s + l') := by
  rw [sum_blocks]
  congr 1
  · refine sum_congr rfl (fun i' hi' => sum_congr rfl (fun l' hl' => ?_))
    rw [mem_range] at hi' hl'
    rw [iterA, block_div hl', block_div hl, if_pos hi', block_mod hl']
  · refine sum_congr rfl (fun l' hl' => ?_)
    rw [mem_range] at hl'
    rw [iterA, block_div (by omega : l' < s), block_div hl, if_neg (lt_irrefl _), block_mod hl,
      block_mod (by omega)]

theorem eta_iter (s : Nat) (a : Nat → Nat → ℝ) (b : Nat → ℝ) (hb : ∑ l ∈ range s, b l = 1)
    (t : Tree) : ∃ P : Nat → ℝ[X], (∀ l, l < s → Lead (t.size - 1) (Tree.exactG t) (P l)) ∧
      ∀ i l, l < s → Tree.eta (iterA s a b) t (i * s + l) = (P l).eval (i : ℝ) := by
  induction t with
  | leaf =>
    refine ⟨fun _ => 1, fun l _ => ⟨by simp [Tree.size], by simp [Tree.size, Tree.exactG]⟩, ?_⟩
    intro i l _
    simp [Tree.eta]
  | graft c u ihc ihu =>
    obtain ⟨Pc, hc1, hc2⟩ := ihc
    obtain ⟨Pu, hu1, hu2⟩ := ihu
    have hcs := Tree.size_pos c
    have hus := Tree.size_pos u
    have hsum := Lead.sum s b (Tree.exactG c) Pc hc1
    rw [hb, one_mul] at hsum
    obtain ⟨Q, hQ1, _, hQ2⟩ := summation _ _ _ hsum
    have hcc : ((c.size - 1 : Nat) : ℝ) + 1 = c.size := by
      have : c.size - 1 + 1 = c.size := by omega
      exact_mod_cast congrArg (Nat.cast (R := ℝ)) this
    rw [hcc, Nat.sub_add_cancel hcs] at hQ1
    refine ⟨fun l => (Q + ∑ l' ∈ range l, C (a l l') * Pc l') * Pu l, ?_, ?_⟩
    · intro l hl
      have h1 : (∑ l' ∈ range l, C (a l l') * Pc l').natDegree ≤ c.size - 1 :=
        natDegree_sum_le_of_forall_le _ _ (fun l' hl' =>
          (natDegree_C_mul_le _ _).trans (hc1 l' (by rw [mem_range] at hl'; omega)).1)
      have h2 := (hQ1.add_low h1 (by omega)).mul (hu1 l hl)
      have e : (Tree.graft c u).size - 1 = c.size + (u.size - 1) := by
        simp only [Tree.size]; omega
      rw [e]
      exact h2
    · intro i l hl
      rw [Tree.eta, hu2 i l hl, eval_mul]
      congr 1
      have := iterA_row (M := ℝ) s a b hl (i := i) (fun j => Tree.eta (iterA s a b) c j)
      simp only [smul_eq_mul] at this
      rw [this, eval_add, ← hQ2, eval_finsetSum]
      congr 1
      · refine sum_congr rfl (fun i' _ => ?_)
        rw [eval_finsetSum]
        refine sum_congr rfl (fun l' hl' => ?_)
        rw [hc2 i' l' (mem_range.1 hl'), eval_mul, eval_C]
      · refine sum_congr rfl (fun l' hl' => ?_)
        rw [mem_range] at hl'
        rw [hc2 i l' (by omega), eval_mul, eval_C]

/-- A polynomial of degree `d` divided by the power `d`: a polynomial in the inverse. -/
theorem eval_div_pow {d : Nat} {a : ℝ} {q : ℝ[X]} (hq : Lead d a q) {x : ℝ} (hx : x ≠ 0) :
    (1 / x) ^ d * q.eval x = ∑ j ∈ range (d + 1), (1 / x) ^ j * q.coeff (d - j) := by
  rw [eval_eq_sum_range' (Nat.lt_succ_of_le hq.1), ← sum_range_reflect, mul_sum]
  refine sum_congr rfl (fun j hj => ?_)
  rw [mem_range] at hj
  have e : d + 1 - 1 - j = d - j := by omega
  rw [e]
  have e2 : d = j + (d - j) := by omega
  have e3 : (1 / x) ^ (d - j) * x ^ (d - j) = 1 := by
    rw [← mul_pow, one_div_mul_cancel hx, one_pow]
  calc (1 / x) ^ d * (q.coeff (d - j) * x ^ (d - j))
      = (1 / x) ^ j * (1 / x) ^ (d - j) * (q.coeff (d - j) * x ^ (d - j)) := by
        rw [← pow_add, ← e2]
    _ = (1 / x) ^ j * q.coeff (d - j) * ((1 / x) ^ (d - j) * x ^ (d - j)) := by ring
    _ = _ := by rw [e3, mul_one]

/-- Elementary weights of `n` steps of a consistent method with step `1/n`. -/
theorem weight_iter (s : Nat) (a : Nat → Nat → ℝ) (b : Nat → ℝ) (hb : ∑ l ∈ range s, b l = 1)
    (t : Tree) : ∃ c : Nat → ℝ, c 0 = Tree.exact t ∧ ∀ n : Nat, 0 < n →
      Tree.weight (fun i j => (1 / n : ℝ) * iterA s a b i j) (fun j => (1 / n : ℝ) * b (j % s)) (n * s) t
        = ∑ j ∈ range t.size, (1 / n : ℝ) ^ j * c j := by
  obtain ⟨P, h1, h2⟩ := eta_iter s a b hb t
  have hts := Tree.size_pos t
  have hsum := Lead.sum s b (Tree.exactG t) P h1
  rw [hb, one_mul] at hsum
  obtain ⟨Q, hQ1, hQ0, hQ2⟩ := summation _ _ _ hsum
  have hcc : ((t.size - 1 : Nat) : ℝ) + 1 = t.size := by
    have : t.size - 1 + 1 = t.size := by omega
    exact_mod_cast congrArg (Nat.cast (R := ℝ)) this
  rw [hcc, Nat.sub_add_cancel hts] at hQ1
  refine ⟨fun j => Q.coeff (t.size - j), by simp only [Nat.sub_zero, hQ1.2]; rfl, fun n hn => ?_⟩
  have hn' : (n : ℝ) ≠ 0 := by exact_mod_cast (by omega : n ≠ 0)
  have h3 := eval_div_pow hQ1 hn'
  rw [sum_range_succ, Nat.sub_self, coeff_zero_eq_eval_zero, hQ0, mul_zero, add_zero] at h3
  rw [← h3, Tree.weight]
  have h4 := sum_blocks s n 0 (fun j => (1 / n : ℝ) * b (j % s) *
    Tree.eta (fun i j => (1 / n : ℝ) * iterA s a b i j) t j)
  rw [Nat.add_zero, range_zero, sum_empty, add_zero] at h4
  rw [h4, ← hQ2, mul_sum]
  refine sum_congr rfl (fun i _ => ?_)
  rw [eval_finsetSum, mul_sum]
  refine sum_congr rfl (fun l hl => ?_)
  rw [mem_range] at hl
  rw [Tree.eta_scale, h2 i l hl, block_mod hl, eval_mul, eval_C]
  obtain ⟨k, hk⟩ : ∃ k, t.size = k + 1 := ⟨t.size - 1, by omega⟩
  rw [hk, Nat.add_sub_cancel, pow_succ]
  ring

end Verif.Extrap
