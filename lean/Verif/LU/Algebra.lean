import Verif.LU.Solve
import Mathlib.LinearAlgebra.Matrix.Determinant.Basic
import Mathlib.LinearAlgebra.Matrix.Block
import Mathlib.Data.Matrix.Mul

/-! # Algebra of the factors (helper lemmas) -/

namespace Verif.LU

open Finset

variable {K : Type _} [Field K]

/-- leading principal submatrix -/
def lead (A : Nat → Nat → K) (k : Nat) : Matrix (Fin k) (Fin k) K := fun i j => A i j

theorem sum_cut {n m : Nat} (h : m ≤ n) (g : Nat → K) (hg : ∀ k, m ≤ k → k < n → g k = 0) :
    ∑ k ∈ range n, g k = ∑ k ∈ range m, g k := by
  symm
  apply Finset.sum_subset
  · intro k; simp only [mem_range]; omega
  · intro k h1 h2
    simp only [mem_range] at h1 h2
    exact hg k (by omega) h1

theorem lower_sum {n r : Nat} (hr : r < n) (M : Nat → Nat → K) (g : Nat → K) :
    ∑ k ∈ range n, lowerOf M r k * g k = ∑ k ∈ range r, M r k * g k + g r := by
  rw [sum_cut (show r + 1 ≤ n from hr)]
  · rw [sum_range_succ]
    congr 1
    · apply Finset.sum_congr rfl
      intro k hk
      unfold lowerOf; rw [if_pos (mem_range.1 hk)]
    · unfold lowerOf; simp
  · intro k h1 h2
    unfold lowerOf; rw [if_neg (by omega), if_neg (by omega), zero_mul]

/-- L U = A if the pivots used as divisors are nonzero. -/
theorem lu_prod (A : Nat → Nat → K) {n r c : Nat} (hr : r < n)
    (hp : c < r → lu A c c ≠ 0) :
    ∑ k ∈ range n, lowerOf (lu A) r k * upperOf (lu A) k c = A r c := by
  rw [lower_sum hr]
  rcases Nat.lt_or_ge c r with h | h
  · rw [sum_cut (show c + 1 ≤ r from h), sum_range_succ]
    · have e1 : ∑ k ∈ range c, lu A r k * upperOf (lu A) k c
          = ∑ k ∈ range c, lu A r k * lu A k c := by
        apply Finset.sum_congr rfl
        intro k hk
        have := mem_range.1 hk
        unfold upperOf; rw [if_pos (by omega)]
      have e2 : upperOf (lu A) c c = lu A c c := by unfold upperOf; simp
      have e3 : upperOf (lu A) r c = 0 := by unfold upperOf; rw [if_neg (by omega)]
      rw [e1, e2, e3, lu_lower A h, div_mul_cancel₀ _ (hp h)]
      ring
    · intro k h1 h2
      unfold upperOf; rw [if_neg (by omega), mul_zero]
  · have e1 : ∑ k ∈ range r, lu A r k * upperOf (lu A) k c
          = ∑ k ∈ range r, lu A r k * lu A k c := by
        apply Finset.sum_congr rfl
        intro k hk
        have := mem_range.1 hk
        unfold upperOf; rw [if_pos (by omega)]
    have e2 : upperOf (lu A) r c = lu A r c := by unfold upperOf; rw [if_pos h]
    rw [e1, e2, lu_upper A h]
    ring

theorem fwd_solves (M : Nat → Nat → K) (b : Nat → K) {n i : Nat} (hi : i < n) :
    ∑ k ∈ range n, lowerOf M i k * fwd M b k = b i := by
  rw [lower_sum hi, fwd_eq M b i]; ring

theorem bwd_solves (T : Nat → Nat → K) (y : Nat → K) {n i : Nat} (hi : i < n) (hp : T i i ≠ 0) :
    ∑ k ∈ Ico i n, T i k * bwdAt T y n k = y i := by
  rw [Finset.sum_eq_sum_Ico_succ_bot hi, bwdAt_eq T y hi]
  field_simp
  ring

/-- The upper factor that `solve` uses. -/
def truncU (E : Sten) (M : Nat → Nat → K) (i k : Nat) : K := if i ≤ k then trunc E M i k else 0

theorem truncU_sum (E : Sten) (M : Nat → Nat → K) (g : Nat → K) (i n : Nat) :
    ∑ k ∈ range n, truncU E M i k * g k = ∑ k ∈ Ico i n, trunc E M i k * g k := by
  symm
  rw [show ∑ k ∈ Ico i n, trunc E M i k * g k = ∑ k ∈ Ico i n, truncU E M i k * g k from ?_]
  · apply Finset.sum_subset
    · intro k; simp only [mem_Ico, mem_range]; omega
    · intro k h1 h2
      simp only [mem_Ico, mem_range] at h1 h2
      unfold truncU; rw [if_neg (by omega), zero_mul]
  · apply Finset.sum_congr rfl
    intro k hk
    simp only [mem_Ico] at hk
    unfold truncU; rw [if_pos hk.1]

theorem det_lead (A : Nat → Nat → K) (k : Nat) (hp : ∀ i, i + 1 < k → lu A i i ≠ 0) :
    (lead A k).det = ∏ i ∈ range k, lu A i i := by
  have e : lead A k
      = (Matrix.of fun i j : Fin k => lowerOf (lu A) i j)
        * (Matrix.of fun i j : Fin k => upperOf (lu A) i j) := by
    ext i j
    rw [Matrix.mul_apply]
    have := lu_prod A (n := k) (r := i) (c := j) i.2 (fun h => hp _ (by omega))
    rw [Finset.sum_range] at this
    exact this.symm
  rw [e, Matrix.det_mul]
  rw [Matrix.det_of_isLowerTriangular, Matrix.det_of_isUpperTriangular]
  · simp [lowerOf, upperOf, Finset.prod_range]
  · intro i j hij
    have : (j : Nat) < i := hij
    simp only [Matrix.of_apply, upperOf]
    rw [if_neg (by omega)]
  · intro i j hij
    have : (i : Nat) < j := hij
    simp only [Matrix.of_apply, lowerOf]
    rw [if_neg (by omega), if_neg (by omega)]

/-- All leading principal minors are nonzero iff all pivots are. -/
theorem minors_iff (A : Nat → Nat → K) (n : Nat) :
    (∀ k, k ≤ n → (lead A k).det ≠ 0) ↔ ∀ i, i < n → lu A i i ≠ 0 := by
  constructor
  · intro h i
    induction i using Nat.strong_induction_on with
    | _ i ih =>
      intro hi h0
      have := h (i + 1) (by omega)
      rw [det_lead A (i + 1) (fun j hj => ih j (by omega) (by omega)), prod_range_succ, h0] at this
      simp at this
  · intro h k hk
    rw [det_lead A k (fun j hj => h j (by omega))]
    exact Finset.prod_ne_zero_iff.2 (fun i hi => h i (by have := mem_range.1 hi; omega))

end Verif.LU
