import Verif.Round.Model
import Verif.LU.Ops
import Mathlib.Data.Nat.Count
import Mathlib.Tactic.Linarith
import Mathlib.Tactic.Ring
import Mathlib.Tactic.Positivity
import Mathlib.Algebra.Order.BigOperators.Ring.Finset

/-! # Rounding errors of `factorize` and `solve` (helper lemmas) -/

set_option linter.unusedSectionVars false

namespace Verif.Round

open Verif.Res Verif.LU Finset

variable {K : Type} [Field K] [LinearOrder K] [IsStrictOrderedRing K] {r : K → K} {u : K}

@[simp] theorem Rd.val_sub (a b : Rd r) : (a - b).val = r (a.val - b.val) := rfl
@[simp] theorem Rd.val_div (a b : Rd r) : (a / b).val = r (a.val / b.val) := rfl
theorem Rd.val_ne_zero {a : Rd r} (h : a ≠ 0) : a.val ≠ 0 := fun e => h (Rd.ext' e)

/-- The error of one rounding relative to the rounded value: `u / (1 - u)` -/
def back (u : K) : K := u / (1 - u)

theorem back_nonneg (hr : Rounds r u) (hu : u < 1) : 0 ≤ back u := div_nonneg hr.nonneg (by linarith)

theorem le_back (hr : Rounds r u) (hu : u < 1) : u ≤ back u := by
  unfold back
  rw [le_div_iff₀ (by linarith)]
  nlinarith [hr.nonneg]

theorem round_back (hr : Rounds r u) (hu : u < 1) (z : K) : |z - r z| ≤ back u * |r z| := by
  have h1 := hr.le z
  rw [abs_sub_comm] at h1
  have h2 : |z| ≤ |z - r z| + |r z| := by
    have := abs_add_le (z - r z) (r z)
    rwa [sub_add_cancel] at this
  have h3 : (1 - u) * |z - r z| ≤ u * |r z| := by
    have := mul_le_mul_of_nonneg_left h2 hr.nonneg
    linarith
  unfold back
  rw [div_mul_eq_mul_div, le_div_iff₀ (by linarith)]
  linarith

/-- The bound for `m` roundings one after the other, `(1 + u/(1-u))^m - 1` -/
def gam (u : K) (m : Nat) : K := (1 + back u) ^ m - 1

theorem gam_mono (hr : Rounds r u) (hu : u < 1) {m n : Nat} (h : m ≤ n) : gam u m ≤ gam u n := by
  have := back_nonneg hr hu
  unfold gam
  have := pow_le_pow_right₀ (show 1 ≤ 1 + back u by linarith) h
  linarith

theorem gam_nonneg (hr : Rounds r u) (hu : u < 1) (m : Nat) : 0 ≤ gam u m := by
  have := gam_mono hr hu (Nat.zero_le m)
  simpa [gam] using this

theorem gam_succ (m : Nat) : gam u (m + 1) = gam u m * (1 + back u) + back u := by
  unfold gam
  rw [pow_succ]
  ring

/-- Error of a sum that is accumulated by subtraction, each term being rounded once before. -/
theorem chain_err (hr : Rounds r u) (hu : u < 1) {on : Nat → Prop} [DecidablePred on] (f : Nat → Rd r) (g : Nat → K) (a : Rd r)
    (hf : ∀ k, on k → |(f k).val - g k| ≤ u * |g k|) (j : Nat) :
    |a.val - ∑ k ∈ range j, (if on k then g k else 0) - (chain on f a j).val| ≤
      gam u (Nat.count on j) * (∑ k ∈ range j, (if on k then |g k| else 0) + |(chain on f a j).val|) := by
  have hb := back_nonneg hr hu
  have hub := le_back hr hu
  induction j with
  | zero => simp [chain, gam]
  | succ j ih =>
    rw [sum_range_succ, sum_range_succ, chain, Nat.count_succ]
    by_cases hon : on j
    · rw [if_pos hon, if_pos hon, if_pos hon, if_pos hon]
      set s := (chain on f a j).val with hs
      set G := ∑ k ∈ range j, (if on k then g k else 0)
      set S := ∑ k ∈ range j, (if on k then |g k| else 0)
      have hS : 0 ≤ S := sum_nonneg fun k _ => by split <;> positivity
      have e1 : (chain on f a j - f j).val = r (s - (f j).val) := rfl
      rw [e1]
      set z := s - (f j).val with hz
      have h1 := round_back hr hu z
      have h2 := hf j hon
      have h3 : |(f j).val| ≤ (1 + back u) * |g j| := by
        have := abs_add_le ((f j).val - g j) (g j)
        rw [sub_add_cancel] at this
        have := mul_le_mul_of_nonneg_right hub (abs_nonneg (g j))
        linarith
      have h4 : |z| ≤ (1 + back u) * |r z| := by
        have := abs_add_le (z - r z) (r z)
        rw [sub_add_cancel] at this
        linarith
      have h5 : |s| ≤ (1 + back u) * |r z| + (1 + back u) * |g j| := by
        have e : s = z + (f j).val := by rw [hz]; ring
        have := abs_add_le z (f j).val
        rw [← e] at this
        linarith
      have e2 : a.val - (G + g j) - r z = (a.val - G - s) + ((f j).val - g j) + (z - r z) := by rw [hz]; ring
      have h6 : |a.val - (G + g j) - r z| ≤ |a.val - G - s| + |(f j).val - g j| + |z - r z| := by
        rw [e2]
        exact (abs_add_le _ _).trans (add_le_add (abs_add_le _ _) le_rfl)
      have hg := gam_nonneg hr hu (Nat.count on j)
      have h7 : gam u (Nat.count on j) * (S + |s|) ≤
          gam u (Nat.count on j) * (1 + back u) * (S + |g j| + |r z|) := by
        rw [mul_assoc]
        refine mul_le_mul_of_nonneg_left ?_ hg
        have := mul_nonneg hb hS
        linarith
      have h8 : |(f j).val - g j| ≤ back u * |g j| := h2.trans (mul_le_mul_of_nonneg_right hub (abs_nonneg _))
      have h9 := mul_nonneg hb hS
      rw [gam_succ]
      have e3 : (gam u (Nat.count on j) * (1 + back u) + back u) * (S + |g j| + |r z|) =
          gam u (Nat.count on j) * (1 + back u) * (S + |g j| + |r z|) + (back u * S + back u * |g j| + back u * |r z|) := by ring
      rw [e3]
      linarith
    · rw [if_neg hon, if_neg hon, if_neg hon, if_neg hon, add_zero, add_zero, add_zero]
      exact ih

/-- Error of a quotient whose numerator has an error -/
theorem div_err (hr : Rounds r u) (hu : u < 1) {a G S s d : K} {m : Nat} (hd : d ≠ 0) (hS : 0 ≤ S)
    (h : |a - G - s| ≤ gam u m * (S + |s|)) :
    |a - G - r (s / d) * d| ≤ gam u (m + 1) * (S + |r (s / d) * d|) := by
  have hb := back_nonneg hr hu
  set q := r (s / d)
  have h1 : |s - q * d| ≤ back u * |q * d| := by
    have h0 := round_back hr hu (s / d)
    have e : s - q * d = (s / d - q) * d := by rw [sub_mul, div_mul_cancel₀ _ hd]
    rw [e, abs_mul, abs_mul, ← mul_assoc]
    exact mul_le_mul_of_nonneg_right h0 (abs_nonneg _)
  have h2 : |s| ≤ (1 + back u) * |q * d| := by
    have := abs_add_le (s - q * d) (q * d)
    rw [sub_add_cancel] at this
    linarith
  have h3 : |a - G - q * d| ≤ |a - G - s| + |s - q * d| := by
    have := abs_add_le (a - G - s) (s - q * d)
    rwa [sub_add_sub_cancel] at this
  have hg := gam_nonneg hr hu m
  have h4 : gam u m * (S + |s|) ≤ gam u m * (1 + back u) * (S + |q * d|) := by
    rw [mul_assoc]
    refine mul_le_mul_of_nonneg_left ?_ hg
    have := mul_nonneg hb hS
    linarith
  have h5 := mul_nonneg hb hS
  rw [gam_succ]
  have e3 : (gam u m * (1 + back u) + back u) * (S + |q * d|) =
      gam u m * (1 + back u) * (S + |q * d|) + (back u * S + back u * |q * d|) := by ring
  rw [e3]
  linarith

/-! ### The stored factors as matrices -/

/-- Unit lower factor: what is stored below the diagonal -/
def lowM (E : Sten) (M : Nat → Nat → K) (i k : Nat) : K := if k < i ∧ E.p i ≤ k then M i k else if k = i then 1 else 0

/-- Upper factor: what is stored on and above the diagonal -/
def upM (E : Sten) (M : Nat → Nat → K) (k c : Nat) : K := if k ≤ c ∧ E.q c ≤ k then M k c else 0

theorem abs_lowM (E : Sten) (M : Nat → Nat → K) (i k : Nat) : |lowM E M i k| = lowM E (fun a b => |M a b|) i k := by
  unfold lowM
  split
  · rfl
  · split
    · exact abs_one
    · exact abs_zero

theorem abs_upM (E : Sten) (M : Nat → Nat → K) (i k : Nat) : |upM E M i k| = upM E (fun a b => |M a b|) i k := by
  unfold upM
  split
  · rfl
  · exact abs_zero

theorem sum_upto {n m : Nat} (h : m ≤ n) (g : Nat → K) (hg : ∀ k, m ≤ k → k < n → g k = 0) :
    ∑ k ∈ range n, g k = ∑ k ∈ range m, g k := by
  symm
  apply Finset.sum_subset
  · intro k; simp only [mem_range]; omega
  · intro k h1 h2
    simp only [mem_range] at h1 h2
    exact hg k (by omega) h1

variable {E : Sten} {M : Nat → Nat → K}

/-- Row of L times column of U on or above the diagonal -/
theorem prod_upper {i c : Nat} (hic : i ≤ c) (hc : c < E.n) (hq : E.q c ≤ i) :
    ∑ k ∈ range E.n, lowM E M i k * upM E M k c =
      ∑ k ∈ range i, (if E.p i ≤ k ∧ E.q c ≤ k then M i k * M k c else 0) + M i c := by
  rw [sum_upto (m := i + 1) (by omega), sum_range_succ]
  · congr 1
    · refine sum_congr rfl fun k hk => ?_
      have hk := mem_range.1 hk
      unfold lowM upM
      by_cases h1 : E.p i ≤ k <;> by_cases h2 : E.q c ≤ k
      · rw [if_pos ⟨hk, h1⟩, if_pos ⟨by omega, h2⟩, if_pos ⟨h1, h2⟩]
      · rw [if_neg (by omega : ¬ (k ≤ c ∧ E.q c ≤ k)), if_neg (by omega : ¬ (E.p i ≤ k ∧ E.q c ≤ k)), mul_zero]
      · rw [if_neg (by omega : ¬ (k < i ∧ E.p i ≤ k)), if_neg (by omega : ¬ k = i), if_neg (by omega : ¬ (E.p i ≤ k ∧ E.q c ≤ k)), zero_mul]
      · rw [if_neg (by omega : ¬ (k < i ∧ E.p i ≤ k)), if_neg (by omega : ¬ k = i), if_neg (by omega : ¬ (E.p i ≤ k ∧ E.q c ≤ k)), zero_mul]
    · unfold lowM upM
      rw [if_neg (by omega), if_pos rfl, if_pos ⟨hic, hq⟩, one_mul]
  · intro k h1 h2
    unfold lowM
    rw [if_neg (by omega), if_neg (by omega), zero_mul]

/-- Row of L times column of U below the diagonal -/
theorem prod_lower {i c : Nat} (hci : c < i) (hi : i < E.n) (hp : E.p i ≤ c) (hqc : E.q c ≤ c) :
    ∑ k ∈ range E.n, lowM E M i k * upM E M k c =
      ∑ k ∈ range c, (if E.p i ≤ k ∧ E.q c ≤ k then M i k * M k c else 0) + M i c * M c c := by
  rw [sum_upto (m := c + 1) (by omega), sum_range_succ]
  · congr 1
    · refine sum_congr rfl fun k hk => ?_
      have hk := mem_range.1 hk
      unfold lowM upM
      by_cases h1 : E.p i ≤ k <;> by_cases h2 : E.q c ≤ k
      · rw [if_pos ⟨by omega, h1⟩, if_pos ⟨by omega, h2⟩, if_pos ⟨h1, h2⟩]
      · rw [if_neg (by omega : ¬ (k ≤ c ∧ E.q c ≤ k)), if_neg (by omega : ¬ (E.p i ≤ k ∧ E.q c ≤ k)), mul_zero]
      · rw [if_neg (by omega : ¬ (k < i ∧ E.p i ≤ k)), if_neg (by omega : ¬ k = i), if_neg (by omega : ¬ (E.p i ≤ k ∧ E.q c ≤ k)), zero_mul]
      · rw [if_neg (by omega : ¬ (k < i ∧ E.p i ≤ k)), if_neg (by omega : ¬ k = i), if_neg (by omega : ¬ (E.p i ≤ k ∧ E.q c ≤ k)), zero_mul]
    · unfold lowM upM
      rw [if_pos ⟨hci, hp⟩, if_pos ⟨le_rfl, hqc⟩]
  · intro k h1 h2
    unfold upM
    rw [if_neg (by omega), mul_zero]

/-- Outside of the envelope the product is zero. -/
theorem prod_outside {i c : Nat} (hi : i < E.n) (hc : c < E.n) (h : c < i ∧ c < E.p i ∨ i ≤ c ∧ i < E.q c) :
    ∑ k ∈ range E.n, lowM E M i k * upM E M k c = 0 := by
  refine sum_eq_zero fun k hk => ?_
  have := E.p_le i hi
  have := E.q_le c hc
  unfold lowM upM
  by_cases h1 : k < i ∧ E.p i ≤ k
  · rw [if_pos h1, if_neg (by omega), mul_zero]
  · rw [if_neg h1]
    by_cases h2 : k = i
    · rw [if_neg (by omega : ¬ (k ≤ c ∧ E.q c ≤ k)), mul_zero]
    · rw [if_neg h2, zero_mul]

variable {A : Nat → Nat → Rd r}

/-- The values stored by `factorize` -/
def luVal (E : Sten) (A : Nat → Nat → Rd r) (i c : Nat) : K := (luOps E.p E.q A i c).val

theorem mul_term (hr : Rounds r u) (a b : Rd r) : |(a * b).val - a.val * b.val| ≤ u * |a.val * b.val| := hr.le _

/-- The product of the stored factors is the matrix up to rounding. -/
theorem factor_err (hr : Rounds r u) (hu : u < 1)
    (hA : ∀ i c, i < E.n → c < E.n → (c < i ∧ c < E.p i ∨ i ≤ c ∧ i < E.q c) → (A i c).val = 0)
    (hpiv : ∀ i c, i < E.n → c < i → E.p i ≤ c → luOps E.p E.q A c c ≠ 0) {i c : Nat} (hi : i < E.n) (hc : c < E.n) :
    |(A i c).val - ∑ k ∈ range E.n, lowM E (luVal E A) i k * upM E (luVal E A) k c| ≤
      gam u E.n * ∑ k ∈ range E.n, |lowM E (luVal E A) i k| * |upM E (luVal E A) k c| := by
  simp only [abs_lowM, abs_upM]
  have hpi := E.p_le i hi
  have hqc := E.q_le c hc
  have key : ∀ m, |(A i c).val - ∑ k ∈ range m, (if E.p i ≤ k ∧ E.q c ≤ k then luVal E A i k * luVal E A k c else 0)
        - (rowChain E (luOps E.p E.q A) (A i c) i c m).val| ≤
      gam u (Nat.count (fun k => E.p i ≤ k ∧ E.q c ≤ k) m) *
        (∑ k ∈ range m, (if E.p i ≤ k ∧ E.q c ≤ k then |luVal E A i k| * |luVal E A k c| else 0)
          + |(rowChain E (luOps E.p E.q A) (A i c) i c m).val|) := by
    intro m
    have := chain_err hr hu (on := fun k => E.p i ≤ k ∧ E.q c ≤ k) (fun k => luOps E.p E.q A i k * luOps E.p E.q A k c)
      (fun k => luVal E A i k * luVal E A k c) (A i c) (fun k _ => mul_term hr _ _) m
    simp only [abs_mul] at this
    exact this
  by_cases hout : c < i ∧ c < E.p i ∨ i ≤ c ∧ i < E.q c
  · rw [prod_outside hi hc hout, prod_outside hi hc hout, hA i c hi hc hout]
    simp
  · have hnn : ∀ m, 0 ≤ ∑ k ∈ range m, (if E.p i ≤ k ∧ E.q c ≤ k then |luVal E A i k| * |luVal E A k c| else 0) :=
      fun m => sum_nonneg fun k _ => by split <;> positivity
    rcases Nat.lt_or_ge c i with hci | hic
    · rw [prod_lower hci hi (by omega) hqc, prod_lower hci hi (by omega) hqc]
      have hd : luVal E A c c ≠ 0 := Rd.val_ne_zero (hpiv i c hi hci (by omega))
      have := div_err hr hu hd (hnn c) (key c)
      have e : luVal E A i c = r ((rowChain E (luOps E.p E.q A) (A i c) i c c).val / luVal E A c c) := by
        unfold luVal
        conv_lhs => rw [luOps_lower hci]
        rfl
      rw [← e] at this
      rw [← sub_sub, ← abs_mul]
      refine this.trans (mul_le_mul_of_nonneg_right (gam_mono hr hu ?_) (add_nonneg (hnn c) (abs_nonneg _)))
      have := Nat.count_le (p := fun k => E.p i ≤ k ∧ E.q c ≤ k) (n := c)
      omega
    · rw [prod_upper hic hc (by omega), prod_upper hic hc (by omega)]
      have := key i
      have e : luVal E A i c = (rowChain E (luOps E.p E.q A) (A i c) i c i).val := by
        unfold luVal
        conv_lhs => rw [luOps_upper hic]
      rw [← e] at this
      rw [← sub_sub]
      refine this.trans (mul_le_mul_of_nonneg_right (gam_mono hr hu ?_) (add_nonneg (hnn i) (abs_nonneg _)))
      have := Nat.count_le (p := fun k => E.p i ≤ k ∧ E.q c ≤ k) (n := i)
      omega

/-- Forward substitution up to rounding -/
theorem fwd_err (hr : Rounds r u) (hu : u < 1) {M : Nat → Nat → Rd r} {b y : Nat → Rd r} (h : FwdOps E M b y) {i : Nat} (hi : i < E.n) :
    |(b i).val - ∑ k ∈ range E.n, lowM E (fun i k => (M i k).val) i k * (y k).val| ≤
      gam u E.n * ∑ k ∈ range E.n, |lowM E (fun i k => (M i k).val) i k| * |(y k).val| := by
  have sum_eq : ∀ (N : Nat → Nat → K) (z : Nat → K), ∑ k ∈ range E.n, lowM E N i k * z k =
      ∑ k ∈ range i, (if E.p i ≤ k then N i k * z k else 0) + z i := by
    intro N z
    rw [sum_upto (m := i + 1) (by omega), sum_range_succ]
    · congr 1
      · refine sum_congr rfl fun k hk => ?_
        have hk := mem_range.1 hk
        unfold lowM
        by_cases h1 : E.p i ≤ k
        · rw [if_pos ⟨hk, h1⟩, if_pos h1]
        · rw [if_neg (by omega), if_neg (by omega), if_neg h1, zero_mul]
      · unfold lowM
        rw [if_neg (by omega), if_pos rfl, one_mul]
    · intro k h1 h2
      unfold lowM
      rw [if_neg (by omega), if_neg (by omega), zero_mul]
  simp only [abs_lowM]
  rw [sum_eq, sum_eq (fun i k => |(M i k).val|) (fun k => |(y k).val|)]
  have := chain_err hr hu (on := fun k => E.p i ≤ k) (fun k => M i k * y k) (fun k => (M i k).val * (y k).val) (b i)
    (fun k _ => mul_term hr _ _) i
  simp only [abs_mul] at this
  rw [← h i hi] at this
  rw [← sub_sub]
  refine this.trans (mul_le_mul_of_nonneg_right (gam_mono hr hu ?_)
    (add_nonneg (sum_nonneg fun k _ => by split <;> positivity) (abs_nonneg _)))
  have := Nat.count_le (p := fun k => E.p i ≤ k) (n := i)
  omega

/-- Backward substitution up to rounding, when it uses all of U -/
theorem bwd_err (hr : Rounds r u) (hu : u < 1) {M : Nat → Nat → Rd r} {y x : Nat → Rd r} (h : BwdOps E M y x)
    (hfill : ∀ i k, i < k → k < E.n → E.q k ≤ i → k ≤ E.s i) {i : Nat} (hi : i < E.n) :
    |(y i).val - ∑ k ∈ range E.n, upM E (fun i k => (M i k).val) i k * (x k).val| ≤
      gam u E.n * ∑ k ∈ range E.n, |upM E (fun i k => (M i k).val) i k| * |(x k).val| := by
  have hqi := E.q_le i hi
  have sum_eq : ∀ (N : Nat → Nat → K) (z : Nat → K), ∑ k ∈ range E.n, upM E N i k * z k =
      ∑ k ∈ range E.n, (if i < k ∧ k ≤ E.s i ∧ E.q k ≤ i then N i k * z k else 0) + z i * N i i := by
    intro N z
    have e : z i * N i i = ∑ k ∈ range E.n, (if k = i then z i * N i i else 0) := by
      rw [sum_ite_eq' (range E.n) i, if_pos (mem_range.2 hi)]
    rw [e, ← sum_add_distrib]
    refine sum_congr rfl fun k hk => ?_
    have hk := mem_range.1 hk
    unfold upM
    rcases Nat.lt_trichotomy k i with h1 | h1 | h1
    · rw [if_neg (by omega), if_neg (by omega), if_neg (by omega), zero_mul, add_zero]
    · subst h1
      rw [if_pos ⟨le_rfl, hqi⟩, if_neg (by omega), if_pos rfl, zero_add, mul_comm]
    · by_cases h2 : E.q k ≤ i
      · rw [if_pos ⟨h1.le, h2⟩, if_pos ⟨h1, hfill i k h1 hk h2, h2⟩, if_neg (by omega), add_zero]
      · rw [if_neg (by omega), if_neg (by omega), if_neg (by omega), zero_mul, add_zero]
  simp only [abs_upM]
  rw [sum_eq, sum_eq (fun i k => |(M i k).val|) (fun k => |(x k).val|)]
  have h1 := chain_err hr hu (on := fun k => i < k ∧ k ≤ E.s i ∧ E.q k ≤ i) (fun k => M i k * x k)
    (fun k => (M i k).val * (x k).val) (y i) (fun k _ => mul_term hr _ _) E.n
  obtain ⟨hd, hx⟩ := h i hi
  have hnn : 0 ≤ ∑ k ∈ range E.n, (if i < k ∧ k ≤ E.s i ∧ E.q k ≤ i then |(M i k).val * (x k).val| else 0) :=
    sum_nonneg fun k _ => by split <;> positivity
  have h2 := div_err hr hu (Rd.val_ne_zero hd) hnn h1
  have e : (x i).val = r ((chain (fun k => i < k ∧ k ≤ E.s i ∧ E.q k ≤ i) (fun k => M i k * x k) (y i) E.n).val / (M i i).val) := by
    conv_lhs => rw [hx]
    rfl
  rw [← e] at h2
  simp only [abs_mul] at h2 hnn
  rw [← sub_sub]
  refine h2.trans (mul_le_mul_of_nonneg_right (gam_mono hr hu ?_) (add_nonneg hnn (by positivity)))
  have hcount : Nat.count (fun k => i < k ∧ k ≤ E.s i ∧ E.q k ≤ i) E.n ≤ E.n - (i + 1) := by
    have e : E.n = (i + 1) + (E.n - (i + 1)) := by omega
    have h0 : Nat.count (fun k => i < k ∧ k ≤ E.s i ∧ E.q k ≤ i) (i + 1) = 0 := by
      rw [Nat.count_iff_forall_not]
      intro k hk
      omega
    conv_lhs => rw [e]
    rw [Nat.count_add, h0, zero_add]
    exact Nat.count_le _
  omega

/-- Residual of a system that is solved with factors, from the errors of the three parts -/
theorem residual_err {n : Nat} {A L U : Nat → Nat → K} {b y x : Nat → K} {g : K} (hg : 0 ≤ g)
    (hA : ∀ i < n, ∀ c < n, |A i c - ∑ k ∈ range n, L i k * U k c| ≤ g * ∑ k ∈ range n, |L i k| * |U k c|)
    (hy : ∀ i < n, |b i - ∑ k ∈ range n, L i k * y k| ≤ g * ∑ k ∈ range n, |L i k| * |y k|)
    (hx : ∀ i < n, |y i - ∑ k ∈ range n, U i k * x k| ≤ g * ∑ k ∈ range n, |U i k| * |x k|) {i : Nat} (hi : i < n) :
    |b i - ∑ c ∈ range n, A i c * x c| ≤
      (3 * g + g ^ 2) * ∑ k ∈ range n, |L i k| * ∑ c ∈ range n, |U k c| * |x c| := by
  set W := ∑ k ∈ range n, |L i k| * ∑ c ∈ range n, |U k c| * |x c| with hW
  have e : b i - ∑ c ∈ range n, A i c * x c =
      (b i - ∑ k ∈ range n, L i k * y k) + ∑ k ∈ range n, L i k * (y k - ∑ c ∈ range n, U k c * x c)
        - ∑ c ∈ range n, (A i c - ∑ k ∈ range n, L i k * U k c) * x c := by
    have e1 : ∑ k ∈ range n, L i k * (y k - ∑ c ∈ range n, U k c * x c) =
        ∑ k ∈ range n, L i k * y k - ∑ k ∈ range n, ∑ c ∈ range n, L i k * U k c * x c := by
      rw [← sum_sub_distrib]
      refine sum_congr rfl fun k _ => ?_
      rw [mul_sub, mul_sum]
      congr 1
      exact sum_congr rfl fun c _ => by ring
    have e2 : ∑ c ∈ range n, (A i c - ∑ k ∈ range n, L i k * U k c) * x c =
        ∑ c ∈ range n, A i c * x c - ∑ k ∈ range n, ∑ c ∈ range n, L i k * U k c * x c := by
      rw [sum_comm, ← sum_sub_distrib]
      refine sum_congr rfl fun c _ => ?_
      rw [sub_mul, sum_mul]
    rw [e1, e2]
    ring
  have hyk : ∀ k < n, |y k| ≤ (1 + g) * ∑ c ∈ range n, |U k c| * |x c| := by
    intro k hk
    have h1 := hx k hk
    have h2 : |∑ c ∈ range n, U k c * x c| ≤ ∑ c ∈ range n, |U k c| * |x c| := by
      refine (abs_sum_le_sum_abs _ _).trans (le_of_eq (sum_congr rfl fun c _ => abs_mul _ _))
    have h3 := abs_add_le (y k - ∑ c ∈ range n, U k c * x c) (∑ c ∈ range n, U k c * x c)
    rw [sub_add_cancel] at h3
    linarith
  have b1 : |b i - ∑ k ∈ range n, L i k * y k| ≤ g * ((1 + g) * W) := by
    refine (hy i hi).trans (mul_le_mul_of_nonneg_left ?_ hg)
    rw [hW, mul_sum]
    refine sum_le_sum fun k hk => ?_
    have := mul_le_mul_of_nonneg_left (hyk k (mem_range.1 hk)) (abs_nonneg (L i k))
    linarith
  have b2 : |∑ k ∈ range n, L i k * (y k - ∑ c ∈ range n, U k c * x c)| ≤ g * W := by
    refine (abs_sum_le_sum_abs _ _).trans ?_
    rw [hW, mul_sum]
    refine sum_le_sum fun k hk => ?_
    rw [abs_mul]
    have := mul_le_mul_of_nonneg_left (hx k (mem_range.1 hk)) (abs_nonneg (L i k))
    linarith
  have b3 : |∑ c ∈ range n, (A i c - ∑ k ∈ range n, L i k * U k c) * x c| ≤ g * W := by
    refine (abs_sum_le_sum_abs _ _).trans ?_
    have e3 : g * W = ∑ c ∈ range n, (g * ∑ k ∈ range n, |L i k| * |U k c|) * |x c| := by
      have : W = ∑ c ∈ range n, (∑ k ∈ range n, |L i k| * |U k c|) * |x c| := by
        rw [hW]
        have e4 : ∀ c, (∑ k ∈ range n, |L i k| * |U k c|) * |x c| = ∑ k ∈ range n, |L i k| * |U k c| * |x c| := fun c => sum_mul _ _ _
        simp only [e4]
        rw [sum_comm]
        refine sum_congr rfl fun k _ => ?_
        rw [mul_sum]
        exact sum_congr rfl fun c _ => by ring
      rw [this, mul_sum]
      exact sum_congr rfl fun c _ => by ring
    rw [e3]
    refine sum_le_sum fun c hc => ?_
    rw [abs_mul]
    exact mul_le_mul_of_nonneg_right (hA i hi c (mem_range.1 hc)) (abs_nonneg _)
  rw [e]
  have t1 := abs_sub (b i - ∑ k ∈ range n, L i k * y k + ∑ k ∈ range n, L i k * (y k - ∑ c ∈ range n, U k c * x c))
    (∑ c ∈ range n, (A i c - ∑ k ∈ range n, L i k * U k c) * x c)
  have t2 := abs_add_le (b i - ∑ k ∈ range n, L i k * y k) (∑ k ∈ range n, L i k * (y k - ∑ c ∈ range n, U k c * x c))
  have e5 : (3 * g + g ^ 2) * W = g * ((1 + g) * W) + g * W + g * W := by ring
  rw [e5]
  linarith

end Verif.Round
