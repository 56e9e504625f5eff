import Verif.Round.TimeProps
import Mathlib.Tactic.FieldSimp

/-! # The order of the values of `real_type` -/

namespace Verif.Round

section
variable {K : Type} [Field K] [LinearOrder K]

/-- `r` rounds to values in such a way that the order is kept; values are not changed; the largest value below 1 is at least
`u` away from it. -/
structure Grid (r : K → K) (u : K) : Prop extends Rounds r u where
  mono : Monotone r
  idem : ∀ x, r (r x) = r x
  one : r 1 = 1
  gap : ∀ x, r x = x → x < 1 → x ≤ 1 - u

variable [IsStrictOrderedRing K] {r : K → K} {u : K}

theorem Grid.zero (h : Grid r u) : r 0 = 0 := by
  have := h.le 0
  rw [sub_zero, abs_zero, mul_zero] at this
  exact abs_eq_zero.1 (le_antisymm this (abs_nonneg _))

/-- A product with a factor below 1 is smaller, in spite of the rounding. -/
theorem Grid.shrink (h : Grid r u) {a θ : K} (ha : 0 < a) (h1 : r a = a) (h2 : r θ = θ) (h0 : 0 ≤ θ) (hlt : θ < 1) :
    r (a * θ) < a := by
  have h3 : r (a * θ) ≤ a := by
    have := h.mono (show a * θ ≤ a by nlinarith)
    rwa [h1] at this
  refine lt_of_le_of_ne h3 fun h4 => ?_
  have h5 := h.le (a * θ)
  have h6 := h.gap θ h2 hlt
  rw [h4, abs_of_nonneg (show 0 ≤ a - a * θ by nlinarith), abs_of_nonneg (show 0 ≤ a * θ by positivity)] at h5
  have h7 : a * θ ≤ a * (1 - u) := mul_le_mul_of_nonneg_left h6 ha.le
  have hu := h.nonneg
  rcases hu.eq_or_lt with hu | hu
  · subst hu
    nlinarith
  · nlinarith [mul_pos (mul_pos hu ha) (sub_pos.2 hlt)]

/-- A part of the way from `a` to `b` does not lead beyond `b`. -/
theorem Grid.between (h : Grid r u) {a b θ : K} (ha : r a = a) (hb : r b = b) (hab : a ≤ b) (h2 : r θ = θ) (h0 : 0 ≤ θ) (hlt : θ < 1) :
    a ≤ r (a + r (r (b - a) * θ)) ∧ r (a + r (r (b - a) * θ)) ≤ b ∧
      a ≤ a + r (r (b - a) * θ) ∧ a + r (r (b - a) * θ) ≤ b := by
  have hd : 0 ≤ r (b - a) := by
    have := h.mono (sub_nonneg.2 hab)
    rwa [h.zero] at this
  have hy : 0 ≤ r (r (b - a) * θ) := by
    have := h.mono (mul_nonneg hd h0)
    rwa [h.zero] at this
  have hle : r (r (b - a) * θ) ≤ b - a := by
    rcases hd.eq_or_lt with hd | hd
    · rw [← hd, zero_mul, h.zero]
      linarith
    · have h3 := h.shrink hd (h.idem _) h2 h0 hlt
      by_contra hc
      have h4 := h.mono (not_le.1 hc).le
      rw [h.idem] at h4
      linarith
  refine ⟨?_, ?_, by linarith, by linarith⟩
  · have := h.mono (show a ≤ a + r (r (b - a) * θ) by linarith)
    rwa [ha] at this
  · have := h.mono (show a + r (r (b - a) * θ) ≤ b by linarith)
    rwa [hb] at this

end

section
variable {K : Type} [Field K] [LinearOrder K] [IsStrictOrderedRing K] [FloorRing K]

theorem nearest_int (n : Int) : nearest (n : K) = n := by
  unfold nearest
  rw [Int.floor_intCast, sub_self, if_pos (by norm_num)]

theorem nearest_mono {z w : K} (h : z ≤ w) : nearest z ≤ nearest w := by
  have h1 := Int.floor_le_floor h
  have lo : ∀ x : K, ⌊x⌋ ≤ nearest x ∧ nearest x ≤ ⌊x⌋ + 1 := by
    intro x
    unfold nearest
    split_ifs <;> omega
  rcases h1.eq_or_lt with h1 | h1
  · unfold nearest
    rw [← h1]
    split_ifs <;> first | omega | linarith
  · have := lo z
    have := lo w
    omega

theorem nearest_neg (z : K) : nearest (-z) = -nearest z := by
  by_cases hz : z = ⌊z⌋
  · rw [hz, ← Int.cast_neg, nearest_int, nearest_int]
  · have h1 := Int.floor_le z
    have h2 := Int.lt_floor_add_one z
    have h3 : (⌊z⌋ : K) < z := lt_of_le_of_ne h1 (Ne.symm hz)
    have h4 : ⌊-z⌋ = -⌊z⌋ - 1 := by
      rw [Int.floor_eq_iff]
      push_cast
      constructor <;> linarith
    unfold nearest
    rw [h4]
    push_cast
    split_ifs <;> first | omega | (exfalso; linarith)

theorem binary_neg (p : Nat) (x : K) : binary p (-x) = -binary p x := by
  unfold binary
  rw [abs_neg, neg_div, nearest_neg]
  push_cast
  ring

theorem binary_zero (p : Nat) : binary p (0 : K) = 0 := by
  simp [binary, nearest]

theorem two_zpow_pos (k : Int) : (0 : K) < 2 ^ k := zpow_pos (by norm_num) k

/-- The exponent of a positive number -/
theorem log_spec {x : K} (hx : 0 < x) : (2 : K) ^ Int.log 2 x ≤ x ∧ x < 2 ^ (Int.log 2 x + 1) := by
  have h1 := Int.zpow_log_le_self (b := 2) (R := K) (by norm_num) hx
  have h2 := Int.lt_zpow_succ_log_self (b := 2) (R := K) (by norm_num) x
  exact ⟨by exact_mod_cast h1, by exact_mod_cast h2⟩

theorem log_unique {x : K} {k : Int} (h1 : (2 : K) ^ k ≤ x) (h2 : x < 2 ^ (k + 1)) : Int.log 2 x = k := by
  have hx : 0 < x := lt_of_lt_of_le (two_zpow_pos k) h1
  have a := (Int.zpow_le_iff_le_log (b := 2) (R := K) (by norm_num) hx (x := k)).1 (by exact_mod_cast h1)
  have b := (Int.lt_zpow_iff_log_lt (b := 2) (R := K) (by norm_num) hx (x := k + 1)).1 (by exact_mod_cast h2)
  omega

theorem zpow_split (p : Nat) (k : Int) : (2 : K) ^ (k + 1) = ((2 ^ p : Nat) : Int) * (2 : K) ^ (k + 1 - p) := by
  have h2 : (2 : K) ≠ 0 := by norm_num
  rw [zpow_sub₀ h2, zpow_natCast]
  push_cast
  field_simp

theorem zpow_split' {p : Nat} (hp : 1 ≤ p) (k : Int) : (2 : K) ^ k = ((2 ^ (p - 1) : Nat) : Int) * (2 : K) ^ (k + 1 - p) := by
  have h2 : (2 : K) ≠ 0 := by norm_num
  have e : k + 1 - (p : Int) = k - ((p - 1 : Nat) : Int) := by omega
  rw [e, zpow_sub₀ h2, zpow_natCast]
  push_cast
  field_simp

/-- Rounding of a positive number with the exponent `k` -/
theorem binary_pos {p : Nat} (hp : 1 ≤ p) {x : K} {k : Int} (h1 : (2 : K) ^ k ≤ x) (h2 : x < 2 ^ (k + 1)) :
    binary p x = (nearest (x / (2 : K) ^ (k + 1 - p)) : K) * (2 : K) ^ (k + 1 - p) ∧
      ((2 ^ (p - 1) : Nat) : Int) ≤ nearest (x / (2 : K) ^ (k + 1 - p)) ∧
      nearest (x / (2 : K) ^ (k + 1 - p)) ≤ ((2 ^ p : Nat) : Int) := by
  have hx : 0 < x := lt_of_lt_of_le (two_zpow_pos k) h1
  have hq : (0 : K) < 2 ^ (k + 1 - (p : Int)) := two_zpow_pos _
  refine ⟨?_, ?_, ?_⟩
  · unfold binary
    rw [abs_of_pos hx, log_unique h1 h2]
  · have h3 : (((2 ^ (p - 1) : Nat) : Int) : K) ≤ x / (2 : K) ^ (k + 1 - p) := by
      rw [le_div_iff₀ hq, ← zpow_split' hp]
      exact h1
    have := nearest_mono h3
    rwa [nearest_int] at this
  · have h3 : x / (2 : K) ^ (k + 1 - p) ≤ (((2 ^ p : Nat) : Int) : K) := by
      rw [div_le_iff₀ hq, ← zpow_split p]
      exact h2.le
    have := nearest_mono h3
    rwa [nearest_int] at this

theorem binary_range {p : Nat} (hp : 1 ≤ p) {x : K} {k : Int} (h1 : (2 : K) ^ k ≤ x) (h2 : x < 2 ^ (k + 1)) :
    (2 : K) ^ k ≤ binary p x ∧ binary p x ≤ 2 ^ (k + 1) := by
  obtain ⟨e, a, b⟩ := binary_pos hp h1 h2
  have hq : (0 : K) < 2 ^ (k + 1 - (p : Int)) := two_zpow_pos _
  rw [e, zpow_split' hp k, zpow_split p k]
  exact ⟨mul_le_mul_of_nonneg_right (by exact_mod_cast a) hq.le, mul_le_mul_of_nonneg_right (by exact_mod_cast b) hq.le⟩

/-- Numbers with `p` digits are not changed. -/
theorem binary_fix {p : Nat} (hp : 1 ≤ p) (m : Int) (k : Int) (h1 : ((2 ^ (p - 1) : Nat) : Int) ≤ m) (h2 : m < ((2 ^ p : Nat) : Int)) :
    binary p ((m : K) * (2 : K) ^ (k + 1 - p)) = m * (2 : K) ^ (k + 1 - p) := by
  have hq : (0 : K) < 2 ^ (k + 1 - (p : Int)) := two_zpow_pos _
  obtain ⟨e, -, -⟩ := binary_pos (K := K) hp (x := (m : K) * (2 : K) ^ (k + 1 - p)) (k := k)
    (by rw [zpow_split' hp k]; exact mul_le_mul_of_nonneg_right (by exact_mod_cast h1) hq.le)
    (by rw [zpow_split p k]; exact mul_lt_mul_of_pos_right (by exact_mod_cast h2) hq)
  rw [e, mul_div_cancel_right₀ _ hq.ne', nearest_int]

theorem binary_two {p : Nat} (hp : 1 ≤ p) (k : Int) : binary p ((2 : K) ^ k) = 2 ^ k := by
  have h := binary_fix (K := K) hp ((2 ^ (p - 1) : Nat) : Int) k le_rfl (by
    have : 2 ^ (p - 1) < 2 ^ p := Nat.pow_lt_pow_right (by norm_num) (by omega)
    exact_mod_cast this)
  rwa [← zpow_split' hp k] at h

theorem binary_mono_pos {p : Nat} (hp : 1 ≤ p) {x y : K} (hx : 0 < x) (h : x ≤ y) : binary p x ≤ binary p y := by
  have hy : 0 < y := lt_of_lt_of_le hx h
  obtain ⟨a1, a2⟩ := log_spec hx
  obtain ⟨b1, b2⟩ := log_spec hy
  have hl : Int.log 2 x ≤ Int.log 2 y := Int.log_mono_right hx h
  rcases hl.eq_or_lt with hl | hl
  · rw [← hl] at b1 b2
    rw [(binary_pos hp a1 a2).1, (binary_pos hp b1 b2).1]
    have hq : (0 : K) < 2 ^ (Int.log 2 x + 1 - (p : Int)) := two_zpow_pos _
    refine mul_le_mul_of_nonneg_right ?_ hq.le
    exact_mod_cast nearest_mono (div_le_div_of_nonneg_right h hq.le)
  · calc binary p x ≤ 2 ^ (Int.log 2 x + 1) := (binary_range hp a1 a2).2
      _ ≤ 2 ^ Int.log 2 y := zpow_le_zpow_right₀ (by norm_num) (by omega)
      _ ≤ binary p y := (binary_range hp b1 b2).1

theorem binary_nonneg {p : Nat} (hp : 1 ≤ p) {x : K} (hx : 0 ≤ x) : 0 ≤ binary p x := by
  rcases hx.eq_or_lt with hx | hx
  · rw [← hx, binary_zero]
  · obtain ⟨a1, a2⟩ := log_spec hx
    exact (two_zpow_pos _).le.trans (binary_range hp a1 a2).1

theorem binary_mono {p : Nat} (hp : 1 ≤ p) : Monotone (binary p : K → K) := by
  intro x y h
  rcases lt_or_ge 0 x with hx | hx
  · exact binary_mono_pos hp hx h
  · have hx' : binary p x ≤ 0 := by
      have := binary_nonneg (K := K) hp (neg_nonneg.2 hx)
      rw [binary_neg] at this
      linarith
    rcases le_or_gt 0 y with hy | hy
    · exact hx'.trans (binary_nonneg hp hy)
    · have := binary_mono_pos hp (neg_pos.2 hy) (neg_le_neg h)
      rw [binary_neg, binary_neg] at this
      linarith

theorem binary_idem {p : Nat} (hp : 1 ≤ p) (x : K) : binary p (binary p x) = binary p x := by
  have pos : ∀ x : K, 0 < x → binary p (binary p x) = binary p x := by
    intro x hx
    obtain ⟨a1, a2⟩ := log_spec hx
    obtain ⟨e, b1, b2⟩ := binary_pos hp a1 a2
    rcases b2.eq_or_lt with b2 | b2
    · rw [b2, ← zpow_split] at e
      rw [e, binary_two hp]
    · rw [e, binary_fix hp _ _ b1 b2]
  rcases lt_trichotomy x 0 with hx | hx | hx
  · have := pos (-x) (neg_pos.2 hx)
    rw [binary_neg, binary_neg] at this
    linarith
  · rw [hx, binary_zero, binary_zero]
  · exact pos x hx

/-- Rounding to `p` binary digits -/
theorem binary_grid {p : Nat} (hp : 1 ≤ p) : Grid (binary p : K → K) (1 / 2 ^ p) where
  toRounds := binary_rounds p
  mono := binary_mono hp
  idem := binary_idem hp
  one := by
    have := binary_two (K := K) hp 0
    rwa [zpow_zero] at this
  gap := by
    intro x h1 h2
    have h3 : (1 : K) / 2 ^ p ≤ 1 / 2 := by
      have : (2 : K) ^ 1 ≤ 2 ^ p := pow_le_pow_right₀ (by norm_num) hp
      rw [pow_one] at this
      exact one_div_le_one_div_of_le (by norm_num) this
    rcases le_or_gt x (1 / 2) with hx | hx
    · linarith
    · obtain ⟨e, b1, b2⟩ := binary_pos (K := K) hp (x := x) (k := -1) (by norm_num; linarith) (by norm_num; exact h2)
      have eq : (2 : K) ^ ((-1 : Int) + 1 - (p : Int)) = 1 / 2 ^ p := by
        rw [show (-1 : Int) + 1 - (p : Int) = -(p : Int) by ring, zpow_neg, zpow_natCast, one_div]
      rw [eq] at e b1 b2
      rw [h1] at e
      have hP : (0 : K) < 2 ^ p := by positivity
      generalize nearest (x / (1 / 2 ^ p)) = m at *
      have h4 : (m : K) < 2 ^ p := by
        rw [e, mul_one_div, div_lt_one hP] at h2
        exact h2
      have h5 : m + 1 ≤ ((2 ^ p : Nat) : Int) := by
        have : (m : K) < (((2 ^ p : Nat) : Int) : K) := by push_cast; exact h4
        have := Int.cast_lt.1 this
        omega
      have h6 : (m : K) + 1 ≤ 2 ^ p := by
        have : ((m + 1 : Int) : K) ≤ (((2 ^ p : Nat) : Int) : K) := Int.cast_le.2 h5
        push_cast at this
        exact this
      rw [e, mul_one_div, le_sub_iff_add_le, ← add_div, div_le_one hP]
      exact h6

end

end Verif.Round
