import Verif.Util.Model
import Mathlib.Algebra.Order.Group.Unbundled.Abs
import Mathlib.Algebra.BigOperators.Group.List.Basic
import Mathlib.Tactic.Linarith
import Mathlib.Tactic.Ring

namespace Verif.Util

theorem dec_inj {a b : Nat} (h : dec a = dec b) : a = b := by
  have h1 := Nat.ofDigitChars_ten_toDigits (n := a)
  have h2 := Nat.ofDigitChars_ten_toDigits (n := b)
  unfold dec at h
  rw [h] at h1
  omega

theorem dec_isDigit {n : Nat} {c : Char} (h : c ∈ dec n) : c.isDigit = true :=
  Nat.isDigit_of_mem_toDigits (by omega) (by omega) h

theorem colon_not_mem_dec (n : Nat) : ':' ∉ dec n := by
  intro h; have := dec_isDigit h; revert this; decide

theorem dec_length_le {n k : Nat} (hk : 0 < k) (h : n < 10 ^ k) : (dec n).length ≤ k :=
  (Nat.length_toDigits_le_iff (by omega) hk).2 h

theorem padLeft_length {w : Nat} {s : List Char} (h : s.length ≤ w) : (padLeft w s).length = w := by
  unfold padLeft; simp; omega

theorem ofDigitChars_replicate_zero (k : Nat) (s : List Char) (acc : Nat) (ha : acc = 0) :
    Nat.ofDigitChars 10 (List.replicate k '0' ++ s) acc = Nat.ofDigitChars 10 s 0 := by
  subst ha
  induction k with
  | zero => simp
  | succ k ih => simpa [List.replicate_succ, Nat.ofDigitChars] using ih

/-- The value denoted by a padded decimal numeral. -/
theorem ofDigitChars_padLeft (w n : Nat) : Nat.ofDigitChars 10 (padLeft w (dec n)) 0 = n := by
  unfold padLeft
  rw [ofDigitChars_replicate_zero _ _ _ rfl]
  exact Nat.ofDigitChars_ten_toDigits

theorem padLeft_dec_inj {w a b : Nat} (h : padLeft w (dec a) = padLeft w (dec b)) : a = b := by
  rw [← ofDigitChars_padLeft w a, h, ofDigitChars_padLeft]

/-- Splitting at the first separator is unique. -/
theorem split_first {c : Char} {a b a' b' : List Char} (ha : c ∉ a) (ha' : c ∉ a')
    (h : a ++ [c] ++ b = a' ++ [c] ++ b') : a = a' ∧ b = b' := by
  induction a generalizing a' with
  | nil =>
    cases a' with
    | nil => simpa using h
    | cons x a' =>
      simp at h
      exact absurd (by simp [h.1]) ha'
  | cons x a ih =>
    cases a' with
    | nil =>
      simp at h
      exact absurd (by simp [h.1]) ha
    | cons y a' =>
      simp at h
      obtain ⟨rfl, h⟩ := h
      have := ih (a' := a') (by simp_all) (by simp_all) (by simpa using h)
      exact ⟨by rw [this.1], this.2⟩

theorem timeParts_eq {sec : Nat} (h : sec < 3600 * 4294967296) :
    timeParts sec = (sec / 3600, (sec / 60) % 60, sec % 60) := by
  have e1 : u32 (sec / 3600) = sec / 3600 := by unfold u32; omega
  have e2 : u32 ((sec / 60) % 60) = (sec / 60) % 60 := by unfold u32; omega
  unfold timeParts
  simp only [e1, e2, Prod.mk.injEq, true_and]
  have e3 : u32 (60 * u32 (u32 (60 * (sec / 3600)) + sec / 60 % 60))
      = (3600 * (sec / 3600) + 60 * (sec / 60 % 60)) % 4294967296 := by
    unfold u32
    rw [Nat.mod_add_mod, Nat.mul_mod_mod]
    congr 1; omega
  rw [e3]
  have e4 : sec = 3600 * (sec / 3600) + 60 * (sec / 60 % 60) + sec % 60 := by omega
  unfold u32
  generalize 3600 * (sec / 3600) + 60 * (sec / 60 % 60) = y at e4 ⊢
  omega

section Stats
variable {X : Type _} [CommRing X] [Lattice X]

namespace ErrorStats

theorem addSamples_append (s : ErrorStats X) (xs ys : List X) :
    s.addSamples (xs ++ ys) = (s.addSamples xs).addSamples ys := by
  simp [addSamples]

theorem addSamples_count (s : ErrorStats X) (xs : List X) :
    (s.addSamples xs).sampleCount = s.sampleCount + xs.length := by
  induction xs generalizing s with
  | nil => rfl
  | cons x xs ih =>
    have := ih (s.addSample x)
    simp only [addSamples, List.foldl_cons] at this ⊢
    rw [this]; simp [addSample]; omega

theorem addSamples_sum (s : ErrorStats X) (xs : List X) :
    (s.addSamples xs).errorSum = s.errorSum + (xs.map (fun x => |x|)).sum := by
  induction xs generalizing s with
  | nil => simp [addSamples]
  | cons x xs ih =>
    have := ih (s.addSample x)
    simp only [addSamples, List.foldl_cons] at this ⊢
    rw [this]; simp [addSample, add_assoc]

theorem addSamples_sq (s : ErrorStats X) (xs : List X) :
    (s.addSamples xs).errorSquareSum = s.errorSquareSum + (xs.map (fun x => |x| * |x|)).sum := by
  induction xs generalizing s with
  | nil => simp [addSamples]
  | cons x xs ih =>
    have := ih (s.addSample x)
    simp only [addSamples, List.foldl_cons] at this ⊢
    rw [this]; simp [addSample, add_assoc]

theorem addSamples_max_le (s : ErrorStats X) (xs : List X) (b : X) :
    (s.addSamples xs).errorMax ≤ b ↔ s.errorMax ≤ b ∧ ∀ x ∈ xs, |x| ≤ b := by
  induction xs generalizing s with
  | nil => simp [addSamples]
  | cons x xs ih =>
    have := ih (s.addSample x)
    simp only [addSamples, List.foldl_cons] at this ⊢
    rw [this]; simp [addSample]; tauto

end ErrorStats
end Stats

end Verif.Util
