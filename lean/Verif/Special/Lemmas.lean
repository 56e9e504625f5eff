import Verif.Special.Model
import Mathlib.Algebra.Order.Field.Basic
import Mathlib.Tactic.Ring
import Mathlib.Tactic.Linarith

/-! # Arithmetic with infinities and not-a-number -/

set_option linter.unusedSectionVars false

namespace Verif.Special

open Fl

namespace Fl

section
variable {K : Type} [Field K] [LinearOrder K]

theorem zero_def : (0 : Fl K) = num 0 := rfl
theorem one_def : (1 : Fl K) = num 1 := rfl
@[simp] theorem nat_def (k : Nat) : (k : Fl K) = num (k : K) := rfl
@[simp] theorem num_add (a b : K) : num a + num b = num (a + b) := rfl
@[simp] theorem num_neg (a : K) : -num a = num (-a) := rfl
@[simp] theorem num_sub (a b : K) : num a - num b = num (a - b) :=
  congrArg num (sub_eq_add_neg a b).symm
@[simp] theorem num_mul (a b : K) : num a * num b = num (a * b) := rfl
theorem num_div {a b : K} (h : b ≠ 0) : num a / num b = num (a / b) := by
  change div _ _ = _
  simp [div, h]
@[simp] theorem num_abs (a : K) : (num a).abs = num |a| := rfl
@[simp] theorem num_lt (a b : K) : num a < num b ↔ a < b := Iff.rfl
@[simp] theorem num_le (a b : K) : num a ≤ num b ↔ a ≤ b := Iff.rfl
@[simp] theorem nan_add (x : Fl K) : (nan : Fl K) + x = nan := by cases x <;> rfl
@[simp] theorem add_nan (x : Fl K) : x + (nan : Fl K) = nan := by cases x <;> rfl
@[simp] theorem neg_nan : -(nan : Fl K) = nan := rfl
@[simp] theorem nan_sub (x : Fl K) : (nan : Fl K) - x = nan := nan_add (-x)
@[simp] theorem sub_nan (x : Fl K) : x - (nan : Fl K) = nan := add_nan x
@[simp] theorem nan_mul (x : Fl K) : (nan : Fl K) * x = nan := by cases x <;> rfl
@[simp] theorem mul_nan (x : Fl K) : x * (nan : Fl K) = nan := by cases x <;> rfl
@[simp] theorem nan_div (x : Fl K) : (nan : Fl K) / x = nan := by cases x <;> rfl
@[simp] theorem div_nan (x : Fl K) : x / (nan : Fl K) = nan := by cases x <;> rfl
@[simp] theorem abs_nan : (nan : Fl K).abs = nan := rfl
@[simp] theorem abs_inf (s : Bool) : (inf s : Fl K).abs = inf false := rfl
@[simp] theorem nan_lt (x : Fl K) : ¬ (nan : Fl K) < x := by cases x <;> exact id
@[simp] theorem lt_nan (x : Fl K) : ¬ x < (nan : Fl K) := by cases x <;> exact id
@[simp] theorem nan_le (x : Fl K) : ¬ (nan : Fl K) ≤ x := by cases x <;> exact id
@[simp] theorem le_nan (x : Fl K) : ¬ x ≤ (nan : Fl K) := by cases x <;> exact id
@[simp] theorem num_lt_inf (a : K) (t : Bool) : num a < (inf t : Fl K) ↔ t = false := Iff.rfl
@[simp] theorem num_le_inf (a : K) (t : Bool) : num a ≤ (inf t : Fl K) ↔ t = false := Iff.rfl
@[simp] theorem inf_lt_num (a : K) (t : Bool) : (inf t : Fl K) < num a ↔ t = true := Iff.rfl
@[simp] theorem inf_le_num (a : K) (t : Bool) : (inf t : Fl K) ≤ num a ↔ t = true := Iff.rfl
@[simp] theorem inf_lt_inf (s t : Bool) : (inf s : Fl K) < inf t ↔ s = true ∧ t = false := Iff.rfl
@[simp] theorem inf_le_inf (s t : Bool) : (inf s : Fl K) ≤ inf t ↔ s = true ∨ t = false := Iff.rfl
@[simp] theorem num_div_inf (a : K) (t : Bool) : num a / (inf t : Fl K) = num 0 := rfl
@[simp] theorem inf_div_inf (s t : Bool) : (inf s : Fl K) / inf t = nan := rfl
theorem inf_div_num (s : Bool) (b : K) : (inf s : Fl K) / num b = inf (s != sgn b) := rfl
@[simp] theorem inf_add_num (s : Bool) (b : K) : (inf s : Fl K) + num b = inf s := rfl
@[simp] theorem num_add_inf (s : Bool) (b : K) : num b + (inf s : Fl K) = inf s := rfl
@[simp] theorem inf_add_self (s : Bool) : (inf s : Fl K) + inf s = inf s := by
  change add _ _ = _
  simp [add]
@[simp] theorem inf_mul_self (s : Bool) : (inf s : Fl K) * inf s = inf false := by
  change mul _ _ = _
  simp [mul]

theorem trans {p q r : Fl K} (h1 : p ≤ q) (h2 : q ≤ r) : p ≤ r := by
  cases p with
  | nan => simp at h1
  | num a =>
    cases q with
    | nan => simp at h2
    | num b =>
      cases r with
      | nan => simp at h2
      | num c => exact le_trans (α := K) h1 h2
      | inf t => simpa using h2
    | inf s =>
      simp only [num_le_inf] at h1
      subst h1
      cases r with
      | nan => simp at h2
      | num c => simp at h2
      | inf t => simpa using h2
  | inf s =>
    cases s
    · cases q with
      | nan => simp at h2
      | num b => simp at h1
      | inf s =>
        simp only [inf_le_inf, Bool.false_eq_true, false_or] at h1
        subst h1
        exact h2
    · cases r with
      | nan => simp at h2
      | num c => simp
      | inf t => simp

end

end Fl

section
variable {K : Type} [Field K] [LinearOrder K] [IsStrictOrderedRing K] {n : Nat}

/-- All components are numbers. -/
def Numbers (v : V K n) : Prop := ∀ i, ∃ a, v i = num a

/-- No component is a number or infinite. -/
def Nowhere (v : V K n) : Prop := ∀ i, v i = nan

theorem Numbers.exists {v : V K n} (h : Numbers v) : ∃ w : Fin n → K, v = fun i => num (w i) := by
  choose w hw using h
  exact ⟨w, funext hw⟩

/-- The maximum of absolute values, leaving out what is not a number. -/
theorem foldl_max (l : List (Fl K)) (a : Fl K) (ha : a ≠ nan) (h0 : 0 ≤ a) :
    let r := l.foldl (fun r x => Fl.max r x.abs) a
    r ≠ nan ∧ a ≤ r ∧ 0 ≤ r ∧ (∀ x ∈ l, x = nan ∨ x.abs ≤ r) ∧ (r = a ∨ ∃ x ∈ l, x ≠ nan ∧ r = x.abs) := by
  induction l generalizing a with
  | nil =>
    refine ⟨ha, ?_, h0, by simp, .inl rfl⟩
    cases a with
    | num a => exact le_refl a
    | inf s => cases s <;> simp
    | nan => exact absurd rfl ha
  | cons x l ih =>
    simp only [List.foldl_cons]
    have hm : Fl.max a x.abs ≠ nan ∧ a ≤ Fl.max a x.abs ∧ 0 ≤ Fl.max a x.abs ∧
        (x = nan ∨ x.abs ≤ Fl.max a x.abs) ∧
        (Fl.max a x.abs = a ∨ (x ≠ nan ∧ Fl.max a x.abs = x.abs)) := by
      cases x with
      | nan =>
        have : Fl.max a (nan : Fl K).abs = a := by simp [Fl.max]
        rw [this]
        refine ⟨ha, ?_, h0, .inl rfl, .inl rfl⟩
        cases a with
        | num a => exact le_refl a
        | inf s => cases s <;> simp
        | nan => exact absurd rfl ha
      | inf s =>
        cases a with
        | num a => simp [Fl.max, zero_def]
        | inf t =>
          cases t
          · simp [Fl.max, zero_def]
          · simp [Fl.max, zero_def]
        | nan => exact absurd rfl ha
      | num b =>
        cases a with
        | num a =>
          simp only [zero_def, num_le] at h0
          simp only [Fl.max, num_abs, num_lt]
          split
          · rename_i h
            exact ⟨by simp, by simpa using h.le, by simp [zero_def], by simp, .inr ⟨by simp, rfl⟩⟩
          · rename_i h
            exact ⟨by simp, by simp, by simpa [zero_def] using h0, .inr (by simpa using h), .inl rfl⟩
        | inf t =>
          cases t
          · simp [Fl.max, zero_def]
          · simp [zero_def] at h0
        | nan => exact absurd rfl ha
    obtain ⟨m1, m2, m3, m4, m5⟩ := hm
    obtain ⟨r1, r2, r3, r4, r5⟩ := ih _ m1 m3
    refine ⟨r1, Fl.trans m2 r2, r3, ?_, ?_⟩
    · intro y hy
      rcases List.mem_cons.mp hy with rfl | hy
      · rcases m4 with h | h
        · exact .inl h
        · exact .inr (Fl.trans h r2)
      · exact r4 y hy
    · rcases r5 with h | ⟨y, hy, h⟩
      · rcases m5 with h' | ⟨hx, h'⟩
        · exact .inl (h.trans h')
        · exact .inr ⟨x, by simp, hx, h.trans h'⟩
      · exact .inr ⟨y, by simp [hy], h⟩

theorem infNorm_spec (v : V K n) :
    infNorm v ≠ nan ∧ 0 ≤ infNorm v ∧ (∀ i, v i = nan ∨ (v i).abs ≤ infNorm v) ∧
    (infNorm v = 0 ∨ ∃ i, v i ≠ nan ∧ infNorm v = (v i).abs) := by
  obtain ⟨h1, -, h2, h3, h4⟩ := foldl_max (List.ofFn v) 0 (by simp [zero_def]) (by simp [zero_def])
  refine ⟨h1, h2, fun i => h3 _ (by simp), ?_⟩
  rcases h4 with h | ⟨x, hx, h⟩
  · exact .inl h
  · obtain ⟨i, rfl⟩ := List.mem_ofFn.mp hx
    exact .inr ⟨i, h⟩

/-- If nothing is a number, the norm is zero. -/
theorem infNorm_nowhere {v : V K n} (h : Nowhere v) : infNorm v = 0 := by
  have : ∀ (l : List (Fl K)) (_ : ∀ x ∈ l, x = nan), l.foldl (fun r x => Fl.max r x.abs) 0 = 0 := by
    intro l hl
    induction l with
    | nil => rfl
    | cons x l ih =>
      have hx : x = nan := hl x (by simp)
      subst hx
      rw [List.foldl_cons]
      have : Fl.max (0 : Fl K) (nan : Fl K).abs = 0 := by simp [Fl.max]
      rw [this]
      exact ih fun x hx => hl x (by simp [hx])
  exact this _ (by simpa [List.mem_ofFn, Nowhere] using h)

theorem foldl_sq (l : List (Fl K)) (a : Fl K) (ha : a = nan ∨ 0 ≤ a) :
    let r := l.foldl (fun s x => s + x * x) a
    (r = nan ∨ 0 ≤ r) ∧ (∀ b, r = num b → (∃ c, a = num c) ∧ ∀ x ∈ l, ∃ c, x = num c) ∧
    (r = nan ↔ a = nan ∨ nan ∈ l) := by
  induction l generalizing a with
  | nil => exact ⟨ha, fun b h => ⟨⟨b, h⟩, by simp⟩, by simp⟩
  | cons x l ih =>
    simp only [List.foldl_cons]
    have hs : (a + x * x = nan ∨ 0 ≤ a + x * x) ∧
        (∀ c, a + x * x = num c → (∃ c, a = num c) ∧ ∃ c, x = num c) ∧
        (a + x * x = nan ↔ a = nan ∨ x = nan) := by
      cases a with
      | nan => simp
      | inf s =>
        simp only [reduceCtorEq, false_or] at ha
        have : s = false := by cases s; rfl; simp [zero_def] at ha
        subst this
        cases x with
        | nan => simp
        | inf t => simp [zero_def]
        | num b => simp [zero_def]
      | num c =>
        simp only [reduceCtorEq, false_or, zero_def, num_le] at ha
        cases x with
        | nan => simp
        | inf t => simp [zero_def]
        | num b =>
          simp only [num_mul, num_add, zero_def, num_le, reduceCtorEq, false_or, num.injEq, exists_eq',
            and_self, implies_true, iff_self, and_true]
          exact add_nonneg ha (mul_self_nonneg b)
    obtain ⟨s1, s2, s3⟩ := hs
    obtain ⟨r1, r2, r3⟩ := ih _ s1
    refine ⟨r1, fun b hb => ?_, ?_⟩
    · obtain ⟨⟨c, hc⟩, h⟩ := r2 b hb
      obtain ⟨h1, h2⟩ := s2 c hc
      refine ⟨h1, fun y hy => ?_⟩
      rcases List.mem_cons.mp hy with rfl | hy
      · exact h2
      · exact h y hy
    · rw [r3, s3]
      simp only [List.mem_cons, or_assoc, eq_comm (a := x)]

theorem normSq_spec (v : V K n) :
    (normSq v = nan ∨ 0 ≤ normSq v) ∧ (∀ b, normSq v = num b → Numbers v) ∧
    (normSq v = nan ↔ ∃ i, v i = nan) := by
  obtain ⟨h1, h2, h3⟩ := foldl_sq (List.ofFn v) 0 (by simp [zero_def])
  refine ⟨h1, fun b hb i => (h2 b hb).2 _ (by simp), ?_⟩
  rw [normSq, h3]
  simp [List.mem_ofFn, zero_def]

end

end Verif.Special
