import Verif.Infra.ParamsModel
import Verif.Loop
import Mathlib.Tactic.Linarith
import Mathlib.Tactic.Ring
import Mathlib.Tactic.FieldSimp
import Mathlib.Tactic.Positivity
import Mathlib.Tactic.NormNum

/-
C73 (configuration), C74 (conversion of values), C75 (lexical checks), C76 (factory).
-/

namespace Verif.Infra

open Verif.Res

/-! ## C75: lexical checks -/

theorem matches_cls (l : List Char) (s : Text) :
    s ∈ (cls l).matches' ↔ ∃ c ∈ l, s = [c] := by
  induction l with
  | nil => simp [cls]
  | cons c l ih =>
    have : cls (c :: l) = RegularExpression.char c + cls l := rfl
    rw [this, RegularExpression.matches'_add, Language.mem_add, ih]
    simp only [RegularExpression.matches'_char, List.mem_cons, exists_eq_or_imp]
    rfl

theorem matches_star_cls (l : List Char) (s : Text) :
    s ∈ (cls l).star.matches' ↔ ∀ c ∈ s, c ∈ l := by
  rw [RegularExpression.matches'_star, Language.mem_kstar]
  constructor
  · rintro ⟨L, rfl, h⟩ c hc
    rw [List.mem_flatten] at hc
    obtain ⟨y, hy, hcy⟩ := hc
    obtain ⟨d, hd, rfl⟩ := (matches_cls l y).mp (h y hy)
    rw [List.mem_singleton] at hcy
    rw [hcy]; exact hd
  · intro h
    refine ⟨s.map (fun c => [c]), ?_, ?_⟩
    · clear h
      induction s with
      | nil => rfl
      | cons c s ih => rw [List.map_cons, List.flatten_cons, ← ih]; rfl
    · intro y hy
      rw [List.mem_map] at hy
      obtain ⟨c, hc, rfl⟩ := hy
      exact (matches_cls l _).mpr ⟨c, h c hc, rfl⟩

theorem matches_mul (a b : RegularExpression Char) (s : Text) :
    s ∈ (a * b).matches' ↔ ∃ x ∈ a.matches', ∃ y ∈ b.matches', x ++ y = s := by
  rw [RegularExpression.matches'_mul, Language.mem_mul]

theorem matches_plus_cls (l : List Char) (s : Text) :
    s ∈ (plus (cls l)).matches' ↔ s ≠ [] ∧ ∀ c ∈ s, c ∈ l := by
  rw [plus, matches_mul]
  constructor
  · rintro ⟨x, hx, y, hy, rfl⟩
    obtain ⟨c, hc, rfl⟩ := (matches_cls l x).mp hx
    have hy := (matches_star_cls l y).mp hy
    refine ⟨by simp, ?_⟩
    intro d hd
    rw [List.singleton_append, List.mem_cons] at hd
    rcases hd with rfl | hd
    · exact hc
    · exact hy d hd
  · rintro ⟨hne, h⟩
    obtain ⟨c, s, rfl⟩ := List.exists_cons_of_ne_nil hne
    exact ⟨[c], (matches_cls l _).mpr ⟨c, h c (by simp), rfl⟩, s,
      (matches_star_cls l s).mpr (fun d hd => h d (by simp [hd])), rfl⟩

theorem matches_opt (r : RegularExpression Char) (s : Text) :
    s ∈ (opt r).matches' ↔ s = [] ∨ s ∈ r.matches' := by
  rw [opt, RegularExpression.matches'_add, Language.mem_add, RegularExpression.matches'_epsilon,
    Language.mem_one]

theorem mem_chars (a b : Nat) (hb : b < 55296) (c : Char) : c ∈ chars a b ↔ a ≤ c.toNat ∧ c.toNat ≤ b := by
  simp only [chars, List.mem_map, List.mem_range]
  have hval : ∀ n, n ≤ b → (Char.ofNat n).toNat = n := by
    intro n hn
    have : n.isValidChar := Or.inl (by omega)
    simp [Char.ofNat, this, Char.toNat, Char.ofNatAux]
  constructor
  · rintro ⟨i, hi, rfl⟩
    rw [hval _ (by omega)]
    omega
  · rintro ⟨h1, h2⟩
    refine ⟨c.toNat - a, by omega, ?_⟩
    rw [show a + (c.toNat - a) = c.toNat by omega]
    exact Char.ofNat_toNat c

/-- A sign or nothing -/
def Sign (s : Text) : Prop := s = [] ∨ s = ['+'] ∨ s = ['-']

/-- One decimal digit -/
def IsDigit (c : Char) : Prop := '0'.toNat ≤ c.toNat ∧ c.toNat ≤ '9'.toNat

theorem mem_digit (c : Char) : c ∈ digit ↔ IsDigit c := mem_chars 48 57 (by omega) c

/-- Only digits -/
def Digits (s : Text) : Prop := ∀ c ∈ s, IsDigit c

theorem sign_iff (s : Text) : s ∈ (opt (cls ['+', '-'])).matches' ↔ Sign s := by
  rw [matches_opt, matches_cls]
  simp [Sign]

/-- `IsIntegerNumber` accepts exactly an optional sign and at least one digit. -/
theorem C75_integer (s : Text) :
    isInteger s = true ↔ ∃ sg d, s = sg ++ d ∧ Sign sg ∧ d ≠ [] ∧ Digits d := by
  rw [isInteger, RegularExpression.rmatch_iff_matches', matches_mul]
  constructor
  · rintro ⟨x, hx, y, hy, rfl⟩
    have hy := (matches_plus_cls _ _).mp hy
    exact ⟨x, y, rfl, (sign_iff x).mp hx, hy.1, fun c hc => (mem_digit c).mp (hy.2 c hc)⟩
  · rintro ⟨x, y, rfl, hx, hy, hd⟩
    exact ⟨x, (sign_iff x).mpr hx, y,
      (matches_plus_cls _ _).mpr ⟨hy, fun c hc => (mem_digit c).mpr (hd c hc)⟩, rfl⟩

/-- `IsNumber` accepts exactly: optional sign; digits with at most one dot among, before or after
them, at least one digit; optionally `e` or `E`, an optional sign and at least one digit. -/
theorem C75_number (s : Text) :
    isNumber s = true ↔ ∃ sg a dot b ex, s = sg ++ (a ++ dot ++ b) ++ ex ∧ Sign sg ∧ Digits a ∧
      Digits b ∧ (dot = [] ∨ dot = ['.']) ∧ (a ≠ [] ∨ b ≠ []) ∧
      (ex = [] ∨ ∃ e sg' d, ex = e ++ sg' ++ d ∧ (e = ['e'] ∨ e = ['E']) ∧ Sign sg' ∧ d ≠ [] ∧
        Digits d) := by
  have hdig : ∀ x, (∀ c ∈ x, c ∈ digit) ↔ Digits x := fun x =>
    forall_congr' fun c => imp_congr_right fun _ => mem_digit c
  have hdot : ∀ x, x ∈ (opt (cls ['.'])).matches' ↔ x = [] ∨ x = ['.'] := fun x => by
    rw [matches_opt, matches_cls]; simp
  have hexp : ∀ x, x ∈ (opt (cls ['e', 'E'] * opt (cls ['+', '-']) * plus (cls digit))).matches' ↔
      (x = [] ∨ ∃ e sg' d, x = e ++ sg' ++ d ∧ (e = ['e'] ∨ e = ['E']) ∧ Sign sg' ∧ d ≠ [] ∧
        Digits d) := by
    intro x
    rw [matches_opt, matches_mul]
    apply or_congr Iff.rfl
    constructor
    · rintro ⟨u, hu, d, hd, rfl⟩
      rw [matches_mul] at hu
      obtain ⟨e, he, g, hg, rfl⟩ := hu
      rw [matches_cls] at he
      rw [matches_plus_cls, hdig] at hd
      refine ⟨e, g, d, rfl, by simpa using he, (sign_iff g).mp hg, hd.1, hd.2⟩
    · rintro ⟨e, g, d, rfl, he, hg, h1, h2⟩
      refine ⟨e ++ g, (matches_mul _ _ _).mpr ⟨e, (matches_cls _ _).mpr (by simpa using he), g,
        (sign_iff g).mpr hg, rfl⟩, d, (matches_plus_cls _ _).mpr ⟨h1, (hdig d).mpr h2⟩, rfl⟩
  rw [isNumber, RegularExpression.rmatch_iff_matches', matches_mul]
  constructor
  · rintro ⟨u, hu, ex, hex, rfl⟩
    rw [matches_mul] at hu
    obtain ⟨sg, hsg, m, hm, rfl⟩ := hu
    rw [RegularExpression.matches'_add, Language.mem_add, matches_mul, matches_mul] at hm
    rcases hm with ⟨u, hu, b, hb, rfl⟩ | ⟨u, hu, b, hb, rfl⟩
    · rw [matches_mul] at hu
      obtain ⟨a, ha, dot, hd, rfl⟩ := hu
      rw [matches_star_cls, hdig] at ha
      rw [matches_plus_cls, hdig] at hb
      exact ⟨sg, a, dot, b, ex, rfl, (sign_iff _).mp hsg, ha, hb.2, (hdot _).mp hd, Or.inr hb.1,
        (hexp _).mp hex⟩
    · rw [matches_mul] at hu
      obtain ⟨a, ha, dot, hd, rfl⟩ := hu
      rw [matches_plus_cls, hdig] at ha
      rw [matches_star_cls, hdig] at hb
      exact ⟨sg, a, dot, b, ex, rfl, (sign_iff _).mp hsg, ha.2, hb, (hdot _).mp hd, Or.inl ha.1,
        (hexp _).mp hex⟩
  · rintro ⟨sg, a, dot, b, ex, rfl, hsg, ha, hb, hd, hne, hex⟩
    refine ⟨sg ++ (a ++ dot ++ b), ?_, ex, (hexp _).mpr hex, rfl⟩
    rw [matches_mul]
    refine ⟨sg, (sign_iff _).mpr hsg, _, ?_, rfl⟩
    rw [RegularExpression.matches'_add, Language.mem_add, matches_mul, matches_mul]
    rcases hne with hne | hne
    · right
      refine ⟨a ++ dot, (matches_mul _ _ _).mpr ⟨a, ?_, dot, (hdot _).mpr hd, rfl⟩, b, ?_, rfl⟩
      · rw [matches_plus_cls, hdig]; exact ⟨hne, ha⟩
      · rw [matches_star_cls, hdig]; exact hb
    · left
      refine ⟨a ++ dot, (matches_mul _ _ _).mpr ⟨a, ?_, dot, (hdot _).mpr hd, rfl⟩, b, ?_, rfl⟩
      · rw [matches_star_cls, hdig]; exact ha
      · rw [matches_plus_cls, hdig]; exact ⟨hne, hb⟩

example : isNumber "-12.5e-3".toList = true := by decide +kernel
example : isNumber ".".toList = false := by decide +kernel

/-- `IsHexIntegerNumber` accepts exactly non-empty sequences of hexadecimal digits. -/
theorem C75_hex (s : Text) : isHexInteger s = true ↔ s ≠ [] ∧ ∀ c ∈ s,
    IsDigit c ∨ ('a'.toNat ≤ c.toNat ∧ c.toNat ≤ 'f'.toNat) ∨
      ('A'.toNat ≤ c.toNat ∧ c.toNat ≤ 'F'.toNat) := by
  rw [isHexInteger, RegularExpression.rmatch_iff_matches', matches_plus_cls]
  apply and_congr Iff.rfl
  apply forall_congr'
  intro c
  apply imp_congr_right
  intro _
  rw [List.mem_append, List.mem_append, mem_digit, mem_chars _ _ (by omega), mem_chars _ _ (by omega),
    or_assoc]
  rfl

/-- Letter, underscore; digit -/
def IdStart (c : Char) : Prop :=
  ('a'.toNat ≤ c.toNat ∧ c.toNat ≤ 'z'.toNat) ∨ ('A'.toNat ≤ c.toNat ∧ c.toNat ≤ 'Z'.toNat) ∨ c = '_'

/-- C identifier -/
def IsIdent (s : Text) : Prop :=
  ∃ c r, s = c :: r ∧ IdStart c ∧ ∀ d ∈ r, IdStart d ∨ IsDigit d

/-- False: texts that are not identifiers are accepted. -/
theorem C75_identifier_false : ∃ s : Text, s = ['a', '[', '0', ']', '^'] ∧ isIdentifier s = true ∧ ¬ IsIdent s := by
  refine ⟨_, rfl, by decide +kernel, ?_⟩
  rintro ⟨c, r, h, -, hr⟩
  cases h
  have := hr '[' (by simp)
  simp [IdStart, IsDigit] at this

theorem isIdentifier_iff (s : Text) : isIdentifier s = true ↔ ∃ c r, s = c :: r ∧
    (('A'.toNat ≤ c.toNat ∧ c.toNat ≤ 'z'.toNat)) ∧
    ∀ d ∈ r, ('A'.toNat ≤ d.toNat ∧ d.toNat ≤ 'z'.toNat) ∨ IsDigit d := by
  have h1 : ∀ c, c ∈ chars 97 122 ++ chars 65 122 ++ ['_'] ↔
      ('A'.toNat ≤ c.toNat ∧ c.toNat ≤ 'z'.toNat) := by
    intro c
    rw [List.mem_append, List.mem_append, mem_chars _ _ (by omega), mem_chars _ _ (by omega),
      List.mem_singleton]
    have ha : 'A'.toNat = 65 := rfl
    have hz : 'z'.toNat = 122 := rfl
    have hu : '_'.toNat = 95 := rfl
    constructor
    · rintro ((h | h) | rfl)
      · omega
      · omega
      · decide
    · intro h; exact Or.inl (Or.inr h)
  have h2 : ∀ c, c ∈ chars 97 122 ++ chars 65 122 ++ digit ++ ['_'] ↔
      ('A'.toNat ≤ c.toNat ∧ c.toNat ≤ 'z'.toNat) ∨ IsDigit c := by
    intro c
    have := h1 c
    simp only [List.mem_append] at this ⊢
    rw [← this, mem_digit]
    tauto
  rw [isIdentifier, RegularExpression.rmatch_iff_matches', matches_mul]
  constructor
  · rintro ⟨x, hx, y, hy, rfl⟩
    rw [matches_cls] at hx
    obtain ⟨c, hc, rfl⟩ := hx
    rw [matches_star_cls] at hy
    exact ⟨c, y, rfl, (h1 c).mp hc, fun d hd => (h2 d).mp (hy d hd)⟩
  · rintro ⟨c, r, rfl, hc, hr⟩
    exact ⟨[c], (matches_cls _ _).mpr ⟨c, (h1 c).mpr hc, rfl⟩, r,
      (matches_star_cls _ _).mpr (fun d hd => (h2 d).mpr (hr d hd)), rfl⟩

/-- What holds: every identifier is accepted, and an accepted text is an identifier unless it
contains one of the characters between `Z` and `a` other than the underscore. -/
theorem C75_identifier_partial (s : Text) :
    (IsIdent s → isIdentifier s = true) ∧
    (isIdentifier s = true → (∀ c ∈ s, c ∉ ['[', '\\', ']', '^', '`']) → IsIdent s) := by
  have key : ∀ c : Char, 'A'.toNat ≤ c.toNat → c.toNat ≤ 'z'.toNat → c ∉ ['[', '\\', ']', '^', '`'] →
      IdStart c := by
    intro c h1 h2 h3
    have ha : 'A'.toNat = 65 := rfl
    have hz : 'z'.toNat = 122 := rfl
    have ha' : 'a'.toNat = 97 := rfl
    have hz' : 'Z'.toNat = 90 := rfl
    by_cases g1 : 97 ≤ c.toNat
    · exact Or.inl ⟨by omega, by omega⟩
    · by_cases g2 : c.toNat ≤ 90
      · exact Or.inr (Or.inl ⟨by omega, by omega⟩)
      · right; right
        have hmem : c ∈ chars 91 96 := (mem_chars 91 96 (by omega) c).mpr ⟨by omega, by omega⟩
        have : chars 91 96 = ['[', '\\', ']', '^', '_', '`'] := by decide +kernel
        rw [this] at hmem
        simp only [List.mem_cons, List.not_mem_nil, or_false] at hmem h3
        tauto
  constructor
  · rintro ⟨c, r, rfl, hc, hr⟩
    have hs : ∀ c, IdStart c → 'A'.toNat ≤ c.toNat ∧ c.toNat ≤ 'z'.toNat := by
      have ha : 'A'.toNat = 65 := rfl
      have hz : 'z'.toNat = 122 := rfl
      have ha' : 'a'.toNat = 97 := rfl
      have hz' : 'Z'.toNat = 90 := rfl
      rintro c (h | h | rfl)
      · omega
      · omega
      · decide
    exact (isIdentifier_iff _).mpr ⟨c, r, rfl, hs c hc, fun d hd => (hr d hd).imp (hs d) id⟩
  · intro h hno
    obtain ⟨c, r, rfl, hc, hr⟩ := (isIdentifier_iff _).mp h
    refine ⟨c, r, rfl, key c hc.1 hc.2 (hno c (by simp)), fun d hd => ?_⟩
    rcases hr d hd with h | h
    · exact Or.inl (key d h.1 h.2 (hno d (by simp [hd])))
    · exact Or.inr h

example : IsIdent ['o', '_', '2'] :=
  ⟨'o', ['_', '2'], rfl, by simp [IdStart], by simp [IdStart, IsDigit]⟩

/-! ## C74: conversion of values -/

theorem digitsVal_eq (s : Text) : digitsVal s = Nat.ofDigitChars 10 s 0 := by
  rw [Nat.ofDigitChars_eq_foldl]
  rfl

theorem digitsVal_toDigits (n : Nat) : digitsVal (Nat.toDigits 10 n) = n := by
  rw [digitsVal_eq]
  exact Nat.ofDigitChars_toDigits (by omega) (by omega)

theorem toDigits_digits (n : Nat) : Digits (Nat.toDigits 10 n) ∧ Nat.toDigits 10 n ≠ [] := by
  refine ⟨?_, Nat.toDigits_ne_nil⟩
  intro c hc
  have := Nat.isDigit_of_mem_toDigits (by omega) (by omega) hc
  rw [Char.isDigit, Bool.and_eq_true, decide_eq_true_iff, decide_eq_true_iff] at this
  exact this

theorem signDigits_digits {d : Text} (hd : Digits d) : signDigits d = (false, d) := by
  unfold signDigits
  split
  · have := hd '-' (by simp)
    simp [IsDigit] at this
  · have := hd '+' (by simp)
    simp [IsDigit] at this
  · rfl

/-- Sign and digits: the number written -/
def written (sg d : Text) : Int := if sg = ['-'] then -(digitsVal d : Int) else digitsVal d

theorem signDigits_eq {sg d : Text} (hs : Sign sg) (hd : Digits d) :
    signDigits (sg ++ d) = (decide (sg = ['-']), d) := by
  rcases hs with rfl | rfl | rfl
  · exact signDigits_digits hd
  · rfl
  · rfl

/-- Conversion to int: the number written in the text if the text is an integer number that fits;
otherwise an exception. -/
theorem C74_toInt (s : Text) :
    (∀ sg d, s = sg ++ d → Sign sg → d ≠ [] → Digits d →
      (-2 ^ 31 ≤ written sg d ∧ written sg d < 2 ^ 31 → toInt s = .ok (written sg d)) ∧
      (¬ (-2 ^ 31 ≤ written sg d ∧ written sg d < 2 ^ 31) → ∃ msg, toInt s = .error (.exc msg))) ∧
    ((¬ ∃ sg d, s = sg ++ d ∧ Sign sg ∧ d ≠ [] ∧ Digits d) → ∃ msg, toInt s = .error (.exc msg)) := by
  constructor
  · rintro sg d rfl hs hne hd
    have hi : isInteger (sg ++ d) = true := (C75_integer _).mpr ⟨sg, d, rfl, hs, hne, hd⟩
    have hv : (if decide (sg = ['-']) = true then -(digitsVal d : Int) else digitsVal d) =
        written sg d := by simp [written]
    constructor
    · intro hr
      simp only [toInt, hi, if_true, signDigits_eq hs hd, hv]
      rw [if_pos ⟨by linarith [hr.1], by linarith [hr.2]⟩]
    · intro hr
      simp only [toInt, hi, if_true, signDigits_eq hs hd, hv]
      rw [if_neg (fun h => hr ⟨by linarith [h.1], by linarith [h.2]⟩)]
      exact ⟨_, rfl⟩
  · intro hn
    have hi : ¬ isInteger s = true := fun h => hn ((C75_integer _).mp h)
    simp only [toInt, hi]
    exact ⟨_, rfl⟩

example : Sign ['-'] ∧ Digits ['4', '2'] ∧ written ['-'] ['4', '2'] = -42 :=
  ⟨by simp [Sign], by simp [Digits, IsDigit], rfl⟩

/-- An int stored as a value is read back. -/
theorem C74_int (x : Int) (h1 : -2 ^ 31 ≤ x) (h2 : x < 2 ^ 31) : toInt (ofInt x) = .ok x := by
  obtain ⟨hd, hne⟩ := toDigits_digits x.natAbs
  unfold ofInt
  by_cases hx : x < 0
  · rw [if_pos hx]
    have hw : written ['-'] (Nat.toDigits 10 x.natAbs) = x := by
      rw [written, if_pos rfl, digitsVal_toDigits]
      omega
    have := ((C74_toInt ('-' :: Nat.toDigits 10 x.natAbs)).1 ['-'] (Nat.toDigits 10 x.natAbs) rfl (by simp [Sign]) hne hd).1
    rw [hw] at this
    exact this ⟨h1, h2⟩
  · rw [if_neg hx]
    have hw : written [] (Nat.toDigits 10 x.natAbs) = x := by
      rw [written, if_neg (by simp), digitsVal_toDigits]
      omega
    have := ((C74_toInt (Nat.toDigits 10 x.natAbs)).1 [] (Nat.toDigits 10 x.natAbs) rfl (by simp [Sign]) hne hd).1
    rw [hw] at this
    exact this ⟨h1, h2⟩

/-- A boolean stored as a value is read back; other texts than 0, 1, true, false are rejected. -/
theorem C74_bool : (∀ x, toBool (ofBool x) = .ok x) ∧
    ∀ s : Text, s ∉ ["0".toList, "false".toList, "1".toList, "true".toList] →
      ∃ msg, toBool s = .error (.exc msg) := by
  constructor
  · intro x
    cases x
    · rfl
    · decide +kernel
  · intro s hs
    simp only [List.mem_cons, List.not_mem_nil, or_false, not_or] at hs
    simp only [toBool, hs.1, hs.2.1, hs.2.2.1, hs.2.2.2, or_self, if_false]
    exact ⟨_, rfl⟩

/-- False: a negative number, or one too big, is read as an unsigned number. -/
theorem C74_unsigned_false :
    toUnsigned ['-', '1'] = .ok 4294967295 ∧
    toUnsigned (ofUnsigned 4294967296) = .ok 0 := by
  constructor <;> decide +kernel

/-- What holds: an unsigned int stored as a value is read back; digits that fit give the number
written; text that is no integer number is rejected. What is missing: texts of negative numbers and
of numbers of 2^32 and more are accepted. -/
theorem C74_unsigned_partial :
    (∀ x < 2 ^ 32, toUnsigned (ofUnsigned x) = .ok x) ∧
    (∀ sg d, sg ≠ ['-'] → Sign sg → d ≠ [] → Digits d → digitsVal d < 2 ^ 32 →
      toUnsigned (sg ++ d) = .ok (digitsVal d)) ∧
    (∀ s : Text, (¬ ∃ sg d, s = sg ++ d ∧ Sign sg ∧ d ≠ [] ∧ Digits d) →
      ∃ msg, toUnsigned s = .error (.exc msg)) := by
  have key : ∀ sg d, sg ≠ ['-'] → Sign sg → d ≠ [] → Digits d → digitsVal d < 2 ^ 32 →
      toUnsigned (sg ++ d) = .ok (digitsVal d) := by
    intro sg d hm hs hne hd hv
    have hi : isInteger (sg ++ d) = true := (C75_integer _).mpr ⟨sg, d, rfl, hs, hne, hd⟩
    simp only [toUnsigned, hi, if_true, signDigits_eq hs hd]
    rw [if_neg (by omega)]
    simp only [hm, decide_false, Bool.false_eq_true, if_false]
    rw [Nat.mod_eq_of_lt (by omega)]
  refine ⟨?_, key, ?_⟩
  · intro x hx
    obtain ⟨hd, hne⟩ := toDigits_digits x
    have := key [] _ (by simp) (by simp [Sign]) hne hd (by rw [digitsVal_toDigits]; exact hx)
    rw [digitsVal_toDigits] at this
    exact this
  · intro s hn
    have hi : ¬ isInteger s = true := fun h => hn ((C75_integer _).mp h)
    simp only [toUnsigned, hi]
    exact ⟨_, rfl⟩

/-- A double: 53 bits times a power of two (normal range) -/
def IsDouble (x : ℚ) : Prop :=
  ∃ (m : Int) (e : Int), |m| < 2 ^ 53 ∧ -1074 ≤ e ∧ e ≤ 971 ∧ x = m * 2 ^ e

/-- False: two different doubles are stored as the same number, so no way of reading gives both
back. (They are 0.1 + 0.2 and 0.3 in double arithmetic.) -/
theorem C74_double_false : ∃ x y : ℚ, IsDouble x ∧ IsDouble y ∧ x ≠ y ∧ ofDouble x = ofDouble y := by
  refine ⟨5404319552844596 / 2 ^ 54, 5404319552844595 / 2 ^ 54,
    ⟨5404319552844596, -54, by decide, by decide, by decide, ?_⟩,
    ⟨5404319552844595, -54, by decide, by decide, by decide, ?_⟩, by norm_num, ?_⟩
  · norm_num
  · norm_num
  · decide +kernel

theorem roundEven_close (x : ℚ) : |(roundEven x : ℚ) - x| ≤ 1 / 2 := by
  have h1 := Int.floor_le x
  have h2 := Int.lt_floor_add_one x
  unfold roundEven
  simp only
  split
  · rw [abs_le]; constructor <;> linarith
  · rename_i h3
    split
    · push_cast; rw [abs_le]; constructor <;> linarith
    · rename_i h4
      split
      · rw [abs_le]; constructor <;> linarith
      · push_cast; rw [abs_le]; constructor <;> linarith

theorem decExp_spec (x : ℚ) (n : Nat) (e : Int) (h1 : (10 : ℚ) ^ e ≤ x) (h2 : x < (10 : ℚ) ^ (e + n)) :
    (10 : ℚ) ^ (decExp x n e) ≤ x ∧ x < (10 : ℚ) ^ (decExp x n e + 1) := by
  induction n generalizing e with
  | zero =>
    simp only [Nat.cast_zero, add_zero] at h2
    exact absurd h1 (not_le.mpr h2)
  | succ n ih =>
    rw [decExp]
    split
    · rename_i h
      exact ⟨h1, h⟩
    · rename_i h
      exact ih (e + 1) (not_lt.mp h) (by
        rw [show e + 1 + (n : Int) = e + ((n + 1 : Nat) : Int) by push_cast; ring]
        exact h2)

/-- What holds: the number stored differs from the double by at most half a unit of the 16th
significant digit. What is missing: 17 digits are needed to read the same double back. -/
theorem C74_double_partial (x : ℚ) (h1 : (10 : ℚ) ^ (-330 : Int) ≤ |x|) (h2 : |x| < (10 : ℚ) ^ (310 : Int)) :
    |ofDouble x - x| ≤ |x| * (5 * (10 : ℚ) ^ (-16 : Int)) := by
  have hx0 : x ≠ 0 := by
    rintro rfl
    rw [abs_zero] at h1
    exact absurd h1 (not_le.mpr (zpow_pos (by norm_num) _))
  obtain ⟨g1, g2⟩ := decExp_spec |x| 640 (-330) h1 (by simpa using h2)
  set e := decExp |x| 640 (-330) with he
  set m := roundEven (|x| * (10 : ℚ) ^ (15 - e)) with hm
  have hr := roundEven_close (|x| * (10 : ℚ) ^ (15 - e))
  rw [← hm] at hr
  have hp : (0 : ℚ) < (10 : ℚ) ^ (e - 15) := zpow_pos (by norm_num) _
  have hinv : (10 : ℚ) ^ (15 - e) * (10 : ℚ) ^ (e - 15) = 1 := by
    rw [← zpow_add₀ (by norm_num)]
    rw [show 15 - e + (e - 15) = 0 by ring, zpow_zero]
  have hdiff : abs ((m : ℚ) * (10 : ℚ) ^ (e - 15) - abs x) ≤ 1 / 2 * (10 : ℚ) ^ (e - 15) := by
    have : (m : ℚ) * (10 : ℚ) ^ (e - 15) - |x| =
        ((m : ℚ) - |x| * (10 : ℚ) ^ (15 - e)) * (10 : ℚ) ^ (e - 15) := by
      rw [sub_mul, mul_assoc |x|, hinv, mul_one]
    rw [this, abs_mul, abs_of_pos hp]
    exact mul_le_mul_of_nonneg_right hr hp.le
  have hpe : (10 : ℚ) ^ (e - 15) = (10 : ℚ) ^ e * (10 : ℚ) ^ (-15 : Int) := by
    rw [← zpow_add₀ (by norm_num)]; rfl
  have hbound : 1 / 2 * (10 : ℚ) ^ (e - 15) ≤ |x| * (5 * (10 : ℚ) ^ (-16 : Int)) := by
    rw [hpe]
    have : (5 : ℚ) * (10 : ℚ) ^ (-16 : Int) = 1 / 2 * (10 : ℚ) ^ (-15 : Int) := by norm_num
    rw [this]
    nlinarith [g1, show (0 : ℚ) < (10 : ℚ) ^ (-15 : Int) from zpow_pos (by norm_num) _]
  have hof : ofDouble x = (if x < 0 then -1 else 1) * (m : ℚ) * (10 : ℚ) ^ (e - 15) := by
    rw [ofDouble, if_neg hx0]
  rw [hof]
  refine le_trans ?_ hbound
  by_cases hneg : x < 0
  · rw [if_pos hneg]
    rw [abs_of_neg hneg] at hdiff
    rw [show -1 * (m : ℚ) * (10 : ℚ) ^ (e - 15) - x = -((m : ℚ) * (10 : ℚ) ^ (e - 15) - -x) by ring,
      abs_neg]
    exact hdiff
  · rw [if_neg hneg]
    rw [abs_of_nonneg (not_lt.mp hneg)] at hdiff
    rw [one_mul]
    exact hdiff

example : (10 : ℚ) ^ (-330 : Int) ≤ |3 / 10| ∧ |(3 : ℚ) / 10| < (10 : ℚ) ^ (310 : Int) := by
  constructor <;> decide +kernel

/-! ## C73: configuration -/

variable {σ P V : Type}

/-- Configurations reached from a new one by reads and settings in which the component accepts the
parameters it is given -/
inductive CReach (pr : Provider σ P) (ops : ParamOps P V) : Cfg σ P → Prop
  /-- constructed, or a provider set: parameters are not loaded, whatever is stored -/
  | init (ps st) : CReach pr ops ⟨ps, false, st⟩
  | value {c} (p) : CReach pr ops c → CReach pr ops (c.value pr ops p).1
  | set {c} (p v) : CReach pr ops c →
      (∀ ps, ops.assign (pr.get c.comp) p v = .ok ps → ∃ st, pr.set c.comp ps = .ok st) →
      CReach pr ops (c.setValue pr ops p v).1

theorem load_comp (pr : Provider σ P) (c : Cfg σ P) : (c.load pr).comp = c.comp := by
  unfold Cfg.load; split <;> rfl

theorem CReach.known {pr : Provider σ P} {ops : ParamOps P V} {c : Cfg σ P} (h : CReach pr ops c) :
    (c.load pr).params = pr.get c.comp ∧ (c.known = true → c.params = pr.get c.comp) := by
  have hload : ∀ c : Cfg σ P, (c.known = true → c.params = pr.get c.comp) →
      (c.load pr).params = pr.get c.comp := by
    intro c hk
    unfold Cfg.load
    split
    · rename_i h; exact hk h
    · rfl
  have hk : c.known = true → c.params = pr.get c.comp := by
    induction h with
    | init ps st => intro h; cases h
    | @value c p hr ih =>
      intro _
      change (c.load pr).params = pr.get (c.load pr).comp
      rw [load_comp]
      exact hload c ih
    | @set c p v hr ha ih =>
      have hl := hload c ih
      simp only [Cfg.setValue, hl]
      cases hs : ops.assign (pr.get c.comp) p v with
      | error e =>
        intro _
        change (c.load pr).params = pr.get (c.load pr).comp
        rw [load_comp]
        exact hl
      | ok ps =>
        obtain ⟨st, hst⟩ := ha ps hs
        simp only [load_comp, hst]
        intro h; cases h
  exact ⟨hload c hk, hk⟩

/-- While the component accepts what it is given: a value read is the component's value at that
path; setting a value gives the component its own parameters with that value changed; a path that
does not exist leaves the component alone. What is missing: after a rejected setting
(`C73_rejected_false`). -/
theorem C73_partial {pr : Provider σ P} {ops : ParamOps P V} {c : Cfg σ P} (h : CReach pr ops c)
    (p : Path) :
    ((c.value pr ops p).2 = ops.find (pr.get c.comp) p ∧ (c.value pr ops p).1.comp = c.comp) ∧
    (∀ v ps st, ops.assign (pr.get c.comp) p v = .ok ps → pr.set c.comp ps = .ok st →
      (c.setValue pr ops p v).2 = .ok () ∧ (c.setValue pr ops p v).1.comp = st) ∧
    (∀ v e, ops.assign (pr.get c.comp) p v = .error e →
      (c.setValue pr ops p v).2 = .error e ∧ (c.setValue pr ops p v).1.comp = c.comp) := by
  have hl := h.known.1
  refine ⟨⟨?_, load_comp pr c⟩, ?_, ?_⟩
  · simp only [Cfg.value, hl]
  · intro v ps st h1 h2
    simp only [Cfg.setValue, hl, h1, load_comp, h2, and_self]
  · intro v e h1
    simp only [Cfg.setValue, hl, h1, load_comp, and_self]

/-- Two numbers named a and b -/
def twoOps : ParamOps (Nat × Nat) Nat where
  find ps p := if p = [['a']] then .ok ps.1 else if p = [['b']] then .ok ps.2 else .error (.exc "path")
  assign ps p v := if p = [['a']] then .ok (v, ps.2) else if p = [['b']] then .ok (ps.1, v)
    else .error (.exc "path")

/-- A component that accepts numbers up to ten -/
def upTo10 : Provider (Nat × Nat) (Nat × Nat) where
  get s := s
  set _ ps := if ps.1 ≤ 10 ∧ ps.2 ≤ 10 then .ok ps else .error (.exc "too big")

/-- False: a value that the component rejected is what the configuration shows afterwards, and from
then on acceptable settings of other values are rejected too. -/
theorem C73_rejected_false : ∃ c : Cfg (Nat × Nat) (Nat × Nat), CReach upTo10 twoOps c ∧
    c.comp = (5, 6) ∧ (c.setValue upTo10 twoOps [['a']] 50).2 = .error (.exc "too big") ∧
    (c.setValue upTo10 twoOps [['a']] 50).1.comp = (5, 6) ∧
    ((c.setValue upTo10 twoOps [['a']] 50).1.value upTo10 twoOps [['a']]).2 = .ok 50 ∧
    ((c.setValue upTo10 twoOps [['a']] 50).1.setValue upTo10 twoOps [['b']] 7).2 =
      .error (.exc "too big") ∧
    (c.setValue upTo10 twoOps [['b']] 7).2 = .ok () :=
  ⟨⟨(0, 0), false, (5, 6)⟩, .init _ _, rfl, rfl, rfl, rfl, rfl, rfl⟩

/-- A setting that is accepted -/
example : CReach upTo10 twoOps ((⟨(0, 0), false, (5, 6)⟩ : Cfg _ _).setValue upTo10 twoOps [['b']] 7).1 :=
  .set _ _ (.init _ _) (by
    intro ps h
    cases h
    exact ⟨_, rfl⟩)

/-! ## C76: factory -/

theorem find_insert {A B : Type} [DecidableEq A] (k : A) (v : B) (l : List (A × B)) (a : A) :
    findKV a (insertKV k v l) = if k = a then some v else findKV a l := by
  induction l with
  | nil => simp [insertKV, findKV]
  | cons e l ih =>
    obtain ⟨b, c⟩ := e
    simp only [insertKV]
    split
    · rename_i h
      subst h
      simp only [findKV]
      split <;> rfl
    · rename_i h
      simp only [findKV, ih]
      by_cases h1 : b = a
      · subst h1
        rw [if_pos rfl, if_neg (fun hk => h hk.symm), if_pos rfl]
      · rw [if_neg h1, if_neg h1]

/-- Registrations made so far, the latest first: type and identifier -/
abbrev RegLog := List (Nat × Text)

/-- The registry after them -/
def regOf : RegLog → Reg
  | [] => ⟨[], []⟩
  | (ty, id) :: l => (regOf l).register ty id

/-- If every type is registered under one identifier and every identifier for one type, an instance
created by an identifier has that identifier, and a stored type identifier of an instance creates an
instance of the same type; identifiers never registered are rejected. -/
theorem C76_partial (l : RegLog) (h1 : ∀ a ∈ l, ∀ b ∈ l, a.1 = b.1 ↔ a.2 = b.2) :
    (∀ ty id, (ty, id) ∈ l → (regOf l).newInstance id = .ok ty ∧ (regOf l).typeId ty = id ∧
      (regOf l).isRegistered id = true) ∧
    (∀ id, (∀ ty, (ty, id) ∉ l) → (∃ msg, (regOf l).newInstance id = .error (.exc msg)) ∧
      (regOf l).isRegistered id = false) := by
  have key : ∀ l : RegLog, (∀ a ∈ l, ∀ b ∈ l, a.1 = b.1 ↔ a.2 = b.2) →
      (∀ ty id, (ty, id) ∈ l → findKV id (regOf l).gens = some ty ∧ findKV ty (regOf l).ids = some id) ∧
      (∀ id, (∀ ty, (ty, id) ∉ l) → findKV id (regOf l).gens = none) := by
    intro l
    induction l with
    | nil => intro _; exact ⟨by simp, fun _ _ => rfl⟩
    | cons e l ih =>
      obtain ⟨ty0, id0⟩ := e
      intro h
      obtain ⟨i1, i2⟩ := ih (fun a ha b hb => h a (by simp [ha]) b (by simp [hb]))
      simp only [regOf, Reg.register]
      constructor
      · intro ty id hm
        rw [find_insert, find_insert]
        have hiff := h (ty, id) hm (ty0, id0) (by simp)
        simp only at hiff
        by_cases hid : id = id0
        · have hty := hiff.mpr hid
          rw [if_pos hid.symm, if_pos hty.symm, hid, hty]
          exact ⟨rfl, rfl⟩
        · have hty : ¬ ty = ty0 := fun h => hid (hiff.mp h)
          rw [if_neg (fun h => hid h.symm), if_neg (fun h => hty h.symm)]
          rw [List.mem_cons] at hm
          rcases hm with hm | hm
          · cases hm; exact absurd rfl hid
          · exact i1 ty id hm
      · intro id hn
        rw [find_insert, if_neg, i2 id (fun ty hm => hn ty (by simp [hm]))]
        rintro rfl
        exact hn ty0 (by simp)
  obtain ⟨k1, k2⟩ := key l h1
  constructor
  · intro ty id hm
    obtain ⟨g1, g2⟩ := k1 ty id hm
    simp [Reg.newInstance, Reg.typeId, Reg.isRegistered, g1, g2]
  · intro id hn
    have := k2 id hn
    simp [Reg.newInstance, Reg.isRegistered, this]

example : (regOf [(2, ['y']), (1, ['x'])]).newInstance ['x'] = .ok 1 := rfl

/-- False without the condition: a second type registered under an identifier in use takes it over:
instances of the first type cannot be created any more, and their identifier creates the second. -/
theorem C76_taken_false (l : RegLog) (ty ty' : Nat) (id : Text) (hne : ty ≠ ty') :
    (regOf ((ty', id) :: (ty, id) :: l)).typeId ty = id ∧
    (regOf ((ty', id) :: (ty, id) :: l)).newInstance id = .ok ty' := by
  simp only [regOf, Reg.register, Reg.typeId, Reg.newInstance, find_insert, if_pos]
  rw [if_neg (fun h => hne h.symm)]
  exact ⟨rfl, trivial⟩

end Verif.Infra
