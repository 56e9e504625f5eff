import Verif.Driver.Names
import Verif.Driver.IndexProps
import Mathlib.Data.Nat.Log
import Mathlib.Tactic.NormNum
import Mathlib.Tactic.Positivity

/-! # C47, C99: names of variables, the columnwise table -/

namespace Verif.Driver

open Verif.Res Verif.Util

theorem ndigits_eq (n : Nat) : ndigits n = Nat.log 10 n + 1 := by
  unfold ndigits truncToInt
  rcases Nat.eq_zero_or_pos n with rfl | hn
  · have h1 : Real.logb 10 (((0 : Nat) : ℝ) + 1 / 2) < 0 :=
      Real.logb_neg (by norm_num) (by norm_num) (by norm_num)
    rw [if_pos h1]
    have h2 : ⌈Real.logb 10 (((0 : Nat) : ℝ) + 1 / 2)⌉ ≤ 0 := Int.ceil_le.2 (by simpa using h1.le)
    rw [max_eq_left h2]
    simp
  · set k := Nat.log 10 n with hk
    have h1 : 10 ^ k ≤ n := Nat.pow_log_le_self 10 (by omega)
    have h2 : n < 10 ^ (k + 1) := Nat.lt_pow_succ_log_self (by omega) n
    have h3 : (k : ℝ) ≤ Real.logb 10 ((n : ℝ) + 1 / 2) := by
      rw [Real.le_logb_iff_rpow_le (by norm_num) (by positivity), Real.rpow_natCast]
      have : ((10 ^ k : Nat) : ℝ) ≤ n := by exact_mod_cast h1
      push_cast at this
      linarith
    have h4 : Real.logb 10 ((n : ℝ) + 1 / 2) < (k : ℝ) + 1 := by
      rw [Real.logb_lt_iff_lt_rpow (by norm_num) (by positivity)]
      have h5 : n + 1 ≤ 10 ^ (k + 1) := h2
      have h6 : ((n + 1 : Nat) : ℝ) ≤ ((10 ^ (k + 1) : Nat) : ℝ) := by exact_mod_cast h5
      have h7 : (10 : ℝ) ^ ((k : ℝ) + 1) = ((10 ^ (k + 1) : Nat) : ℝ) := by
        rw [show ((k : ℝ) + 1) = ((k + 1 : Nat) : ℝ) by push_cast; ring, Real.rpow_natCast]
        push_cast
        ring
      rw [h7]
      push_cast at h6 ⊢
      linarith
    have h5 : ⌊Real.logb 10 ((n : ℝ) + 1 / 2)⌋ = (k : Int) := by
      rw [Int.floor_eq_iff]
      exact ⟨by exact_mod_cast h3, by exact_mod_cast h4⟩
    rw [if_neg (not_lt.2 ((Nat.cast_nonneg k).trans h3)), h5]
    have : (0 : Int) ≤ k := by omega
    rw [max_eq_right this]
    omega

theorem dec_length (n : Nat) : (dec n).length = Nat.log 10 n + 1 := by
  apply le_antisymm
  · exact dec_length_le (by omega) (Nat.lt_pow_succ_log_self (by omega) n)
  · by_contra h
    have hlt : (dec n).length ≤ Nat.log 10 n := by omega
    have hpos : 0 < Nat.log 10 n := lt_of_lt_of_le Nat.length_toDigits_pos hlt
    have h1 : n < 10 ^ Nat.log 10 n := (Nat.length_toDigits_le_iff (by omega) hpos).1 hlt
    have hn : n ≠ 0 := by
      rintro rfl
      simp at hpos
    exact absurd (Nat.pow_log_le_self 10 hn) (by omega)

/-- Numbers with exactly `w` digits -/
def fixedDigits : Nat → Nat → List Char
  | 0, _ => []
  | w + 1, i => fixedDigits w (i / 10) ++ [(i % 10).digitChar]

theorem padLeft_eq (w i : Nat) (h : i < 10 ^ (w + 1)) : padLeft (w + 1) (dec i) = fixedDigits (w + 1) i := by
  have hz : ∀ w, fixedDigits w 0 = List.replicate w '0' := by
    intro w
    induction w with
    | zero => rfl
    | succ w ih =>
      rw [fixedDigits, Nat.zero_div, ih, List.replicate_succ']
      rfl
  induction w generalizing i with
  | zero =>
    have : dec i = [i.digitChar] := Nat.toDigits_of_lt_base (by simpa using h)
    rw [this]
    have h2 : i % 10 = i := Nat.mod_eq_of_lt (by simpa using h)
    simp [padLeft, fixedDigits, h2]
  | succ w ih =>
    rw [fixedDigits]
    by_cases h10 : i < 10
    · have : dec i = [i.digitChar] := Nat.toDigits_of_lt_base h10
      rw [this, Nat.mod_eq_of_lt h10, Nat.div_eq_of_lt h10, hz]
      simp [padLeft]
    · have hd : dec i = dec (i / 10) ++ [(i % 10).digitChar] := Nat.toDigits_of_base_le (by omega) (by omega)
      rw [← ih (i / 10) (by rw [Nat.div_lt_iff_lt_mul (by omega)]; rw [pow_succ] at h; exact h), hd]
      simp [padLeft, ← List.append_assoc]

theorem fixedDigits_cons (w i : Nat) (h : i < 10 ^ (w + 1)) :
    fixedDigits (w + 1) i = (i / 10 ^ w).digitChar :: fixedDigits w (i % 10 ^ w) := by
  induction w generalizing i with
  | zero =>
    simp [fixedDigits]
    rw [Nat.mod_eq_of_lt (by simpa using h)]
  | succ w ih =>
    rw [fixedDigits, ih (i / 10) (by rw [Nat.div_lt_iff_lt_mul (by omega)]; rw [pow_succ] at h; exact h)]
    have h1 : i / 10 / 10 ^ w = i / 10 ^ (w + 1) := by
      rw [Nat.div_div_eq_div_mul, pow_succ, Nat.mul_comm]
    have h2 : i % 10 ^ (w + 1) / 10 = i / 10 % 10 ^ w := by
      rw [pow_succ, Nat.mul_comm, Nat.mod_mul_right_div_self]
    have h3 : i % 10 ^ (w + 1) % 10 = i % 10 := Nat.mod_mod_of_dvd _ (dvd_pow_self 10 (by omega))
    rw [h1, List.cons_append]
    congr 1
    rw [fixedDigits, h2, h3]

theorem digitChar_lt {a b : Nat} (hab : a < b) (hb : b < 10) : a.digitChar < b.digitChar := by
  have key : ∀ b, b < 10 → ∀ a, a < b → a.digitChar < b.digitChar := by decide
  exact key b hb a hab

theorem fixedDigits_lt (w : Nat) {i j : Nat} (hij : i < j) (hj : j < 10 ^ w) :
    fixedDigits w i < fixedDigits w j := by
  induction w generalizing i j with
  | zero => simp at hj; omega
  | succ w ih =>
    rw [fixedDigits_cons w i (by omega), fixedDigits_cons w j hj, List.cons_lt_cons_iff]
    have hd : i / 10 ^ w ≤ j / 10 ^ w := Nat.div_le_div_right hij.le
    have hp : 0 < 10 ^ w := by positivity
    rcases Nat.lt_or_ge (i / 10 ^ w) (j / 10 ^ w) with hlt | hge
    · exact .inl (digitChar_lt hlt (by rw [Nat.div_lt_iff_lt_mul hp]; rw [pow_succ] at hj; omega))
    · have he : i / 10 ^ w = j / 10 ^ w := le_antisymm hd hge
      refine .inr ⟨by rw [he], ih ?_ (Nat.mod_lt _ hp)⟩
      have h1 := Nat.div_add_mod i (10 ^ w)
      have h2 := Nat.div_add_mod j (10 ^ w)
      rw [he] at h1
      omega

/-- The name of a variable: the prefix and the index with as many digits as the number of variables has -/
theorem formatUnnamedVar_eq (n i : Nat) (hn : n < 4294967296) (hi : i < n) (hi' : i < 2147483648) :
    formatUnnamedVar n i = "UNNAMED_".toList ++ fixedDigits (Nat.log 10 n + 1) i := by
  have hlog : Nat.log 10 i ≤ Nat.log 10 n := Nat.log_mono_right hi.le
  have hself : Nat.log 10 n ≤ n := Nat.log_le_self 10 n
  have hf : formatInt i = dec i := by
    unfold formatInt
    rw [if_pos (by omega), Nat.mod_eq_of_lt (by omega)]
  have hlt : i < 10 ^ (Nat.log 10 n + 1) := lt_trans hi (Nat.lt_pow_succ_log_self (by omega) n)
  rw [← padLeft_eq _ _ hlt]
  unfold formatUnnamedVar padLeft
  simp only [ndigits_eq, hf, dec_length]
  rw [List.append_assoc]
  congr 3
  omega

theorem fixedDigits_length (w i : Nat) : (fixedDigits w i).length = w := by
  induction w generalizing i with
  | zero => rfl
  | succ w ih => simp [fixedDigits, ih]

/-- C47. A right-hand side with `n` variables that gives their identifiers (by default all zero): every variable
below 2³¹ has a name, it has as many characters as that of any other, and in the lexicographic order names stand
in the order of the variables; in particular they are distinct. -/
theorem C47_names (n : Nat) (hn : n ≤ 2147483648) (ids : List Nat) (hids : n ≤ ids.length) :
    ∃ name : Nat → List Char, (∀ i, i < n → varNameByIndex n ids i = .ok (name i)) ∧
      (∀ i, i < n → (name i).length = 8 + (dec n).length) ∧
      (∀ i j, i < j → j < n → name i < name j) ∧
      (∀ i j, i < n → j < n → name i = name j → i = j) := by
  have hlt : ∀ i j, i < j → j < n → formatUnnamedVar n i < formatUnnamedVar n j := by
    intro i j hij hj
    rw [formatUnnamedVar_eq n i (by omega) (by omega) (by omega),
      formatUnnamedVar_eq n j (by omega) hj (by omega)]
    exact List.append_left_lt (fixedDigits_lt _ hij (lt_trans hj (Nat.lt_pow_succ_log_self (by omega) n)))
  refine ⟨formatUnnamedVar n, ?_, ?_, hlt, ?_⟩
  · intro i hi
    unfold varNameByIndex raw
    rw [List.getElem?_eq_getElem (by omega)]
    rfl
  · intro i hi
    rw [formatUnnamedVar_eq n i (by omega) hi (by omega), List.length_append, fixedDigits_length, dec_length]
    rfl
  · intro i j hi hj h
    rcases Nat.lt_trichotomy i j with hl | hl | hl
    · exact absurd (h ▸ hlt i j hl hj) (List.lt_irrefl _)
    · exact hl
    · exact absurd (h ▸ hlt j i hl hi) (List.lt_irrefl _)

/-- C47. The number of digits is that of the decimal numeral. -/
theorem C47_ndigits (n : Nat) : ndigits n = (dec n).length := by
  rw [ndigits_eq, dec_length]
  push_cast
  rfl

/-- C47 with the default identifiers -/
example (n i : Nat) (hi : i < n) :
    varNameByIndex n (List.replicate n 0) i = .ok (formatUnnamedVar n i) := by
  unfold varNameByIndex raw
  rw [List.getElem?_eq_getElem (by simpa using hi)]
  rfl

/-- Variable 7 of 120 is called `UNNAMED_007`. -/
example : formatUnnamedVar 120 7 = "UNNAMED_007".toList := by
  rw [formatUnnamedVar_eq 120 7 (by omega) (by omega) (by omega)]
  have : Nat.log 10 120 = 2 := by
    rw [Nat.log_eq_iff (by omega)]
    omega
  rw [this]
  decide

/-- C47 fails from 2³¹ on: the index is printed as a negative number, and the name of variable 2³¹ has one
character more than, and stands before, that of variable 2³¹ - 1. -/
theorem C47_huge_false :
    formatUnnamedVar 2147483649 2147483648 = "UNNAMED_-2147483648".toList ∧
    formatUnnamedVar 2147483649 2147483647 = "UNNAMED_2147483647".toList ∧
    formatUnnamedVar 2147483649 2147483648 < formatUnnamedVar 2147483649 2147483647 := by
  have l1 : Nat.log 10 2147483649 = 9 := by rw [Nat.log_eq_iff (by omega)]; omega
  have l2 : Nat.log 10 2147483648 = 9 := by rw [Nat.log_eq_iff (by omega)]; omega
  have h1 : formatUnnamedVar 2147483649 2147483648 = "UNNAMED_-2147483648".toList := by
    unfold formatUnnamedVar
    simp only [ndigits_eq, l1, l2]
    decide +kernel
  have h2 : formatUnnamedVar 2147483649 2147483647 = "UNNAMED_2147483647".toList := by
    rw [formatUnnamedVar_eq _ _ (by omega) (by omega) (by omega), l1]
    decide +kernel
  refine ⟨h1, h2, ?_⟩
  rw [h1, h2]
  decide +kernel

theorem mapM_ok {α β : Type} (l : List α) (f : α → Res β) (g : α → β) (h : ∀ a ∈ l, f a = .ok (g a)) :
    l.mapM f = .ok (l.map g) := by
  induction l with
  | nil => rfl
  | cons a l ih =>
    rw [List.mapM_cons, h a (List.mem_cons_self ..), ih (fun b hb => h b (List.mem_cons_of_mem _ hb))]
    rfl

/-- C99. The table of the columnwise output: as many headings and times as columns collected, one row for every
variable in the order of indices, with its name and its value in every column; headings are distinct, and so are
names. -/
theorem C99_table {K : Type} [Zero K] (a : Columns K) (n : Nat) (hn : n ≤ 2147483648) (ids : List Nat)
    (hids : n ≤ ids.length) (hc : ∀ c ∈ a.columns, n ≤ c.2.length) :
    ∃ T, a.write n ids = .ok T ∧ T.heading.length = a.columns.length ∧ T.heading.Nodup ∧
      T.times = a.columns.map (·.1) ∧ T.rows.map (·.1) = List.range n ∧
      (T.rows.map (·.2.1)).Pairwise (· < ·) ∧ (T.rows.map (·.2.1)).Nodup ∧
      (∀ i r, T.rows[i]? = some r → varNameByIndex n ids i = .ok r.2.1 ∧
        r.2.2 = a.columns.map (fun c => c.2.getD i 0)) := by
  obtain ⟨name, h1, -, h3, h4⟩ := C47_names n hn ids hids
  have hrow : ∀ i ∈ List.range n, (do
      let name ← varNameByIndex n ids i
      let v ← a.columns.mapM (fun c => at' c.2 i)
      .ok (i, name, v) : Res (Nat × List Char × List K))
      = .ok (i, name i, a.columns.map (fun c => c.2.getD i 0)) := by
    intro i hi
    rw [List.mem_range] at hi
    rw [h1 i hi, mapM_ok a.columns (fun c => at' c.2 i) (fun c => c.2.getD i 0)]
    · rfl
    · intro c hcm
      have := hc c hcm
      unfold at'
      rw [List.getD_eq_getElem?_getD, List.getElem?_eq_getElem (by omega)]
      rfl
  refine ⟨⟨(List.range a.columns.length).map (fun c => 'n' :: Util.dec c), a.columns.map (·.1),
      (List.range n).map (fun i => (i, name i, a.columns.map (fun c => c.2.getD i 0)))⟩, ?_, ?_⟩
  · unfold Columns.write
    rw [mapM_ok _ _ _ hrow]
    rfl
  refine ⟨by simp, ?_, rfl, by simp [Function.comp_def], ?_, ?_, ?_⟩
  · refine List.Nodup.map ?_ List.nodup_range
    intro i j h
    exact dec_inj (List.cons.inj h).2
  · rw [List.map_map]
    rw [List.pairwise_map]
    refine List.Pairwise.imp_of_mem ?_ List.pairwise_lt_range
    intro i j hi hj hij
    exact h3 i j hij (List.mem_range.1 hj)
  · rw [List.map_map]
    refine List.Nodup.map_on ?_ List.nodup_range
    intro i hi j hj h
    exact h4 i j (List.mem_range.1 hi) (List.mem_range.1 hj) h
  · intro i r hr
    rw [List.getElem?_map] at hr
    obtain ⟨j, hj, rfl⟩ := Option.map_eq_some_iff.1 hr
    have hjn := List.getElem?_eq_some_iff.1 hj
    obtain ⟨hlen, hget⟩ := hjn
    rw [List.length_range] at hlen
    rw [List.getElem_range] at hget
    subst hget
    exact ⟨h1 _ hlen, rfl⟩

/-- Two variables, two columns: the hypotheses of C99 are met. -/
example : ∀ c ∈ (⟨5, Gate.new 1 0, [(0, [1, 2]), (1, [3, 4])]⟩ : Columns ℚ).columns, 2 ≤ c.2.length := by
  decide

end Verif.Driver
