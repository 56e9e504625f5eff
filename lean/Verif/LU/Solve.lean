import Verif.LU.Factor
import Mathlib.Algebra.BigOperators.Intervals

/-! # `solve`, `elementAt` on a factorized object (helper lemmas) -/

namespace Verif.LU

open Verif.Res Finset

section List
variable {α : Type _}

theorem rawSet_map_range (X : Nat → α) {m i : Nat} (h : i < m) (v : α) :
    rawSet ((List.range m).map X) i v
      = .ok ((List.range m).map (fun j => if j = i then v else X j)) := by
  unfold rawSet
  rw [if_pos (by simpa using h)]
  congr 1
  apply List.ext_getElem?
  intro j
  simp only [List.getElem?_set, List.getElem?_map, List.length_map, List.length_range]
  by_cases hj : i = j
  · subst hj; simp [h]
  · rw [if_neg hj]
    by_cases hjm : j < m
    · simp [hjm, Ne.symm hj]
    · simp [hjm]

end List

variable {K : Type _} [Field K]

/-- Forward substitution as a recursion. -/
def fwd (M : Nat → Nat → K) (b : Nat → K) (i : Nat) : K :=
  b i - ∑ k : Fin i, M i k * fwd M b k
termination_by i
decreasing_by exact k.isLt

theorem fwd_eq (M : Nat → Nat → K) (b : Nat → K) (i : Nat) :
    fwd M b i = b i - ∑ k ∈ range i, M i k * fwd M b k := by
  rw [fwd, Finset.sum_range]

/-- Backward substitution as a recursion; `j` counts rows from the end. -/
def bwd (T : Nat → Nat → K) (y : Nat → K) (n : Nat) (j : Nat) : K :=
  (y (n - 1 - j) - ∑ k : Fin j, T (n - 1 - j) (n - 1 - k) * bwd T y n k)
    / T (n - 1 - j) (n - 1 - j)
termination_by j
decreasing_by exact k.isLt

theorem bwd_eq (T : Nat → Nat → K) (y : Nat → K) (n j : Nat) :
    bwd T y n j = (y (n - 1 - j) - ∑ k ∈ range j, T (n - 1 - j) (n - 1 - k) * bwd T y n k)
      / T (n - 1 - j) (n - 1 - j) := by
  rw [bwd, Finset.sum_range]

/-- solution component `i` -/
def bwdAt (T : Nat → Nat → K) (y : Nat → K) (n i : Nat) : K := bwd T y n (n - 1 - i)

theorem bwdAt_eq (T : Nat → Nat → K) (y : Nat → K) {n i : Nat} (hi : i < n) :
    bwdAt T y n i = (y i - ∑ k ∈ Ico (i + 1) n, T i k * bwdAt T y n k) / T i i := by
  unfold bwdAt
  rw [bwd_eq]
  have e : n - 1 - (n - 1 - i) = i := by omega
  rw [e]
  congr 2
  symm
  apply Finset.sum_nbij' (fun k => n - 1 - k) (fun k => n - 1 - k)
  · intro k hk; simp only [mem_Ico, mem_range] at *; omega
  · intro k hk; simp only [mem_Ico, mem_range] at *; omega
  · intro k hk; simp only [mem_Ico] at *; omega
  · intro k hk; simp only [mem_range] at *; omega
  · intro k hk
    simp only [mem_Ico] at hk
    rw [show n - 1 - (n - 1 - k) = k by omega]

variable {E : Sten} {M : Nat → Nat → K} {st : Fact K}

theorem forward_post (h : Rep E true M st) (hz : ∀ r c, r < E.n → c < E.p r → M r c = 0)
    (b : Nat → K) {m : Nat} (hm : E.n ≤ m) :
    forward st ((List.range m).map b)
      = .ok ((List.range m).map (fun i => if i < E.n then fwd M b i else b i)) := by
  have key : Post (forward st ((List.range m).map b))
      (fun x => x = (List.range m).map (fun i => if i < E.n then fwd M b i else b i))
      (fun _ => False) := by
    unfold forward
    rw [h.toShape.len]
    by_cases hn : E.n = 0
    · rw [loop_of_ge (by omega)]
      simp [hn]
    refine loop_post (fun i x => x = (List.range m).map (fun j => if j < i then fwd M b j else b j))
      (by omega) ?_ ?_
    · congr 1; funext j; split
      · rename_i hj
        obtain rfl : j = 0 := by omega
        rw [fwd_eq]; simp
      · rfl
    · intro i x hi1 hi2 hx
      subst hx
      rw [h.toShape.raw_p hi2]
      simp only [bind_ok]
      have hpi := E.p_le i hi2
      refine (loop_post (fun k x => x = (List.range m).map (fun j => if j < i then fwd M b j
        else if j = i then b i - ∑ k ∈ range k, M i k * fwd M b k else b j)) hpi ?_ ?_).mono ?_
        (fun _ h => h)
      · congr 1; funext j; split
        · rfl
        · split
          · rename_i _ e; subst e
            rw [Finset.sum_eq_zero]
            · simp
            · intro k hk
              rw [hz j k hi2 (mem_range.1 hk), zero_mul]
          · rfl
      · intro k x hk1 hk2 hx
        subst hx
        rw [raw_map_range (by omega), h.rdL hi2 hk2 hk1, raw_map_range (by omega)]
        simp only [bind_ok]
        rw [rawSet_map_range _ (by omega)]
        simp only [post_ok]
        congr 1; funext j
        by_cases e : j = i
        · subst e
          simp only [if_true, lt_irrefl, if_false, hk2]
          rw [sum_range_succ, ← sub_sub]
        · simp [e]
      · intro x hx
        rw [hx]
        congr 1; funext j
        by_cases h1 : j < i
        · rw [if_pos h1, if_pos (by omega)]
        · rw [if_neg h1]
          by_cases h2 : j = i
          · subst h2; rw [if_pos rfl, if_pos (by omega), ← fwd_eq]
          · rw [if_neg h2, if_neg (by omega)]
  obtain ⟨a, h1, h2⟩ := post_false_iff.1 key
  rw [h1, h2]

/-- The part of U that back substitution uses. -/
def trunc (E : Sten) (M : Nat → Nat → K) (i k : Nat) : K :=
  if k = i ∨ (k ≤ E.s i ∧ E.q k ≤ i) then M i k else 0

variable [DecidableEq K]

theorem backRow_post (h : Rep E true M st) {i m : Nat} (hi : i < E.n) (hm : E.n ≤ m)
    (X : Nat → K) :
    backRow st i ((List.range m).map X) = if M i i = 0 then .error .divZero else
      .ok ((List.range m).map (fun j => if j = i then
        (X i - ∑ k ∈ Ico (i + 1) E.n, trunc E M i k * X k) / M i i else X j)) := by
  unfold backRow
  have hs := E.s_lt i hi
  have hqi := E.q_le i hi
  rw [h.toShape.raw_s hi]
  simp only [bind_ok]
  have inner : ∀ hi', hi' = max (i + 1) (E.s i + 1) →
      Post (loop (i + 1) (E.s i + 1) (fun k x => do
        let qk ← raw st.q k
        if i ≥ qk then do
          let xi ← raw x i
          let a ← rdU st i k
          let xk ← raw x k
          rawSet x i (xi - a * xk)
        else .ok x) ((List.range m).map X))
      (fun x => x = (List.range m).map (fun j => if j = i then
        X i - ∑ k ∈ Ico (i + 1) hi', trunc E M i k * X k else X j)) (fun _ => False) := by
    intro hi' hhi
    rcases Nat.lt_or_ge (E.s i + 1) (i + 1) with hlt | hge
    · rw [loop_of_ge hlt.le]
      simp only [post_ok]
      congr 1; funext j
      rw [hhi, max_eq_left hlt.le]
      split
      · rename_i e; simp [e]
      · rfl
    · rw [hhi, max_eq_right hge]
      refine loop_post (fun k x => x = (List.range m).map (fun j => if j = i then
        X i - ∑ k ∈ Ico (i + 1) k, trunc E M i k * X k else X j)) hge ?_ ?_
      · congr 1; funext j; split
        · rename_i e; simp [e]
        · rfl
      · intro k x hk1 hk2 hx
        subst hx
        have hkn : k < E.n := by omega
        rw [h.toShape.raw_q hkn]
        simp only [bind_ok]
        split
        · rename_i hq
          rw [raw_map_range (by omega), h.rdU hkn (by omega) hq, raw_map_range (by omega)]
          simp only [bind_ok]
          rw [rawSet_map_range _ (by omega)]
          simp only [post_ok, if_true]
          congr 1; funext j
          split
          · rw [if_neg (by omega), Finset.sum_Ico_succ_top (by omega), ← sub_sub]
            have : trunc E M i k = M i k := by
              unfold trunc; rw [if_pos (.inr ⟨by omega, hq⟩)]
            rw [this]
          · rfl
        · rename_i hq
          simp only [post_ok]
          congr 1; funext j
          split
          · rw [Finset.sum_Ico_succ_top (by omega)]
            have : trunc E M i k = 0 := by
              unfold trunc; rw [if_neg (by omega)]
            rw [this, zero_mul, add_zero]
          · rfl
  obtain ⟨x, hx1, hx2⟩ := post_false_iff.1 (inner _ rfl)
  rw [hx1, hx2]
  simp only [bind_ok]
  rw [raw_map_range (by omega), h.rdU hi (le_refl _) hqi]
  simp only [bind_ok, if_true]
  unfold Res.div
  split
  · rfl
  · simp only [bind_ok]
    rw [rawSet_map_range _ (by omega)]
    congr 2; funext j
    split
    · congr 2
      apply Finset.sum_subset
      · intro k; simp only [mem_Ico]; omega
      · intro k hk1 hk2
        simp only [mem_Ico] at hk1 hk2
        have : trunc E M i k = 0 := by
          unfold trunc; rw [if_neg (by omega)]
        rw [this, zero_mul]
    · rfl

theorem backward_post (h : Rep E true M st) (y : Nat → K) {m : Nat} (hm : E.n ≤ m) :
    Post (backward st ((List.range m).map y))
      (fun x => (∀ i, i < E.n → M i i ≠ 0) ∧ x = (List.range m).map (fun i => if i < E.n then
        bwdAt (trunc E M) y E.n i else y i))
      (fun e => e = .divZero ∧ ∃ i, i < E.n ∧ M i i = 0) := by
  unfold backward
  rw [h.toShape.len]
  refine (loop_post (fun j x => (∀ i, i < E.n → E.n - j ≤ i → M i i ≠ 0) ∧
    x = (List.range m).map (fun i => if i < E.n ∧ E.n - j ≤ i then
        bwdAt (trunc E M) y E.n i else y i)) (Nat.zero_le _) ?_ ?_).mono ?_ (fun _ h => h)
  · refine ⟨fun i h1 h2 => by omega, ?_⟩
    congr 1; funext j
    rw [if_neg (by omega)]
  · rintro j x _ hj ⟨hpiv, rfl⟩
    have hi : E.n - 1 - j < E.n := by omega
    rw [backRow_post h hi hm]
    set i := E.n - 1 - j with hidef
    split
    · rename_i h0
      exact ⟨rfl, i, hi, h0⟩
    · rename_i h0
      refine ⟨?_, ?_⟩
      · intro i' h1 h2
        rcases Nat.lt_or_ge i' (E.n - j) with h3 | h3
        · obtain rfl : i' = i := by omega
          exact h0
        · exact hpiv i' h1 h3
      · congr 1; funext j'
        by_cases e : j' = i
        · subst e
          rw [if_pos rfl, if_neg (by omega), if_pos (by omega), bwdAt_eq _ _ hi]
          have ht : trunc E M i i = M i i := by unfold trunc; rw [if_pos (.inl rfl)]
          rw [ht]
          congr 2
          apply Finset.sum_congr rfl
          intro k hk
          simp only [mem_Ico] at hk
          rw [if_pos (by omega)]
        · rw [if_neg e]
          by_cases h1 : j' < E.n ∧ E.n - j ≤ j'
          · rw [if_pos h1, if_pos (by omega)]
          · rw [if_neg h1, if_neg (by omega)]
  · rintro x ⟨h1, rfl⟩
    refine ⟨fun i hi => h1 i hi (by omega), ?_⟩
    congr 1; funext j
    by_cases hj : j < E.n
    · rw [if_pos hj, if_pos (by omega)]
    · rw [if_neg hj, if_neg (by omega)]

/-! ### elementAt -/

omit [DecidableEq K] in
theorem elementAt_unfactored (h : Rep E false M st) {r c : Nat} (hr : r < E.n) (hc : c < E.n) :
    elementAt st r c = .ok (if (c < r ∧ E.p r ≤ c) ∨ (r ≤ c ∧ E.q c ≤ r) then M r c else 0) := by
  unfold elementAt
  by_cases hrc : r > c
  · rw [if_pos hrc, h.toShape.raw_p hr]
    simp only [bind_ok]
    by_cases hp : E.p r ≤ c
    · rw [if_pos (by simpa using hp), h.fact, if_neg (by simp), if_pos hrc, h.rdL hr hrc hp,
        if_pos (.inl ⟨hrc, hp⟩)]
    · rw [if_neg (by simpa using hp), if_neg (by omega)]
  · rw [if_neg hrc, h.toShape.raw_q hc]
    simp only [bind_ok]
    by_cases hq : E.q c ≤ r
    · rw [if_pos (by simpa using hq), h.fact, if_neg (by simp), if_neg hrc,
        h.rdU hc (by omega) hq, if_pos (.inr ⟨by omega, hq⟩)]
    · rw [if_neg (by simpa using hq), if_neg (by omega)]

/-- unit lower factor -/
def lowerOf (M : Nat → Nat → K) (r k : Nat) : K := if k < r then M r k else if k = r then 1 else 0

/-- upper factor -/
def upperOf (M : Nat → Nat → K) (k c : Nat) : K := if k ≤ c then M k c else 0

omit [DecidableEq K] in
theorem elementAt_factored (h : Rep E true M st)
    (hz : ∀ r c, r < E.n → c < E.p r → M r c = 0)
    (hz' : ∀ r c, c < E.n → r < E.q c → M r c = 0)
    {r c : Nat} (hr : r < E.n) (hc : c < E.n)
    (henv : (c < r ∧ E.p r ≤ c) ∨ (r ≤ c ∧ E.q c ≤ r)) :
    elementAt st r c = .ok (∑ k ∈ range E.n, lowerOf M r k * upperOf M k c) := by
  have hpr := E.p_le r hr
  have hqc := E.q_le c hc
  have hsum : ∑ k ∈ range E.n, lowerOf M r k * upperOf M k c
      = ∑ k ∈ range (min r c + 1), lowerOf M r k * upperOf M k c := by
    symm
    apply Finset.sum_subset
    · intro k; simp only [mem_range]; omega
    · intro k h1 h2
      simp only [mem_range] at h1 h2
      unfold lowerOf upperOf
      by_cases hk : k ≤ c
      · rw [if_neg (by omega : ¬ k < r), if_neg (by omega), zero_mul]
      · rw [if_neg hk, mul_zero]
  have hloop : Post (loop (max (E.p r) (E.q c)) (min r c + 1) (fun k acc => do
        let a ← safeL st r k
        let b ← rdU st k c
        .ok (acc + a * b)) 0)
      (fun v => v = ∑ k ∈ range (min r c + 1), lowerOf M r k * upperOf M k c)
      (fun _ => False) := by
    refine loop_post (fun j v => v = ∑ k ∈ range j, lowerOf M r k * upperOf M k c) (by omega) ?_ ?_
    · symm
      apply Finset.sum_eq_zero
      intro k hk
      have hk := mem_range.1 hk
      rcases lt_or_ge k (E.p r) with h1 | h1
      · unfold lowerOf; rw [if_pos (by omega), hz r k hr h1, zero_mul]
      · have hq : k < E.q c := by omega
        unfold upperOf; rw [if_pos (by omega), hz' k c hc hq, mul_zero]
    · intro j v hj1 hj2 hv
      subst hv
      have hs : safeL st r j = .ok (lowerOf M r j) := by
        unfold safeL lowerOf
        by_cases e : r = j
        · subst e; simp
        · rw [if_neg e, h.rdL hr (by omega) (by omega), if_pos (by omega)]
      rw [hs, h.rdU hc (by omega) (by omega)]
      simp only [bind_ok, post_ok]
      rw [sum_range_succ]
      congr 2
      unfold upperOf; rw [if_pos (by omega)]
  obtain ⟨v, h1, h2⟩ := post_false_iff.1 hloop
  unfold elementAt
  by_cases hrc : r > c
  · rw [if_pos hrc, h.toShape.raw_p hr]
    simp only [bind_ok]
    rw [if_pos (by simp; omega), h.fact, if_pos rfl, h.toShape.maxpq hr hc]
    simp only [bind_ok]
    rw [h1, h2, hsum]
  · rw [if_neg hrc, h.toShape.raw_q hc]
    simp only [bind_ok]
    rw [if_pos (by simp; omega), h.fact, if_pos rfl, h.toShape.maxpq hr hc]
    simp only [bind_ok]
    rw [h1, h2, hsum]

omit [DecidableEq K] in
theorem elementAt_outside {f : Bool} (h : Rep E f M st) {r c : Nat} (hr : r < E.n) (hc : c < E.n)
    (henv : ¬((c < r ∧ E.p r ≤ c) ∨ (r ≤ c ∧ E.q c ≤ r))) : elementAt st r c = .ok 0 := by
  unfold elementAt
  by_cases hrc : r > c
  · rw [if_pos hrc, h.toShape.raw_p hr]
    simp only [bind_ok]
    rw [if_neg (by simp; omega)]
  · rw [if_neg hrc, h.toShape.raw_q hc]
    simp only [bind_ok]
    rw [if_neg (by simp; omega)]

end Verif.LU
