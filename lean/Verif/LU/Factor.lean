import Verif.LU.Memory
import Mathlib.Algebra.BigOperators.Fin
import Mathlib.Algebra.Field.Basic
import Mathlib.Tactic.Ring

/-! # `factorize` computes the Doolittle recursion (helper lemmas) -/

namespace Verif.LU

open Verif.Res Finset

variable {K : Type _} [Field K]

/-- Combined Doolittle factors of `A`: below the diagonal L (unit diagonal implied),
on and above it U. -/
def lu (A : Nat → Nat → K) (r c : Nat) : K :=
  if _h : c < r then
    (A r c - ∑ k : Fin c, lu A r k * lu A k c) / lu A c c
  else
    A r c - ∑ k : Fin r, lu A r k * lu A k c
termination_by r + c
decreasing_by
  all_goals (try have := k.isLt)
  all_goals omega

theorem lu_lower (A : Nat → Nat → K) {r c : Nat} (h : c < r) :
    lu A r c = (A r c - ∑ k ∈ range c, lu A r k * lu A k c) / lu A c c := by
  rw [lu, dif_pos h, Finset.sum_range]

theorem lu_upper (A : Nat → Nat → K) {r c : Nat} (h : r ≤ c) :
    lu A r c = A r c - ∑ k ∈ range r, lu A r k * lu A k c := by
  rw [lu, dif_neg (by omega), Finset.sum_range]

/-- `A` vanishes outside the envelope. -/
def InEnv (E : Sten) (A : Nat → Nat → K) : Prop :=
  (∀ r c, r < E.n → c < r → c < E.p r → A r c = 0)
  ∧ ∀ r c, c < E.n → r ≤ c → r < E.q c → A r c = 0

variable {E : Sten} {A : Nat → Nat → K}

theorem lu_zero_L (hA : InEnv E A) {r : Nat} (hr : r < E.n) :
    ∀ c, c < E.p r → lu A r c = 0 := by
  intro c
  induction c using Nat.strong_induction_on with
  | _ c ih =>
    intro hc
    have hcr : c < r := lt_of_lt_of_le hc (E.p_le r hr)
    rw [lu_lower A hcr, hA.1 r c hr hcr hc, Finset.sum_eq_zero]
    · simp
    · intro k hk
      have := mem_range.1 hk
      rw [ih k this (by omega), zero_mul]

theorem lu_zero_U (hA : InEnv E A) {c : Nat} (hc : c < E.n) :
    ∀ r, r < E.q c → lu A r c = 0 := by
  intro r
  induction r using Nat.strong_induction_on with
  | _ r ih =>
    intro hr
    have hcr : r < c := lt_of_lt_of_le hr (E.q_le c hc)
    rw [lu_upper A hcr.le, hA.2 r c hc hcr.le hr, Finset.sum_eq_zero]
    · simp
    · intro k hk
      have := mem_range.1 hk
      rw [ih k this (by omega), mul_zero]

/-- The terms skipped by starting the inner loop at `max (p r) (q c)` are zero. -/
theorem sum_skip (hA : InEnv E A) {r c m : Nat} (hr : r < E.n) (hc : c < E.n)
    (hm : m ≤ max (E.p r) (E.q c)) :
    ∑ k ∈ range m, lu A r k * lu A k c = 0 := by
  apply Finset.sum_eq_zero
  intro k hk
  have hk := mem_range.1 hk
  rcases lt_or_ge k (E.p r) with h | h
  · rw [lu_zero_L hA hr k h, zero_mul]
  · have hq : k < E.q c := by
      rcases le_total (E.p r) (E.q c) with h1 | h1
      · rw [max_eq_right h1] at hm; omega
      · rw [max_eq_left h1] at hm; omega
    rw [lu_zero_U hA hc k hq, mul_zero]

variable [DecidableEq K]

/-- Failure condition: division by a zero pivot. -/
def PivFail (E : Sten) (A : Nat → Nat → K) (e : Fault) : Prop :=
  e = .divZero ∧ ∃ c, c < E.n ∧ lu A c c = 0

theorem factorL_post (hA : InEnv E A) {st : Fact K} {M : Nat → Nat → K} (h : Rep E true M st)
    {i c : Nat} (hi : i < E.n) (hc : c < i) (hp : E.p i ≤ c)
    (hrow : ∀ k, k < c → E.p i ≤ k → M i k = lu A i k)
    (hcol : ∀ k, k ≤ c → E.q c ≤ k → M k c = lu A k c)
    (hv : M i c = A i c) :
    Post (factorL i c st) (fun st' => Rep E true (upd M i c (lu A i c)) st' ∧ lu A c c ≠ 0)
      (PivFail E A) := by
  have hcn : c < E.n := by omega
  have hqc := E.q_le c hcn
  unfold factorL
  rw [h.toShape.maxpq hi hcn]
  simp only [bind_ok]
  refine Post.bind (Q := fun st' => Rep E true
      (upd M i c (A i c - ∑ k ∈ range c, lu A i k * lu A k c)) st') ?_ ?_
  · refine loop_post (fun j st' => Rep E true
      (upd M i c (A i c - ∑ k ∈ range j, lu A i k * lu A k c)) st') (by omega) ?_ ?_
    · rw [sum_skip hA hi hcn (le_refl _), sub_zero, ← hv]
      refine h.congr ?_
      intro r' c' _ _ _
      unfold upd; split
      · rename_i heq; rw [heq.1, heq.2]
      · rfl
    · intro j st' hj1 hj2 hR
      rw [hR.rdL hi hc hp, hR.rdL hi (by omega) (by omega), hR.rdU hcn (by omega) (by omega)]
      simp only [bind_ok, upd_same]
      obtain ⟨st'', e1, e2⟩ := hR.wrL hi hc hp
        (A i c - ∑ k ∈ range j, lu A i k * lu A k c
          - upd M i c (A i c - ∑ k ∈ range j, lu A i k * lu A k c) i j
            * upd M i c (A i c - ∑ k ∈ range j, lu A i k * lu A k c) j c)
      refine Post.of_ok e1 ?_
      rw [upd_upd] at e2
      rw [upd_ne _ _ (by omega), upd_ne _ _ (by omega), hrow j (by omega) (by omega),
        hcol j (by omega) (by omega)] at e2
      rw [sum_range_succ, ← sub_sub]
      exact e2
  · intro st' hR
    rw [hR.rdL hi hc hp, hR.rdU hcn (le_refl _) hqc]
    simp only [bind_ok, upd_same]
    rw [upd_ne _ _ (by omega), hcol c (le_refl _) hqc]
    unfold Res.div
    split
    · rename_i h0
      exact ⟨rfl, c, hcn, h0⟩
    · rename_i hne
      simp only [bind_ok]
      rw [← lu_lower A hc]
      obtain ⟨st'', e1, e2⟩ := hR.wrL hi hc hp (lu A i c)
      rw [upd_upd] at e2
      exact Post.of_ok e1 ⟨e2, hne⟩

omit [DecidableEq K] in
theorem factorU_post (hA : InEnv E A) {st : Fact K} {M : Nat → Nat → K} (h : Rep E true M st)
    {i r : Nat} (hi : i < E.n) (hr : r < i) (hq : E.q i ≤ r)
    (hrow : ∀ k, k < r → E.p r ≤ k → M r k = lu A r k)
    (hcol : ∀ k, k < r → E.q i ≤ k → M k i = lu A k i)
    (hv : M r i = A r i) :
    Post (factorU i r st) (fun st' => Rep E true (upd M r i (lu A r i)) st')
      (fun _ => False) := by
  have hrn : r < E.n := by omega
  have hpr := E.p_le r hrn
  unfold factorU
  rw [h.toShape.maxpq hrn hi]
  simp only [bind_ok]
  rw [lu_upper A hr.le]
  refine loop_post (fun j st' => Rep E true
      (upd M r i (A r i - ∑ k ∈ range j, lu A r k * lu A k i)) st') (by omega) ?_ ?_
  · rw [sum_skip hA hrn hi (le_refl _), sub_zero, ← hv]
    refine h.congr ?_
    intro r' c' _ _ _
    unfold upd; split
    · rename_i heq; rw [heq.1, heq.2]
    · rfl
  · intro j st' hj1 hj2 hR
    rw [hR.rdU hi hr.le hq, hR.rdL hrn (by omega) (by omega), hR.rdU hi (by omega) (by omega)]
    simp only [bind_ok, upd_same]
    obtain ⟨st'', e1, e2⟩ := hR.wrU hi hr.le hq
      (A r i - ∑ k ∈ range j, lu A r k * lu A k i
        - upd M r i (A r i - ∑ k ∈ range j, lu A r k * lu A k i) r j
          * upd M r i (A r i - ∑ k ∈ range j, lu A r k * lu A k i) j i)
    refine Post.of_ok e1 ?_
    rw [upd_upd] at e2
    rw [upd_ne _ _ (by omega), upd_ne _ _ (by omega), hrow j (by omega) (by omega),
      hcol j (by omega) (by omega)] at e2
    rw [sum_range_succ, ← sub_sub]
    exact e2

omit [DecidableEq K] in
theorem factorD_post (hA : InEnv E A) {st : Fact K} {M : Nat → Nat → K} (h : Rep E true M st)
    {i : Nat} (hi : i < E.n)
    (hrow : ∀ k, k < i → E.p i ≤ k → M i k = lu A i k)
    (hcol : ∀ k, k < i → E.q i ≤ k → M k i = lu A k i)
    (hv : M i i = A i i) :
    Post (factorD i st) (fun st' => Rep E true (upd M i i (lu A i i)) st')
      (fun _ => False) := by
  have hpr := E.p_le i hi
  have hqr := E.q_le i hi
  unfold factorD
  rw [h.toShape.maxpq hi hi]
  simp only [bind_ok]
  rw [lu_upper A (le_refl i)]
  refine loop_post (fun j st' => Rep E true
      (upd M i i (A i i - ∑ k ∈ range j, lu A i k * lu A k i)) st') (by omega) ?_ ?_
  · rw [sum_skip hA hi hi (le_refl _), sub_zero, ← hv]
    refine h.congr ?_
    intro r' c' _ _ _
    unfold upd; split
    · rename_i heq; rw [heq.1, heq.2]
    · rfl
  · intro j st' hj1 hj2 hR
    rw [hR.rdU hi (le_refl _) hqr, hR.rdL hi (by omega) (by omega),
      hR.rdU hi (by omega) (by omega)]
    simp only [bind_ok, upd_same]
    obtain ⟨st'', e1, e2⟩ := hR.wrU hi (le_refl _) hqr
      (A i i - ∑ k ∈ range j, lu A i k * lu A k i
        - upd M i i (A i i - ∑ k ∈ range j, lu A i k * lu A k i) i j
          * upd M i i (A i i - ∑ k ∈ range j, lu A i k * lu A k i) j i)
    refine Post.of_ok e1 ?_
    rw [upd_upd] at e2
    rw [upd_ne _ _ (by omega), upd_ne _ _ (by omega), hrow j (by omega) (by omega),
      hcol j (by omega) (by omega)] at e2
    rw [sum_range_succ, ← sub_sub]
    exact e2

/-- Progress of the factorization: which positions already hold the factors. -/
def stage (A : Nat → Nat → K) (i cc rr : Nat) (r c : Nat) : K :=
  if (r < i ∧ c < i) ∨ (r = i ∧ c < cc) ∨ (c = i ∧ r < rr) then lu A r c else A r c

theorem factorStep_post (hA : InEnv E A) {st : Fact K} {i : Nat} (hi : i < E.n)
    (h : Rep E true (stage A i 0 0) st) :
    Post (factorStep i st) (fun st' => Rep E true (stage A (i + 1) 0 0) st'
      ∧ ∀ c, c < i → E.p i ≤ c → lu A c c ≠ 0) (PivFail E A) := by
  have hpi := E.p_le i hi
  have hqi := E.q_le i hi
  unfold factorStep
  rw [h.toShape.raw_p hi]
  simp only [bind_ok]
  refine Post.bind (Q := fun st' => Rep E true (stage A i i 0) st'
    ∧ ∀ c, c < i → E.p i ≤ c → lu A c c ≠ 0) ?_ ?_
  · refine loop_post (fun cc st' => Rep E true (stage A i cc 0) st'
      ∧ ∀ c, c < cc → E.p i ≤ c → lu A c c ≠ 0) hpi ?_ ?_
    · refine ⟨h.congr ?_, fun c h1 h2 => by omega⟩
      intro r c hr hc henv
      unfold stage
      rcases eq_or_ne r i with rfl | hne <;> split <;> split <;> first | rfl | omega
    · rintro c st' h1 h2 ⟨hR, hpiv⟩
      refine (factorL_post hA hR hi h2 h1 ?_ ?_ ?_).mono ?_ (fun _ h => h)
      · intro k hk _; unfold stage; rw [if_pos (by omega)]
      · intro k hk _; unfold stage; rw [if_pos (by omega)]
      · unfold stage; rw [if_neg (by omega)]
      · rintro st'' ⟨hR', hne⟩
        refine ⟨hR'.congr ?_, fun c' hc1 hc2 => by
          rcases Nat.lt_succ_iff_lt_or_eq.1 hc1 with h | rfl
          · exact hpiv c' h hc2
          · exact hne⟩
        intro r' c' _ _ _
        unfold upd stage
        by_cases e : r' = i ∧ c' = c
        · obtain ⟨rfl, rfl⟩ := e
          rw [if_pos (by omega), if_pos ⟨rfl, rfl⟩]
        · rw [if_neg e]
          split <;> split <;> first | rfl | omega
  · rintro st1 ⟨h1, hpiv⟩
    rw [h1.toShape.raw_q hi]
    simp only [bind_ok]
    refine Post.bind (Q := Rep E true (stage A i i i)) ?_ ?_
    · refine loop_post (fun r st' => Rep E true (stage A i i r) st') hqi ?_ ?_
      · refine h1.congr ?_
        intro r c hr hc henv
        unfold stage
        rcases eq_or_ne c i with rfl | hne <;> split <;> split <;> first | rfl | omega
      · intro r st' hr1 hr2 hR
        refine (factorU_post hA hR hi hr2 hr1 ?_ ?_ ?_).mono ?_ (fun _ h => h.elim)
        · intro k hk _; unfold stage; rw [if_pos (by omega)]
        · intro k hk _; unfold stage; rw [if_pos (by omega)]
        · unfold stage; rw [if_neg (by omega)]
        · intro st'' hR'
          refine hR'.congr ?_
          intro r' c' _ _ _
          unfold upd stage
          by_cases e : r' = r ∧ c' = i
          · obtain ⟨rfl, rfl⟩ := e
            rw [if_pos (by omega), if_pos ⟨rfl, rfl⟩]
          · rw [if_neg e]
            split <;> split <;> first | rfl | omega
    · intro st2 h2
      refine (factorD_post hA h2 hi ?_ ?_ ?_).mono ?_ (fun _ h => h.elim)
      · intro k hk _; unfold stage; rw [if_pos (by omega)]
      · intro k hk _; unfold stage; rw [if_pos (by omega)]
      · unfold stage; rw [if_neg (by omega)]
      · intro st'' hR'
        refine ⟨hR'.congr ?_, hpiv⟩
        intro r' c' _ _ _
        unfold upd stage
        by_cases e : r' = i ∧ c' = i
        · obtain ⟨rfl, rfl⟩ := e
          rw [if_pos (by omega), if_pos ⟨rfl, rfl⟩]
        · rw [if_neg e]
          split <;> split <;> first | rfl | omega

/-- `factorize` either stores the Doolittle factors or divides by a zero pivot. -/
theorem factorize_post (hA : InEnv E A) {st : Fact K} (h : Rep E false A st) :
    Post (factorize st) (fun st' => Rep E true (lu A) st'
      ∧ ∀ r c, r < E.n → c < r → E.p r ≤ c → lu A c c ≠ 0) (PivFail E A) := by
  unfold factorize
  rw [h.fact]
  simp only [Bool.false_eq_true, if_false]
  rw [h.toShape.len]
  have h0 : Rep E true (stage A 0 0 0) { st with factorized := true } := by
    have h' : Rep E true A { st with factorized := true } :=
      ⟨⟨h.p, h.q, h.s, h.al, h.au, h.l, h.u⟩, rfl, h.L, h.U⟩
    refine h'.congr ?_
    intro r c _ _ _; unfold stage; rw [if_neg (by omega)]
  refine (loop_post (fun i st' => Rep E true (stage A i 0 0) st'
    ∧ ∀ r c, r < i → c < r → E.p r ≤ c → lu A c c ≠ 0) (Nat.zero_le _)
    ⟨h0, fun r c h => by omega⟩ ?_).mono ?_ (fun _ h => h)
  · rintro i st' _ hi ⟨hR, hpiv⟩
    refine (factorStep_post hA hi hR).mono (fun st'' h => ⟨h.1, fun r c hr => ?_⟩) (fun _ h => h)
    rcases Nat.lt_succ_iff_lt_or_eq.1 hr with h' | rfl
    · exact hpiv r c h'
    · exact h.2 c
  · rintro st' ⟨hR, hpiv⟩
    refine ⟨hR.congr ?_, hpiv⟩
    intro r c hr hc _
    unfold stage; rw [if_pos (by omega)]

end Verif.LU
