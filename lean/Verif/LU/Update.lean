import Verif.LU.Algebra
import Mathlib.Tactic.LinearCombination

/-! # `solve` and the secant updates on any represented matrix (helper lemmas) -/

namespace Verif.LU

open Verif.Res Finset

variable {K : Type _} [Field K] [DecidableEq K]

/-- `M` vanishes outside the envelope (factors or matrix alike). -/
def Zeros (E : Sten) (M : Nat → Nat → K) : Prop :=
  (∀ r c, r < E.n → c < E.p r → M r c = 0) ∧ ∀ r c, c < E.n → r < E.q c → M r c = 0

omit [DecidableEq K] in
theorem zeros_lu {E : Sten} {A : Nat → Nat → K} (hA : InEnv E A) : Zeros E (lu A) :=
  ⟨fun _ c hr hc => lu_zero_L hA hr c hc, fun r _ hc hr => lu_zero_U hA hc r hr⟩

/-- `st` holds matrix `A`: unfactorized values, or factors whose product is `A`. -/
inductive Holds (E : Sten) (A : Nat → Nat → K) (st : Fact K) : Prop
  | plain (hR : Rep E false A st) (hA : InEnv E A)
  | factors (M : Nat → Nat → K) (hR : Rep E true M st) (hz : Zeros E M)
      (hA : ∀ r c, r < E.n → c < E.n →
        A r c = ∑ k ∈ range E.n, lowerOf M r k * upperOf M k c)

/-- in-envelope test -/
abbrev Env (E : Sten) (r c : Nat) : Prop := (c < r ∧ E.p r ≤ c) ∨ (r ≤ c ∧ E.q c ≤ r)

omit [DecidableEq K] in
theorem prod_outside {E : Sten} {M : Nat → Nat → K} (hz : Zeros E M) {r c : Nat} (hr : r < E.n)
    (hc : c < E.n) (h : ¬ Env E r c) :
    ∑ k ∈ range E.n, lowerOf M r k * upperOf M k c = 0 := by
  apply Finset.sum_eq_zero
  intro k _
  have hp := E.p_le r hr
  have hq := E.q_le c hc
  unfold lowerOf upperOf
  rcases Nat.lt_or_ge c r with h1 | h1
  · by_cases hk : k ≤ c
    · rw [if_pos (by omega), hz.1 r k hr (by omega), zero_mul]
    · rw [if_neg hk, mul_zero]
  · by_cases hk : k ≤ r
    · rw [if_pos (show k ≤ c by omega), hz.2 k c hc (by omega), mul_zero]
    · rw [if_neg (by omega), if_neg (by omega), zero_mul]

omit [DecidableEq K] in
theorem Holds.elementAt {E : Sten} {A : Nat → Nat → K} {st : Fact K} (h : Holds E A st)
    {r c : Nat} (hr : r < E.n) (hc : c < E.n) : elementAt st r c = .ok (A r c) := by
  cases h with
  | plain hR hA =>
    rw [elementAt_unfactored hR hr hc]
    split
    · rfl
    · rename_i henv
      rcases Nat.lt_or_ge c r with h1 | h1
      · rw [hA.1 r c hr h1 (by omega)]
      · rw [hA.2 r c hc h1 (by omega)]
  | factors M hR hz hA =>
    by_cases henv : Env E r c
    · rw [elementAt_factored hR hz.1 hz.2 hr hc henv, ← hA r c hr hc]
    · rw [elementAt_outside hR hr hc henv, hA r c hr hc, prod_outside hz hr hc henv]

/-- Factorizing keeps the matrix. The fault is a division by a zero pivot of `A`. -/
theorem Holds.factorize {E : Sten} {A : Nat → Nat → K} {st : Fact K} (h : Holds E A st) :
    Post (factorize st) (fun st' => ∃ M, Rep E true M st' ∧ Zeros E M
      ∧ (∀ r c, r < E.n → c < E.n →
        A r c = ∑ k ∈ range E.n, lowerOf M r k * upperOf M k c)
      ∧ (st.factorized = false → ∀ r c, r < E.n → c < E.n → M r c = lu A r c))
      (fun e => PivFail E A e ∧ st.factorized = false) := by
  cases h with
  | plain hR hA =>
    refine (factorize_post hA hR).mono ?_ (fun e he => ⟨he, hR.fact⟩)
    rintro st' ⟨hR', hpiv⟩
    refine ⟨lu A, hR', zeros_lu hA, ?_, fun _ _ _ _ _ => rfl⟩
    intro r c hr hc
    rcases Nat.lt_or_ge c r with h1 | h1
    · by_cases hp : E.p r ≤ c
      · exact (lu_prod A hr (fun _ => hpiv r c hr h1 hp)).symm
      · rw [prod_outside (zeros_lu hA) hr hc (by unfold Env; omega), hA.1 r c hr h1 (by omega)]
    · exact (lu_prod A hr (fun h => by omega)).symm
  | factors M hR hz hA =>
    unfold LU.factorize
    rw [hR.fact]
    exact ⟨M, hR, hz, hA, fun h => by cases h⟩

/-- array as a function -/
theorem list_eq_map {α : Type _} (d : α) (l : List α) :
    l = (List.range l.length).map (fun i => l.getD i d) := by
  apply List.ext_getElem?
  intro i
  rw [List.getElem?_map]
  by_cases h : i < l.length
  · simp [h]
  · simp [h]

/-- what `solve` returns -/
def solX (E : Sten) (M : Nat → Nat → K) (b : Nat → K) (i : Nat) : K :=
  bwdAt (trunc E M) (fwd M b) E.n i

omit [DecidableEq K] in
theorem bwd_congr (T : Nat → Nat → K) {y y' : Nat → K} {n : Nat} (h : ∀ i, i < n → y i = y' i) :
    ∀ j, j < n → bwd T y n j = bwd T y' n j := by
  intro j
  induction j using Nat.strong_induction_on with
  | _ j ih =>
    intro hj
    rw [bwd_eq, bwd_eq, h _ (by omega)]
    congr 2
    apply Finset.sum_congr rfl
    intro k hk
    have := mem_range.1 hk
    rw [ih k this (by omega)]

theorem solve_post_factors {E : Sten} {M : Nat → Nat → K} {st : Fact K}
    (hR : Rep E true M st) (hz : Zeros E M) (b : Nat → K) {m : Nat} (hm : E.n ≤ m) :
    Post (forward st ((List.range m).map b) >>= fun x => backward st x)
      (fun x => (∀ i, i < E.n → M i i ≠ 0) ∧
        x = (List.range m).map (fun i => if i < E.n then solX E M b i else b i))
      (fun e => e = .divZero ∧ ∃ i, i < E.n ∧ M i i = 0) := by
  rw [forward_post hR hz.1 b hm]
  simp only [bind_ok]
  refine (backward_post hR _ hm).mono ?_ (fun _ h => h)
  rintro x ⟨h1, h2⟩
  refine ⟨h1, ?_⟩
  rw [h2]
  congr 1; funext i
  split
  · rename_i hi
    unfold solX bwdAt
    apply bwd_congr
    · intro k hk; rw [if_pos hk]
    · omega
  · rfl

omit [DecidableEq K] in
/-- The result solves the system with the factors that `solve` uses. -/
theorem solX_solves {E : Sten} {M : Nat → Nat → K} (hp : ∀ i, i < E.n → M i i ≠ 0) (b : Nat → K)
    {i : Nat} (hi : i < E.n) :
    ∑ k ∈ range E.n, lowerOf M i k * (∑ c ∈ range E.n, truncU E M k c * solX E M b c) = b i := by
  rw [← fwd_solves M b hi]
  apply Finset.sum_congr rfl
  intro k hk
  have hk := mem_range.1 hk
  congr 1
  rw [truncU_sum]
  unfold solX
  apply bwd_solves _ _ hk
  unfold trunc
  rw [if_pos (.inl rfl)]
  exact hp k hk

/-- Fill condition on the envelope. -/
def EFilled (E : Sten) : Prop := ∀ r c, r < c → c < E.n → E.q c ≤ r → c ≤ E.s r

omit [DecidableEq K] in
theorem truncU_eq {E : Sten} {M : Nat → Nat → K} (hf : EFilled E) (hz : Zeros E M) {k c : Nat}
    (hc : c < E.n) : truncU E M k c = upperOf M k c := by
  unfold truncU upperOf trunc
  split
  · rename_i hle
    split
    · rfl
    · rename_i hn
      rw [hz.2 k c hc]
      rw [not_or, not_and_or] at hn
      by_contra hq
      rw [not_lt] at hq
      have := hf k c (by omega) hc hq
      omega
  · rfl

omit [DecidableEq K] in
theorem sum_swap (n : Nat) (L U : Nat → Nat → K) (x : Nat → K) (i : Nat) :
    ∑ c ∈ range n, (∑ k ∈ range n, L i k * U k c) * x c
      = ∑ k ∈ range n, L i k * ∑ c ∈ range n, U k c * x c := by
  simp only [Finset.sum_mul, Finset.mul_sum]
  rw [Finset.sum_comm]
  simp only [mul_assoc]

/-! ### Hart update -/

/-- positions of U touched by the secant updates in row `i` -/
abbrev Pat (E : Sten) (i k : Nat) : Prop := k ≤ E.s i ∧ E.q k ≤ i

/-- value over the pattern -/
def onPat (E : Sten) (i : Nat) (g : Nat → K) (k : Nat) : K := if Pat E i k then g k else 0

/-- A loop over `[i, s i]` with the test `i ≥ m_q[k]` accumulates over the pattern. -/
theorem patLoop {E : Sten} {σ : Type} (i : Nat) (hi : i < E.n)
    (st : Nat → σ → Res σ) (P : Nat → σ → Prop) {F : Fault → Prop} (s0 : σ)
    (h0 : P i s0)
    (hin : ∀ k s, i ≤ k → k < E.n → Pat E i k → P k s → Post (st k s) (P (k + 1)) F)
    (hout : ∀ k s, i ≤ k → k < E.n → ¬ Pat E i k → P k s → P (k + 1) s)
    (body : Nat → σ → Res σ)
    (hb1 : ∀ k s, i ≤ k → k < E.n → E.q k ≤ i → P k s → body k s = st k s)
    (hb2 : ∀ k s, i ≤ k → k < E.n → ¬ E.q k ≤ i → P k s → body k s = .ok s) :
    Post (loop i (E.s i + 1) body s0) (fun s => P E.n s) F := by
  have hsi := E.s_lt i hi
  have ext : ∀ s j, i ≤ j → E.s i < j → j ≤ E.n → P j s → P E.n s := by
    intro s j hj hsj hjn hP
    induction hd : E.n - j generalizing j with
    | zero => rwa [show E.n = j by omega]
    | succ d ih =>
      exact ih (j + 1) (by omega) (by omega) (by omega)
        (hout j s hj (by omega) (by unfold Pat; omega) hP) (by omega)
  rcases Nat.lt_or_ge (E.s i) i with hlt | hge
  · rw [loop_of_ge (by omega)]
    exact ext s0 i (le_refl _) hlt hi.le h0
  · refine (loop_post P (by omega) h0 ?_).mono
      (fun s hs => ext s (E.s i + 1) (by omega) (by omega) (by omega) hs) (fun _ h => h)
    intro k s hk1 hk2 hP
    by_cases hq : E.q k ≤ i
    · rw [hb1 k s hk1 (by omega) hq hP]
      exact hin k s hk1 (by omega) ⟨by omega, hq⟩ hP
    · rw [hb2 k s hk1 (by omega) hq hP]
      exact hout k s hk1 (by omega) (by unfold Pat; omega) hP

variable {E : Sten} {M : Nat → Nat → K} {st : Fact K}

/-- residual of row `i` before the update -/
def hBeta (E : Sten) (M : Nat → Nat → K) (σ y ρ : Nat → K) (i : Nat) : K :=
  y i - ∑ k ∈ range i, M i k * ρ k - ∑ k ∈ Ico i E.n, onPat E i (fun k => M i k * σ k) k

/-- denominator of row `i` -/
def hAA (E : Sten) (σ ρ : Nat → K) (i : Nat) : K :=
  ∑ k ∈ Ico (E.p i) i, ρ k * ρ k + ∑ k ∈ Ico i E.n, onPat E i (fun k => σ k * σ k) k

omit [DecidableEq K] in
theorem hartBeta_eq (hR : Rep E true M st) (hz : Zeros E M) {σ y ρ : Nat → K} {i ms my : Nat}
    (hi : i < E.n) (hs : E.n ≤ ms) (hy : E.n ≤ my) :
    hartBeta st ((List.range ms).map σ) ((List.range my).map y) ((List.range i).map ρ) i
      = .ok (hBeta E M σ y ρ i, hAA E σ ρ i) := by
  have hp := E.p_le i hi
  have key : Post (hartBeta st ((List.range ms).map σ) ((List.range my).map y)
      ((List.range i).map ρ) i) (fun r => r = (hBeta E M σ y ρ i, hAA E σ ρ i))
      (fun _ => False) := by
    unfold hartBeta
    rw [raw_map_range (by omega), hR.toShape.raw_p hi]
    simp only [bind_ok]
    refine Post.bind (Q := fun ba => ba = (y i - ∑ k ∈ range i, M i k * ρ k,
      ∑ k ∈ Ico (E.p i) i, ρ k * ρ k)) ?_ ?_
    · refine loop_post (fun j ba => ba = (y i - ∑ k ∈ range j, M i k * ρ k,
        ∑ k ∈ Ico (E.p i) j, ρ k * ρ k)) hp ?_ ?_
      · rw [Finset.sum_eq_zero (s := range (E.p i))]
        · simp
        · intro k hk; rw [hz.1 i k hi (mem_range.1 hk), zero_mul]
      · rintro k ba hk1 hk2 rfl
        rw [raw_map_range hk2, hR.rdL hi hk2 hk1]
        simp only [bind_ok, post_ok]
        rw [sum_range_succ, Finset.sum_Ico_succ_top hk1, ← sub_sub]
    · rintro ba rfl
      rw [hR.toShape.raw_s hi]
      simp only [bind_ok]
      refine patLoop i hi (fun k ba => .ok (ba.1 - M i k * σ k, ba.2 + σ k * σ k))
        (fun j ba => ba = (y i - ∑ k ∈ range i, M i k * ρ k
            - ∑ k ∈ Ico i j, onPat E i (fun k => M i k * σ k) k,
          ∑ k ∈ Ico (E.p i) i, ρ k * ρ k + ∑ k ∈ Ico i j, onPat E i (fun k => σ k * σ k) k))
        _ ?_ ?_ ?_ _ ?_ ?_
      · simp
      · rintro k ba hk1 hk2 hpat rfl
        simp only [post_ok]
        rw [Finset.sum_Ico_succ_top hk1, Finset.sum_Ico_succ_top hk1]
        simp only [onPat, if_pos hpat]
        rw [← sub_sub, ← add_assoc]
      · rintro k ba hk1 hk2 hpat rfl
        rw [Finset.sum_Ico_succ_top hk1, Finset.sum_Ico_succ_top hk1]
        simp only [onPat, if_neg hpat, add_zero]
      · rintro k ba hik hk hq hP
        rw [hR.toShape.raw_q hk]
        simp only [bind_ok, ge_iff_le, if_pos hq]
        rw [raw_map_range (by omega), hR.rdU hk hik hq]; rfl
      · rintro k ba hik hk hq hP
        rw [hR.toShape.raw_q hk]
        simp only [bind_ok, ge_iff_le, if_neg hq]
  obtain ⟨a, h1, h2⟩ := post_false_iff.1 key
  rw [h1, h2]

/-- Row `i` after the update with factor `f`. -/
def hNew (E : Sten) (M : Nat → Nat → K) (σ ρ : Nat → K) (i : Nat) (f : K) (r c : Nat) : K :=
  if r = i then
    if c < i then (if E.p i ≤ c then M i c + ρ c * f else M i c)
    else (if Pat E i c then M i c + σ c * f else M i c)
  else M r c

/-- Invariant after processing rows `< i`: factors, products `ρ = U s` so far, and the secant
equations of the finished rows. -/
structure HInv (E : Sten) (σ y : Nat → K) (i : Nat) (a : Fact K × List K) : Prop where
  ex : ∃ M ρ, Rep E true M a.1 ∧ Zeros E M ∧ a.2 = (List.range i).map ρ
    ∧ (∀ k, k < i → ρ k = ∑ c ∈ Ico k E.n, onPat E k (fun c => M k c * σ c) c)
    ∧ ∀ k, k < i → ∑ m ∈ range k, M k m * ρ m + ρ k = y k

theorem hartRow_post {σ y : Nat → K} {ms my : Nat} (hs : E.n ≤ ms) (hy : E.n ≤ my)
    {i : Nat} (hi : i < E.n) {a : Fact K × List K} (h : HInv E σ y i a) (F : Fault → Prop)
    (hF : ∀ ρ, hAA E σ ρ i = 0 → F .divZero) :
    Post (hartRow ((List.range ms).map σ) ((List.range my).map y) i a)
      (HInv E σ y (i + 1)) F := by
  obtain ⟨st, rs⟩ := a
  obtain ⟨M, ρ, hR, hz, hrs, hρ, hsec⟩ := h.ex
  simp only at hR hrs
  subst hrs
  have hp := E.p_le i hi
  unfold hartRow
  simp only
  rw [hartBeta_eq hR hz hi hs hy]
  simp only [bind_ok]
  rw [hR.toShape.raw_s hi]
  simp only [bind_ok]
  have hext : ∀ v : K, (List.range i).map ρ ++ [v]
      = (List.range (i + 1)).map (fun k => if k = i then v else ρ k) := by
    intro v
    rw [List.range_succ, List.map_append]
    congr 1
    · apply List.map_congr_left
      intro k hk
      have := List.mem_range.1 hk
      rw [if_neg (by omega)]
    · simp
  split
  · rename_i hb
    refine Post.bind (Q := fun ri => ri = ∑ c ∈ Ico i E.n, onPat E i (fun c => M i c * σ c) c)
      ?_ ?_
    · refine patLoop i hi (fun k ri => .ok (ri + M i k * σ k))
        (fun j ri => ri = ∑ c ∈ Ico i j, onPat E i (fun c => M i c * σ c) c) _ ?_ ?_ ?_ _ ?_ ?_
      · simp
      · rintro k ri hk1 hk2 hpat rfl
        simp only [post_ok]
        rw [Finset.sum_Ico_succ_top hk1]
        simp only [onPat, if_pos hpat]
      · rintro k ri hk1 hk2 hpat rfl
        rw [Finset.sum_Ico_succ_top hk1]
        simp only [onPat, if_neg hpat, add_zero]
      · rintro k ri hik hk hq _
        rw [hR.toShape.raw_q hk]
        simp only [bind_ok, ge_iff_le, if_pos hq]
        rw [hR.rdU hk hik hq, raw_map_range (by omega)]; rfl
      · rintro k ri hik hk hq _
        rw [hR.toShape.raw_q hk]
        simp only [bind_ok, ge_iff_le, if_neg hq]
    · rintro ri rfl
      simp only [post_ok]
      refine ⟨⟨M, _, hR, hz, hext _, ?_, ?_⟩⟩
      · intro k hk
        by_cases e : k = i
        · subst e; rw [if_pos rfl]
        · rw [if_neg e]; exact hρ k (by omega)
      · intro k hk
        have hsum : ∀ k, k ≤ i → ∑ m ∈ range k, M k m * (if m = i then
            ∑ c ∈ Ico i E.n, onPat E i (fun c => M i c * σ c) c else ρ m)
            = ∑ m ∈ range k, M k m * ρ m := by
          intro k hk
          apply Finset.sum_congr rfl
          intro m hm
          have := mem_range.1 hm
          rw [if_neg (by omega)]
        rw [hsum k (by omega)]
        by_cases e : k = i
        · subst e
          rw [if_pos rfl]
          unfold hBeta at hb
          have := sub_eq_zero.1 hb
          rw [← this]; ring
        · rw [if_neg e]; exact hsec k (by omega)
  · rename_i hb
    unfold Res.div
    split
    · rename_i haa
      exact hF ρ haa
    · rename_i haa
      simp only [bind_ok]
      set f := hBeta E M σ y ρ i / hAA E σ ρ i with hf
      rw [hR.toShape.raw_p hi]
      simp only [bind_ok]
      refine Post.bind (Q := fun st' => Rep E true
        (fun r c => if r = i ∧ E.p i ≤ c ∧ c < i then M r c + ρ c * f else M r c) st') ?_ ?_
      · refine loop_post (fun j st' => Rep E true
          (fun r c => if r = i ∧ E.p i ≤ c ∧ c < j then M r c + ρ c * f else M r c) st') hp ?_ ?_
        · refine hR.congr ?_
          intro r c _ _ _
          rw [if_neg (by omega)]
        · intro k st' hk1 hk2 hR'
          rw [hR'.rdL hi hk2 hk1, raw_map_range hk2]
          simp only [bind_ok]
          rw [if_neg (by omega)]
          obtain ⟨st'', e1, e2⟩ := hR'.wrL hi hk2 hk1 (M i k + ρ k * f)
          refine Post.of_ok e1 (e2.congr ?_)
          intro r c _ _ _
          unfold upd
          by_cases e : r = i ∧ c = k
          · obtain ⟨rfl, rfl⟩ := e
            rw [if_pos (by omega), if_pos ⟨rfl, rfl⟩]
          · rw [if_neg e]
            simp only
            split <;> split <;> first | rfl | omega
      · intro st1 hR1
        refine Post.bind (Q := fun sr => Rep E true (hNew E M σ ρ i f) sr.1
          ∧ sr.2 = ∑ c ∈ Ico i E.n, onPat E i (fun c => (M i c + σ c * f) * σ c) c) ?_ ?_
        · let MM : Nat → Nat → Nat → K := fun j r c =>
            if r = i ∧ i ≤ c ∧ c < j ∧ Pat E i c then M r c + σ c * f
            else if r = i ∧ E.p i ≤ c ∧ c < i then M r c + ρ c * f else M r c
          refine (patLoop (E := E) i hi (fun k (sr : Fact K × K) => do
              let st ← wrU sr.1 i k (M i k + σ k * f)
              let a' ← rdU st i k
              .ok (st, sr.2 + a' * σ k))
            (fun j (sr : Fact K × K) => Rep E true (MM j) sr.1
              ∧ sr.2 = ∑ c ∈ Ico i j, onPat E i (fun c => (M i c + σ c * f) * σ c) c)
            _ ?_ ?_ ?_ _ ?_ ?_).mono ?_ (fun _ h => h)
          · refine ⟨hR1.congr ?_, by simp⟩
            intro r c _ _ _
            simp only [MM]
            rw [if_neg (by omega)]
          · rintro k ⟨st', v⟩ hk1 hk2 hpat ⟨hR', hv⟩
            simp only at hR' hv
            subst hv
            obtain ⟨st'', e1, e2⟩ := hR'.wrU hk2 hk1 hpat.2 (M i k + σ k * f)
            simp only
            rw [e1]
            simp only [bind_ok]
            rw [e2.rdU hk2 hk1 hpat.2, upd_same]
            simp only [bind_ok, post_ok]
            refine ⟨e2.congr ?_, ?_⟩
            · intro r c _ _ _
              unfold upd
              simp only [MM]
              by_cases e : r = i ∧ c = k
              · obtain ⟨rfl, rfl⟩ := e
                rw [if_pos ⟨rfl, hk1, by omega, hpat⟩, if_pos ⟨rfl, rfl⟩]
              · rw [if_neg e]
                by_cases e1 : r = i ∧ i ≤ c ∧ c < k ∧ Pat E i c
                · rw [if_pos e1, if_pos ⟨e1.1, e1.2.1, by omega, e1.2.2.2⟩]
                · rw [if_neg e1, if_neg (fun h => e1 ⟨h.1, h.2.1, by omega, h.2.2.2⟩)]
            · rw [Finset.sum_Ico_succ_top hk1]
              simp only [onPat, if_pos hpat]
          · rintro k ⟨st', v⟩ hk1 hk2 hpat ⟨hR', hv⟩
            simp only at hR' hv ⊢
            refine ⟨hR'.congr ?_, ?_⟩
            · intro r c _ _ _
              simp only [MM]
              by_cases e1 : r = i ∧ i ≤ c ∧ c < k ∧ Pat E i c
              · rw [if_pos e1, if_pos ⟨e1.1, e1.2.1, by omega, e1.2.2.2⟩]
              · rw [if_neg e1, if_neg (fun h => e1 ⟨h.1, h.2.1, by
                  by_contra hck
                  obtain rfl : c = k := by omega
                  exact hpat h.2.2.2, h.2.2.2⟩)]
            · rw [hv, Finset.sum_Ico_succ_top hk1]
              simp only [onPat, if_neg hpat, add_zero]
          · rintro k ⟨st', v⟩ hik hk hq ⟨hR', hv⟩
            simp only at hR' hv ⊢
            rw [hR'.toShape.raw_q hk]
            simp only [bind_ok, ge_iff_le, if_pos hq]
            rw [raw_map_range (by omega), hR'.rdU hk hik hq]
            simp only [bind_ok]
            have : MM k i k = M i k := by
              simp only [MM]
              rw [if_neg (by omega), if_neg (by omega)]
            rw [this]
          · rintro k ⟨st', v⟩ hik hk hq ⟨hR', hv⟩
            simp only at hR' hv ⊢
            rw [hR'.toShape.raw_q hk]
            simp only [bind_ok, ge_iff_le, if_neg hq]
          · rintro ⟨st', v⟩ ⟨hR', hv⟩
            refine ⟨hR'.congr ?_, hv⟩
            intro r c _ hc _
            simp only [MM, hNew]
            by_cases hr : r = i
            · subst hr
              by_cases hci : c < r
              · have hnot : ¬(r ≤ c ∧ c < E.n ∧ Pat E r c) := by omega
                simp only [if_true, hci, hnot, if_false, true_and, and_true]
              · simp only [if_true, hci, true_and, and_false, if_false]
                by_cases hpt : Pat E r c
                · rw [if_pos hpt, if_pos ⟨by omega, hc, hpt⟩]
                · rw [if_neg hpt, if_neg (fun h => hpt h.2.2)]
            · simp [hr]
        · rintro ⟨st2, v⟩ ⟨hR2, hv⟩
          simp only at hR2 hv
          subst hv
          simp only [post_ok]
          have hz' : Zeros E (hNew E M σ ρ i f) := by
            constructor
            · intro r c hr hc
              have := E.p_le r hr
              unfold hNew
              split
              · rename_i e; subst e
                rw [if_pos (by omega), if_neg (by omega)]
                exact hz.1 r c hr hc
              · exact hz.1 r c hr hc
            · intro r c hc hr
              have := E.q_le c hc
              unfold hNew
              split
              · rename_i e; subst e
                rw [if_neg (by omega), if_neg (by unfold Pat; omega)]
                exact hz.2 r c hc hr
              · exact hz.2 r c hc hr
          refine ⟨⟨hNew E M σ ρ i f, _, hR2, hz', hext _, ?_, ?_⟩⟩
          · intro k hk
            by_cases e : k = i
            · subst e
              rw [if_pos rfl]
              apply Finset.sum_congr rfl
              intro c hc
              simp only [mem_Ico] at hc
              unfold onPat
              by_cases hpt : Pat E k c
              · rw [if_pos hpt, if_pos hpt]
                have hck : ¬ c < k := by omega
                simp only [hNew, if_true, if_neg hck, if_pos hpt]
              · rw [if_neg hpt, if_neg hpt]
            · rw [if_neg e, hρ k (by omega)]
              simp only [hNew, if_neg e]
          · intro k hk
            by_cases e : k = i
            · subst e
              rw [if_pos rfl]
              have e1 : ∑ m ∈ range k, hNew E M σ ρ k f k m * (if m = k then
                  ∑ c ∈ Ico k E.n, onPat E k (fun c => (M k c + σ c * f) * σ c) c else ρ m)
                  = ∑ m ∈ range k, M k m * ρ m + f * ∑ m ∈ Ico (E.p k) k, ρ m * ρ m := by
                rw [Finset.mul_sum]
                rw [← Finset.sum_range_add_sum_Ico _ hp, ← Finset.sum_range_add_sum_Ico _ hp,
                  add_assoc, ← Finset.sum_add_distrib]
                congr 1
                · apply Finset.sum_congr rfl
                  intro m hm
                  have := mem_range.1 hm
                  unfold hNew
                  rw [if_pos rfl, if_pos (by omega), if_neg (by omega), if_neg (by omega)]
                · apply Finset.sum_congr rfl
                  intro m hm
                  have := mem_Ico.1 hm
                  unfold hNew
                  rw [if_pos rfl, if_pos (by omega), if_pos (by omega), if_neg (by omega)]
                  ring
              have e2 : ∑ c ∈ Ico k E.n, onPat E k (fun c => (M k c + σ c * f) * σ c) c
                  = ∑ c ∈ Ico k E.n, onPat E k (fun c => M k c * σ c) c
                    + f * ∑ c ∈ Ico k E.n, onPat E k (fun c => σ c * σ c) c := by
                rw [Finset.mul_sum, ← Finset.sum_add_distrib]
                apply Finset.sum_congr rfl
                intro c _
                unfold onPat
                split
                · ring
                · ring
              rw [e1, e2]
              have e3 : f * hAA E σ ρ k = hBeta E M σ y ρ k := div_mul_cancel₀ _ haa
              unfold hAA at e3
              rw [mul_add] at e3
              unfold hBeta at e3
              linear_combination e3
            · have := hsec k (by omega)
              rw [← this]
              simp only [if_neg e]
              congr 1
              apply Finset.sum_congr rfl
              intro m hm
              have := mem_range.1 hm
              rw [if_neg (by omega)]
              simp only [hNew, if_neg e]

theorem hart_post {σ y : Nat → K} {ms my : Nat} (hs : E.n ≤ ms) (hy : E.n ≤ my)
    (hR : Rep E true M st) (hz : Zeros E M) (F : Fault → Prop)
    (hF : ∀ ρ i, i < E.n → hAA E σ ρ i = 0 → F .divZero) :
    Post (loop 0 st.p.length (hartRow ((List.range ms).map σ) ((List.range my).map y)) (st, []))
      (HInv E σ y E.n) F := by
  rw [hR.toShape.len]
  refine loop_post (fun i a => HInv E σ y i a) (Nat.zero_le _) ?_ ?_
  · exact ⟨⟨M, fun _ => 0, hR, hz, rfl, fun k hk => by omega, fun k hk => by omega⟩⟩
  · intro i a _ hi h
    exact hartRow_post hs hy hi h F (fun ρ h => hF ρ i hi h)

/-- every row reaches the diagonal from the left or has an entry on or right of it -/
def EDiag (E : Sten) : Prop := ∀ i, i < E.n → i ≤ E.s i

omit [DecidableEq K] in
/-- Secant equations in terms of the product of the factors. -/
theorem hart_secant (hfill : EFilled E) (hdiag : EDiag E) (hz : Zeros E M) {σ y ρ : Nat → K}
    (hρ : ∀ k, k < E.n → ρ k = ∑ c ∈ Ico k E.n, onPat E k (fun c => M k c * σ c) c)
    (hsec : ∀ k, k < E.n → ∑ m ∈ range k, M k m * ρ m + ρ k = y k) {i : Nat} (hi : i < E.n) :
    ∑ c ∈ range E.n, (∑ k ∈ range E.n, lowerOf M i k * upperOf M k c) * σ c = y i := by
  have hU : ∀ k, k < E.n → ∑ c ∈ range E.n, upperOf M k c * σ c = ρ k := by
    intro k hk
    rw [hρ k hk]
    symm
    rw [show ∑ c ∈ Ico k E.n, onPat E k (fun c => M k c * σ c) c
        = ∑ c ∈ Ico k E.n, upperOf M k c * σ c from ?_]
    · apply Finset.sum_subset
      · intro c; simp only [mem_Ico, mem_range]; omega
      · intro c h1 h2
        simp only [mem_Ico, mem_range] at h1 h2
        unfold upperOf; rw [if_neg (by omega), zero_mul]
    · apply Finset.sum_congr rfl
      intro c hc
      simp only [mem_Ico] at hc
      unfold onPat upperOf
      rw [if_pos hc.1]
      split
      · rfl
      · rename_i hpt
        rw [hz.2 k c hc.2, zero_mul]
        by_contra hq
        rw [not_lt] at hq
        rcases Nat.lt_or_eq_of_le hc.1 with h1 | h1
        · exact hpt ⟨hfill k c h1 hc.2 hq, hq⟩
        · subst h1; exact hpt ⟨hdiag k hk, hq⟩
  rw [sum_swap, Finset.sum_congr rfl (fun k hk => by rw [hU k (mem_range.1 hk)]), lower_sum hi]
  exact hsec i hi

end Verif.LU
